import Verif.Proofs.PrintFile
import Verif.Spec.Literals
/-
Tokens occur verbatim in the printed text, at any depth.
-/
namespace Verif
open Spec

theorem _root_.Verif.Spec.Spread.app {ls ms : List Bytes} {a b : Bytes} (h : Spread ls a) (k : Spread ms b) : Spread (ls ++ ms) (a ++ b) := by
  induction h with
  | nil t =>
    cases k with
    | nil t' => exact .nil _
    | cons g l k => rw [List.nil_append, ← List.append_assoc, ← List.append_assoc]; exact .cons _ _ k
  | cons g l _ ih => rw [List.append_assoc (g ++ l)]; exact .cons g l ih

theorem _root_.Verif.Spec.Spread.pre (g : Bytes) {ls : List Bytes} {a : Bytes} (h : Spread ls a) : Spread ls (g ++ a) := Spread.app (.nil g) h
theorem _root_.Verif.Spec.Spread.post (g : Bytes) {ls : List Bytes} {a : Bytes} (h : Spread ls a) : Spread ls (a ++ g) := by
  have := Spread.app h (.nil g); rwa [List.append_nil] at this
theorem _root_.Verif.Spec.Spread.one (l : Bytes) : Spread [l] l := by
  have := Spread.cons [] l (.nil []); simpa using this

theorem spread_block {n : Nat} {e : Bool} {close : Bytes} {X : List Piece} {f : CommentBlock} {ls : List Bytes} (h : Spread ls (render X)) :
    Spread ls (render (blockP n e close X f)) := by
  unfold blockP
  rw [render_append]
  apply Spread.post
  split
  · next hc =>
    simp only [Bool.and_eq_true, List.isEmpty_iff] at hc
    obtain ⟨rfl, _⟩ := hc
    exact (Spread.post _ h).pre []
  · rw [render_cons, render_append, render_append, render_append, List.append_assoc, List.append_assoc]
    exact (h.post _).pre _

theorem strAttr_lit {a : StrAttr} (h : (⟨a.sat, a.value⟩ : StrLit).Name) : a.valueStr = litText a := by
  unfold StrAttr.valueStr litText StrLit.text
  rcases h with ⟨h, _⟩ | ⟨h, _⟩ | ⟨h, _⟩ <;> simp only at h <;> rw [h] <;> rfl

theorem attrsLits_cons {a : Attr} (h : a ≠ .nil) (as : List Attr) : attrsLits (a :: as) = a.name :: valLits a ++ attrsLits as := by
  cases a <;> first | exact absurd rfl h | simp [attrsLits, valLits, Attr.name]

mutual
theorem spread_val : ∀ (a : Attr) (n : Nat), ValueOk true a → Spread (valLits a) (render (valP n a))
  | .nil, n, h => .nil _
  | .str a, n, h => by
    rw [ValueOk] at h
    rw [valLits, valP, render_code, strAttr_lit (value_name h)]; exact (Spread.one _).post _
  | .num a, n, h => .nil _
  | .arr p m as c f, n, h => by
    rw [ValueOk] at h
    rw [valLits, valP, render_code]; exact (spread_block (spread_elems as true (n + 1) h.1)).pre _
  | .hash p m es c f, n, h => by
    rw [ValueOk] at h
    rw [valLits, valP, render_code]; exact (spread_block (spread_entries es true (n + 1) h.1)).pre _
  | .plug p m v c, n, h => by
    rw [ValueOk] at h
    rw [valLits, valP]; exact spread_plug v n h.1
theorem spread_elems : ∀ (as : List Attr) (first : Bool) (n : Nat), ElemsOk true as → Spread (elemsLits as) (render (elemsP first n as))
  | [], _, n, h => .nil _
  | a :: as, first, n, h => by
    rw [ElemsOk] at h
    rw [elemsLits, elemsP, render_append, render_append, render_append, render_append]
    exact Spread.app (Spread.pre _ (Spread.pre _ (Spread.pre _ (spread_val a n h.1)))) (spread_elems as false n h.2.2.2.2)
theorem spread_entries : ∀ (es : List HEntry) (first : Bool) (n : Nat), EntriesOk true es → Spread (entriesLits es) (render (entriesP first n es))
  | [], _, n, h => .nil _
  | .mk p k v c :: es, first, n, h => by
    rw [EntriesOk] at h
    have hk : Spread (keyLits k) k.valueStr := by
      cases k with
      | str a => rw [keyLits, HKey.valueStr, strAttr_lit (value_name h.1.1)]; exact .one _
      | num a => exact .nil _
    rw [entriesLits, entriesP, render_append, render_append, render_append, render_append, render_code]
    exact Spread.app (Spread.pre _ (Spread.pre _ (Spread.pre _ (Spread.app (hk.post _) (spread_val v n h.2.1))))) (spread_entries es false n h.2.2.2.2.2.2)
theorem spread_plug : ∀ (p : Plugin) (n : Nat), PluginOk true p → Spread (pluginLits p) (render (plugP n p))
  | .mk p m as c f, n, h => by
    rw [PluginOk] at h
    rw [pluginLits, plugP, render_code]
    exact Spread.app (ls := [m]) ((Spread.one m).post _) (spread_block (spread_attrs as true (n + 1) h.2.1))
theorem spread_attrs : ∀ (as : List Attr) (first : Bool) (n : Nat), AttrsOk true as → Spread (attrsLits as) (render (attrsP first n as))
  | [], _, n, h => .nil _
  | a :: as, first, n, h => by
    rw [AttrsOk] at h
    have hne : a ≠ .nil := by rintro rfl; exact absurd h.1 (by simp [ValueOk])
    rw [attrsLits_cons hne, attrsP, render_append, render_append, render_append, render_append, render_code]
    exact Spread.app (Spread.pre _ (Spread.pre _ (Spread.pre _ (Spread.app (ls := [a.name]) ((Spread.one _).post _) (spread_val a n h.1)))))
      (spread_attrs as false n h.2.2.2)
end

theorem selLit_str (s : Selector) : selLit s = s.str := by
  unfold selLit selText Selector.str SelElem.str
  rw [List.flatMap_map]

theorem spread_rval {r : Rvalue} (n : Nat) (h : RvalueOk true r) : Spread (rvalueLits r) (render (rvalP n r)) := by
  cases r with
  | nil => exact .nil _
  | str a =>
    obtain ⟨h1, h2, h3⟩ := h
    rw [rvalueLits, rvalP, render_code, strAttr_lit (.inr h1)]; exact (Spread.one _).post _
  | num a => exact .nil _
  | sel s => rw [rvalueLits, rvalP, render_code, selLit_str]; exact (Spread.one _).post _
  | arr p m as c f =>
    have : ValueOk true (.arr p m as c f) := by rw [ValueOk]; exact ⟨h.1, h.2.1⟩
    have := spread_val _ n this
    rw [valLits] at this
    rw [rvalueLits, rvalP]; exact this
  | re r => rw [rvalueLits, rvalP, render_code]; exact (Spread.one _).post _

mutual
theorem spread_expr : ∀ (e : Expr) (n : Nat) (first : Bool), ExprOk true first e → Spread (exprLits e) (render (exprP n e))
  | .nil, n, _, h => .nil _
  | .cond p b c, n, _, h => by
    rw [ExprOk] at h; rw [exprLits, exprP, render_append, render_code, render_append]
    exact Spread.pre _ (Spread.pre _ (Spread.post _ (spread_cond c n true h.2)))
  | .negCond p b c, n, _, h => by
    rw [ExprOk] at h; rw [exprLits, exprP, render_append, render_code, render_append]
    exact Spread.pre _ (Spread.pre _ (Spread.post _ (spread_cond c n true h.2)))
  | .negSel p b s, n, _, h => by
    rw [exprLits, exprP, render_append, render_code, selLit_str]
    exact Spread.pre _ (Spread.post _ (Spread.pre _ (Spread.one _)))
  | .inE p b l r, n, _, h => by
    rw [ExprOk] at h; rw [exprLits, exprP, render_append, render_append, render_code]
    exact Spread.pre _ (Spread.app (spread_rval n h.2.1) (Spread.pre _ (spread_rval n h.2.2)))
  | .notIn p b l r, n, _, h => by
    rw [ExprOk] at h; rw [exprLits, exprP, render_append, render_append, render_code]
    exact Spread.pre _ (Spread.app (spread_rval n h.2.1) (Spread.pre _ (spread_rval n h.2.2)))
  | .rval p b r, n, _, h => by
    rw [ExprOk] at h; rw [exprLits, exprP, render_append]
    exact Spread.pre _ (spread_rval n h.2)
  | .cmp p b l o r, n, _, h => by
    rw [ExprOk] at h; rw [exprLits, exprP, render_append, render_append, render_code]
    exact Spread.pre _ (Spread.app (spread_rval n h.2.1) (Spread.pre _ (spread_rval n h.2.2.2)))
  | .re p b l o r, n, _, h => by
    rw [ExprOk] at h; rw [exprLits, exprP, render_append, render_append, render_code]
    exact Spread.pre _ (Spread.app (spread_rval n h.2.1) (Spread.pre _ (spread_rval n h.2.2.2.1)))
theorem spread_cond : ∀ (es : List Expr) (n : Nat) (first : Bool), CondOk true first es → Spread (condLits es) (render (condP n es))
  | [], n, _, h => .nil _
  | e :: es, n, first, h => by
    rw [CondOk] at h; rw [condLits, condP, render_append]
    exact Spread.app (spread_expr e n first h.1) (spread_cond es n false h.2)
end

mutual
theorem spread_bop : ∀ (b : BOP) (n : Nat), BopOk true b → Spread (bopLits b) (render (bopP n b))
  | .nil, n, h => .nil _
  | .plugin p, n, h => by
    rw [BopOk] at h; rw [bopLits, bopP, render_append, render_append]; exact Spread.pre _ (Spread.pre _ (spread_plug p n h.1))
  | .pluginPtr p, n, h => by
    rw [BopOk] at h; rw [bopLits, bopP, render_append, render_append]; exact Spread.pre _ (Spread.pre _ (spread_plug p n h.1))
  | .branch p c b cm f ei el, n, h => by
    rw [BopOk] at h
    obtain ⟨h1, h2, h3, h4, h5, h6⟩ := h
    rw [bopLits, bopP]
    simp only [render_append, render_code, List.append_assoc]
    exact Spread.pre _ (Spread.pre _ (Spread.pre _ (Spread.app (spread_cond c n true h1) (Spread.pre _ (Spread.app (spread_block (spread_items b true (n + 1) h2))
      (Spread.app (spread_elifs ei n h5) (spread_else el n h6)))))))
theorem spread_items : ∀ (bs : List BOP) (first : Bool) (n : Nat), BlockOk true bs → Spread (blockLits bs) (render (itemsP first n bs))
  | [], _, n, h => .nil _
  | b :: bs, first, n, h => by
    rw [BlockOk] at h
    rw [blockLits, itemsP, render_append, render_append]
    exact Spread.app (Spread.pre _ (spread_bop b n h.1)) (spread_items bs false n h.2.2)
theorem spread_elifs : ∀ (es : List Elif) (n : Nat), ElifsOk true es → Spread (elifsLits es) (render (elifsP n es))
  | [], n, h => .nil _
  | .mk p c b cm f :: es, n, h => by
    rw [ElifsOk] at h
    obtain ⟨h1, h2, h3, h4, h5⟩ := h
    rw [elifsLits, elifsP]
    simp only [render_append, render_code, List.append_assoc]
    exact Spread.pre _ (Spread.pre _ (Spread.app (spread_cond c n true h1) (Spread.pre _ (Spread.app (spread_block (spread_items b true (n + 1) h2))
      (spread_elifs es n h5)))))
theorem spread_else : ∀ (e : ElseB) (n : Nat), ElseOk true e → Spread (elseLits e) (render (elseP n e))
  | .mk p b cm f, n, h => by
    rw [ElseOk] at h
    rw [elseLits, elseP]
    split
    · next hc =>
      simp only [Bool.and_eq_true, List.isEmpty_iff] at hc
      obtain ⟨⟨rfl, _⟩, _⟩ := hc
      exact .nil _
    · simp only [render_append, render_code]
      exact Spread.pre _ (Spread.pre _ (spread_block (spread_items b true (n + 1) h.1)))
end

theorem spread_loop (pt : Bytes) (c0 : CommentBlock) : ∀ (l : List Section), (∀ s ∈ l, BlockOk true s.bops ∧ CommentsOk s.footer) →
    Spread (l.flatMap fun s => blockLits s.bops) (sectionsLoop pt c0 l)
  | [], _ => .nil _
  | s :: ss, h => by
    obtain ⟨h1, h2⟩ := h s (List.mem_cons_self ..)
    have h3 := spread_loop pt c0 ss fun x hx => h x (List.mem_cons_of_mem _ hx)
    have hb := section_render h1 h2
    have hs : Spread (blockLits s.bops) (prefixS s.str false ++ prefixS (commentsStr s.footer) false ++ b!"}") := by
      unfold Section.str; rw [hb]; exact spread_block (spread_items s.bops true 1 h1)
    rw [List.flatMap_cons, sectionsLoop]
    have e : commentsStr c0 ++ pt ++ b!" {" ++ prefixS s.str false ++ prefixS (commentsStr s.footer) false ++ b!"}\n" ++
        (if ss.isEmpty then [] else b!"\n") ++ sectionsLoop pt c0 ss =
        (commentsStr c0 ++ pt ++ b!" {") ++ ((prefixS s.str false ++ prefixS (commentsStr s.footer) false ++ b!"}") ++
          ((b!"\n" ++ (if ss.isEmpty then [] else b!"\n")) ++ sectionsLoop pt c0 ss)) := by simp
    rw [e]
    exact Spread.pre _ (Spread.app hs (Spread.pre _ h3))

theorem spread_sections (pt : Bytes) {t : PluginType} {l : List Section} (h : SectionsOk true t l) :
    Spread (l.flatMap fun s => blockLits s.bops) (sectionsStr pt l) := by
  cases l with
  | nil => exact .nil _
  | cons s ss => exact spread_loop pt s.comment (s :: ss) fun x hx => ⟨(h x hx).2.1, (h x hx).2.2.2⟩

theorem spread_config {c : Config} (h : Printable c) : Spread (configLits c) c.str := by
  obtain ⟨h1, h2, h3, h4⟩ := h
  unfold configLits Config.str
  rw [List.flatMap_append, List.flatMap_append]
  exact Spread.post _ (Spread.app (Spread.app (spread_sections _ h1) (spread_sections _ h2)) (spread_sections _ h3))

end Verif
