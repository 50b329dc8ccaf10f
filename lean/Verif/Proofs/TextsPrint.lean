import Verif.Proofs.Texts
import Verif.Proofs.PrintFile
/-
The text of a configuration whose texts are valid UTF-8 is valid UTF-8.
-/
namespace Verif
open Spec

local notation "V" => ValidUTF8

theorem vlit (b : Bytes) (h : asciiB b = true := by decide) : V b := validUTF8_ascii h

theorem v_ind (n : Nat) : V (render (ind n)) := by
  induction n with
  | zero => exact validUTF8_nil
  | succ n ih => rw [show ind (n + 1) = .sp :: ind n from rfl, render_cons]; exact validUTF8_append (vlit _) ih

theorem v_coms (n : Nat) {cs : CommentBlock} (h : ComsTx cs) : V (render (comsP n cs)) := by
  induction cs with
  | nil => exact validUTF8_nil
  | cons c cs ih =>
    rw [comsP, render_append, render_append, render_append, render_append]
    refine validUTF8_append (validUTF8_append (validUTF8_append ?_ (validUTF8_append (v_ind n) ?_)) ?_) (ih fun x hx => h x (List.mem_cons_of_mem _ hx))
    · cases c.spaceBefore <;> exact vlit _
    · have : render [.com (32 :: c.text), .nl] = [35, 32] ++ c.text ++ [10] := by simp [render, Piece.text]
      rw [this]
      exact validUTF8_append (validUTF8_append (vlit _) (h c (List.mem_cons_self ..))) (vlit _)
    · cases c.spaceAfter <;> exact vlit _

theorem v_block {n : Nat} {e : Bool} {close : Bytes} {X : List Piece} {f : CommentBlock} (hc : V close) (hf : ComsTx f) (h : V (render X)) :
    V (render (blockP n e close X f)) := by
  unfold blockP
  rw [render_append]
  have hcl : V (render [.code close]) := by
    rw [show render [.code close] = close ++ [] from rfl]; exact validUTF8_append hc validUTF8_nil
  refine validUTF8_append ?_ hcl
  split
  · split
    · rw [render_cons]; exact validUTF8_append (vlit _) (v_ind n)
    · exact validUTF8_nil
  · rw [render_cons, render_append, render_append, render_append]
    refine validUTF8_append (vlit _) (validUTF8_append (validUTF8_append (validUTF8_append h ?_) ?_) (v_ind n))
    · split <;> exact vlit _
    · split
      · exact vlit _
      · rw [render_append]
        refine validUTF8_append ?_ (v_coms (n + 1) hf)
        split <;> exact vlit _

theorem v_num {a : NumAttr} (h : Exact a.value) : V a.valueStr := validUTF8_ascii (num_ascii (numString_exact h.1 h.2).1)

theorem v_str {a : StrAttr} (h : (⟨a.sat, a.value⟩ : StrLit).Name) (hv : V a.value) : V a.valueStr := by
  rw [strAttr_text a h]
  unfold StrLit.text
  have : V (StrLit.quote a.sat) := by cases a.sat <;> exact vlit _
  exact validUTF8_append (validUTF8_append this hv) this

theorem v_key {k : HKey} (h : KeyOk true k) (hv : KeyTx k) : V k.valueStr := by
  cases k with
  | str a => exact v_str (value_name h.1) hv
  | num a => exact v_num (h.1 rfl)

theorem v_code {b : Bytes} {ps : List Piece} (hb : V b) (h : V (render ps)) : V (render (.code b :: ps)) := by
  rw [render_code]; exact validUTF8_append hb h

theorem v_app {a b : List Piece} (ha : V (render a)) (hb : V (render b)) : V (render (a ++ b)) := by
  rw [render_append]; exact validUTF8_append ha hb

mutual
theorem v_val : ∀ (a : Attr) (n : Nat), ValueOk true a → ValTx a → V (render (valP n a))
  | .nil, n, h, _ => validUTF8_nil
  | .str a, n, h, t => by
    rw [ValueOk] at h; rw [ValTx] at t
    rw [valP]; exact v_code (v_str (value_name h) t) (vlit _)
  | .num a, n, h, _ => by
    rw [ValueOk] at h
    rw [valP]; exact v_code (v_num (h rfl)) (vlit _)
  | .arr p m as c f, n, h, t => by
    rw [ValueOk] at h; rw [ValTx] at t
    rw [valP]; exact v_code (vlit _) (v_block (vlit _) t.2 (v_elems as true (n + 1) h.1 t.1))
  | .hash p m es c f, n, h, t => by
    rw [ValueOk] at h; rw [ValTx] at t
    rw [valP]; exact v_code (vlit _) (v_block (vlit _) t.2 (v_entries es true (n + 1) h.1 t.1))
  | .plug p m v c, n, h, t => by
    rw [ValueOk] at h; rw [ValTx] at t
    rw [valP]; exact v_plug v n h.1 t
theorem v_elems : ∀ (as : List Attr) (first : Bool) (n : Nat), ElemsOk true as → AttrsTx as → V (render (elemsP first n as))
  | [], _, n, h, _ => validUTF8_nil
  | a :: as, first, n, h, t => by
    rw [ElemsOk] at h; rw [AttrsTx] at t
    rw [elemsP]
    exact v_app (v_app (by cases first <;> exact vlit _) (v_app (v_coms n t.2.1) (v_app (v_ind n) (v_val a n h.1 t.2.2.1))))
      (v_elems as false n h.2.2.2.2 t.2.2.2)
theorem v_entries : ∀ (es : List HEntry) (first : Bool) (n : Nat), EntriesOk true es → EntriesTx es → V (render (entriesP first n es))
  | [], _, n, h, _ => validUTF8_nil
  | .mk p k v c :: es, first, n, h, t => by
    rw [EntriesOk] at h; rw [EntriesTx] at t
    rw [entriesP]
    exact v_app (v_app (by cases first <;> exact vlit _) (v_app (v_coms n t.2.2.1) (v_app (v_ind n)
      (v_code (validUTF8_append (v_key h.1 t.1) (vlit _)) (v_val v n h.2.1 t.2.1))))) (v_entries es false n h.2.2.2.2.2.2 t.2.2.2)
theorem v_plug : ∀ (p : Plugin) (n : Nat), PluginOk true p → PlugTx p → V (render (plugP n p))
  | .mk p m as c f, n, h, t => by
    rw [PluginOk] at h; rw [PlugTx] at t
    rw [plugP]
    exact v_code (validUTF8_append t.1 (vlit _)) (v_block (vlit _) t.2.2.2 (v_attrs as true (n + 1) h.2.1 t.2.1))
theorem v_attrs : ∀ (as : List Attr) (first : Bool) (n : Nat), AttrsOk true as → AttrsTx as → V (render (attrsP first n as))
  | [], _, n, h, _ => validUTF8_nil
  | a :: as, first, n, h, t => by
    rw [AttrsOk] at h; rw [AttrsTx] at t
    rw [attrsP]
    exact v_app (v_app (by cases first <;> exact vlit _) (v_app (v_coms n t.2.1) (v_app (v_ind n)
      (v_code (validUTF8_append t.1 (vlit _)) (v_val a n h.1 t.2.2.1))))) (v_attrs as false n h.2.2.2 t.2.2.2)
end

theorem v_sel {s : Selector} (t : SelTx s) : V s.str := by
  unfold Selector.str
  unfold SelTx at t
  generalize s.elems = l at t
  induction l with
  | nil => exact vlit _
  | cons e l ih =>
    rw [List.flatMap_cons]
    refine validUTF8_append ?_ (ih fun x hx => t x (List.mem_cons_of_mem _ hx))
    exact validUTF8_append (validUTF8_append (vlit b!"[") (t e (List.mem_cons_self ..))) (vlit b!"]")

theorem v_rval {r : Rvalue} (n : Nat) (h : RvalueOk true r) (t : RvTx r) : V (render (rvalP n r)) := by
  cases r with
  | nil => exact validUTF8_nil
  | str a => exact v_code (v_str (.inr h.1) t) (vlit _)
  | num a => exact v_code (v_num (h.1 rfl)) (vlit _)
  | sel s => exact v_code (v_sel t) (vlit _)
  | arr p m as c f =>
    have h' : ValueOk true (.arr p m as c f) := by rw [ValueOk]; exact ⟨h.1, h.2.1⟩
    have t' : ValTx (.arr p m as c f) := by rw [ValTx]; exact t
    exact v_val _ n h' t'
  | re r => exact v_code (validUTF8_append (validUTF8_append (vlit b!"/") t) (vlit b!"/")) (vlit _)

theorem v_op (b : BoolExpr) : V (render (opP b)) := by
  unfold opP
  cases b.op.op <;> exact vlit _

mutual
theorem v_expr : ∀ (e : Expr) (n : Nat) (first : Bool), Spec.ExprOk true first e → ExprTx e → V (render (exprP n e))
  | .nil, n, _, h, _ => validUTF8_nil
  | .cond p b c, n, _, h, t => by
    rw [Spec.ExprOk] at h; rw [ExprTx] at t; rw [exprP]
    exact v_app (v_op b) (v_code (vlit _) (v_app (v_cond c n true h.2 t) (vlit _)))
  | .negCond p b c, n, _, h, t => by
    rw [Spec.ExprOk] at h; rw [ExprTx] at t; rw [exprP]
    exact v_app (v_op b) (v_code (vlit _) (v_app (v_cond c n true h.2 t) (vlit _)))
  | .negSel p b s, n, _, h, t => by
    rw [ExprTx] at t; rw [exprP]
    exact v_app (v_op b) (v_code (validUTF8_append (vlit _) (v_sel t)) (vlit _))
  | .inE p b l r, n, _, h, t => by
    rw [Spec.ExprOk] at h; rw [ExprTx] at t; rw [exprP]
    exact v_app (v_op b) (v_app (v_rval n h.2.1 t.1) (v_code (vlit _) (v_rval n h.2.2 t.2)))
  | .notIn p b l r, n, _, h, t => by
    rw [Spec.ExprOk] at h; rw [ExprTx] at t; rw [exprP]
    exact v_app (v_op b) (v_app (v_rval n h.2.1 t.1) (v_code (vlit _) (v_rval n h.2.2 t.2)))
  | .rval p b r, n, _, h, t => by
    rw [Spec.ExprOk] at h; rw [ExprTx] at t; rw [exprP]
    exact v_app (v_op b) (v_rval n h.2 t)
  | .cmp p b l o r, n, _, h, t => by
    rw [Spec.ExprOk] at h; rw [ExprTx] at t; rw [exprP]
    exact v_app (v_op b) (v_app (v_rval n h.2.1 t.1) (v_code (by cases o.op <;> exact vlit _) (v_rval n h.2.2.2 t.2)))
  | .re p b l o r, n, _, h, t => by
    rw [Spec.ExprOk] at h; rw [ExprTx] at t; rw [exprP]
    exact v_app (v_op b) (v_app (v_rval n h.2.1 t.1) (v_code (by cases o.op <;> exact vlit _) (v_rval n h.2.2.2.1 t.2)))
theorem v_cond : ∀ (es : List Expr) (n : Nat) (first : Bool), Spec.CondOk true first es → CondTx es → V (render (condP n es))
  | [], n, _, h, _ => validUTF8_nil
  | e :: es, n, first, h, t => by
    rw [Spec.CondOk] at h; rw [CondTx] at t; rw [condP]
    exact v_app (v_expr e n first h.1 t.1) (v_cond es n false h.2 t.2)
end

theorem v_lead (n : Nat) {cm : CommentBlock} (h : ComsTx cm) : V (render (leadP n cm)) := by
  unfold leadP
  split
  · exact vlit _
  · rw [render_cons]; exact validUTF8_append (vlit _) (v_app (v_coms n h) (v_ind n))

theorem comsTx_plug {p : Plugin} (h : PlugTx p) : ComsTx p.comment := by
  cases p; rw [PlugTx] at h; exact h.2.2.1

mutual
theorem v_bop : ∀ (b : BOP) (n : Nat), BopOk true b → BopTx b → V (render (bopP n b))
  | .nil, n, h, _ => validUTF8_nil
  | .plugin p, n, h, t => by
    rw [BopOk] at h; rw [BopTx] at t; rw [bopP]
    exact v_app (v_coms n (comsTx_plug t)) (v_app (v_ind n) (v_plug p n h.1 t))
  | .pluginPtr p, n, h, t => by
    rw [BopOk] at h; rw [BopTx] at t; rw [bopP]
    exact v_app (v_coms n (comsTx_plug t)) (v_app (v_ind n) (v_plug p n h.1 t))
  | .branch p c b cm f ei el, n, h, t => by
    rw [BopOk] at h; rw [BopTx] at t
    obtain ⟨h1, h2, h3, h4, h5, h6⟩ := h
    obtain ⟨t1, t2, t3, t4, t5, t6⟩ := t
    rw [bopP]
    exact v_app (v_coms n t3) (v_app (v_ind n) (v_code (vlit _) (v_app (v_cond c n true h1 t1) (v_code (vlit _)
      (v_app (v_block (vlit _) t4 (v_items b true (n + 1) h2 t2)) (v_app (v_elifs ei n h5 t5) (v_else el n h6 t6)))))))
theorem v_items : ∀ (bs : List BOP) (first : Bool) (n : Nat), BlockOk true bs → BlockTx bs → V (render (itemsP first n bs))
  | [], _, n, h, _ => validUTF8_nil
  | b :: bs, first, n, h, t => by
    rw [BlockOk] at h; rw [BlockTx] at t
    rw [itemsP]
    exact v_app (v_app (by cases first <;> exact vlit _) (v_bop b n h.1 t.1)) (v_items bs false n h.2.2 t.2)
theorem v_elifs : ∀ (es : List Elif) (n : Nat), ElifsOk true es → ElifsTx es → V (render (elifsP n es))
  | [], n, h, _ => validUTF8_nil
  | .mk p c b cm f :: es, n, h, t => by
    rw [ElifsOk] at h; rw [ElifsTx] at t
    obtain ⟨h1, h2, h3, h4, h5⟩ := h
    obtain ⟨t1, t2, t3, t4, t5⟩ := t
    rw [elifsP]
    exact v_app (v_lead n t3) (v_code (vlit _) (v_app (v_cond c n true h1 t1) (v_code (vlit _)
      (v_app (v_block (vlit _) t4 (v_items b true (n + 1) h2 t2)) (v_elifs es n h5 t5)))))
theorem v_else : ∀ (e : ElseB) (n : Nat), ElseOk true e → ElseTx e → V (render (elseP n e))
  | .mk p b cm f, n, h, t => by
    rw [ElseOk] at h; rw [ElseTx] at t
    rw [elseP]
    split
    · exact vlit _
    · exact v_app (v_lead n t.2.1) (v_code (vlit _) (v_block (vlit _) t.2.2 (v_items b true (n + 1) h.1 t.1)))
end

theorem v_commentsStr {cs : CommentBlock} (h : ComsTx cs) : V (commentsStr cs) := by
  rw [commentsStr_render]; exact v_coms 0 h

theorem v_loop (pt : Bytes) (hp : V pt) (c0 : CommentBlock) (hc : ComsTx c0) : ∀ (l : List Section),
    (∀ s ∈ l, BlockOk true s.bops ∧ CommentsOk s.footer) → (∀ s ∈ l, SectTx s) → V (sectionsLoop pt c0 l)
  | [], _, _ => validUTF8_nil
  | s :: ss, h, t => by
    obtain ⟨h1, h2⟩ := h s (List.mem_cons_self ..)
    obtain ⟨t1, t2, t3⟩ := t s (List.mem_cons_self ..)
    have h3 := v_loop pt hp c0 hc ss (fun x hx => h x (List.mem_cons_of_mem _ hx)) (fun x hx => t x (List.mem_cons_of_mem _ hx))
    have hb := section_render h1 h2
    have hs : V (prefixS s.str false ++ prefixS (commentsStr s.footer) false ++ b!"}") := by
      unfold Section.str; rw [hb]; exact v_block (vlit _) t3 (v_items s.bops true 1 h1 t1)
    rw [sectionsLoop]
    have e : commentsStr c0 ++ pt ++ b!" {" ++ prefixS s.str false ++ prefixS (commentsStr s.footer) false ++ b!"}\n" ++
        (if ss.isEmpty then [] else b!"\n") ++ sectionsLoop pt c0 ss =
        (commentsStr c0 ++ pt ++ b!" {") ++ ((prefixS s.str false ++ prefixS (commentsStr s.footer) false ++ b!"}") ++
          ((b!"\n" ++ (if ss.isEmpty then [] else b!"\n")) ++ sectionsLoop pt c0 ss)) := by simp
    rw [e]
    refine validUTF8_append (validUTF8_append (validUTF8_append (v_commentsStr hc) hp) (vlit _)) (validUTF8_append hs (validUTF8_append ?_ h3))
    cases ss.isEmpty <;> exact vlit _

theorem v_sections (pt : Bytes) (hp : V pt) {t : PluginType} {l : List Section} (h : SectionsOk true t l) (ht : ∀ s ∈ l, SectTx s) :
    V (sectionsStr pt l) := by
  cases l with
  | nil => exact validUTF8_nil
  | cons s ss => exact v_loop pt hp s.comment (ht s (List.mem_cons_self ..)).2.1 (s :: ss) (fun x hx => ⟨(h x hx).2.1, (h x hx).2.2.2⟩) ht

/-- The text of a printable configuration is valid UTF-8 if all texts in it are. -/
theorem config_valid {c : Config} (h : Printable c) (t : ConfigTx c) : V c.str := by
  obtain ⟨h1, h2, h3, h4⟩ := h
  obtain ⟨t1, t2, t3, t4⟩ := t
  unfold Config.str
  exact validUTF8_append (validUTF8_append (validUTF8_append (v_sections _ (vlit _) h1 t1) (v_sections _ (vlit _) h2 t2))
    (v_sections _ (vlit _) h3 t3)) (v_commentsStr t4)

end Verif
