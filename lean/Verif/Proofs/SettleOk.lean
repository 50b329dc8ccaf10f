import Verif.Proofs.PrintCstBlock
import Verif.Proofs.Settle
/-
The settled configuration is printable, too.
-/
namespace Verif
open Spec

/-- The bytes other than newlines and blanks. -/
def nw (b : Bytes) : Bytes := b.filter fun c => c != 10 && c != 32

theorem nw_append (a b : Bytes) : nw (a ++ b) = nw a ++ nw b := List.filter_append ..

theorem nw_indB (d : Nat) : nw (indB d) = [] := by
  rw [nw, List.filter_eq_nil_iff]; intro c hc; rw [(List.mem_replicate.1 hc).2]; decide

theorem nw_coms (b : Bool) (d : Nat) (cs : CommentBlock) : nw (render (comsP d (markFirst b cs))) = nw (render (comsP d cs)) := by
  cases cs with
  | nil => rfl
  | cons c cs =>
    simp only [markFirst, comsP, render_append, nw_append]
    cases b <;> cases c.spaceBefore <;> rfl

theorem nw_block (n : Nat) (e : Bool) (close : Bytes) (X : List Piece) (f : CommentBlock) :
    nw (render (blockP n e close X f)) = nw (render X) ++ nw (render (comsP (n + 1) f)) ++ nw close := by
  unfold blockP
  have h10 : nw [10] = [] := rfl
  cases hX : X.isEmpty <;> cases hf : f.isEmpty <;> cases e <;>
    simp only [Bool.and_false, Bool.false_and, Bool.and_self, Bool.false_eq_true, if_true, if_false, render_append, render_cons, render_ind, nw_append, Piece.text,
      render_empty, h10, nw_indB, List.append_nil, List.nil_append] <;>
    (try (have := List.isEmpty_iff.1 hX; subst this)) <;> (try (have := List.isEmpty_iff.1 hf; subst this)) <;> simp [comsP, render_empty, nw]

theorem settle_comment (first : Bool) {a : Attr} (h : a ≠ .nil) : (withComment (markFirst first a.comment) (settleVal a)).comment = markFirst first a.comment :=
  comment_with (mt settleVal_nil.1 h)

theorem nw_withComment (n : Nat) (c : CommentBlock) (a : Attr) : valP n (withComment c a) = valP n a := by
  cases a <;> simp only [withComment, valP] <;> rfl

theorem name_with (c : CommentBlock) (a : Attr) : (withComment c a).name = a.name := by cases a <;> rfl
theorem settleVal_nm (a : Attr) : (settleVal a).name = a.name := by cases a <;> simp [settleVal, Attr.name, AMap.str, AMap.num]
theorem isPlug_with (c : CommentBlock) (a : Attr) : (withComment c a).isPlug = a.isPlug := by cases a <;> rfl
theorem settleVal_isPlug (a : Attr) : (settleVal a).isPlug = a.isPlug := by cases a <;> simp [settleVal, Attr.isPlug]
theorem settleVal_cm (a : Attr) : (settleVal a).comment = a.comment := by
  cases a <;> simp [settleVal, Attr.comment, AMap.str, AMap.num, AMap.noPos]

theorem nw_elemComs (first : Bool) (n : Nat) (a : Attr) :
    nw (render (comsP n (withComment (markFirst first a.comment) (settleVal a)).comment)) = nw (render (comsP n a.comment)) := by
  by_cases h : a = .nil
  · subst h; rfl
  · rw [settle_comment first h, nw_coms]

mutual
theorem nw_val : ∀ (a : Attr) (n : Nat), nw (render (valP n (settleVal a))) = nw (render (valP n a))
  | .nil, n => by rw [settleVal]
  | .str a, n => by rw [settleVal, valP, valP]; rfl
  | .num a, n => by rw [settleVal, valP, valP]; rfl
  | .arr p m as c f, n => by
    rw [settleVal, valP, valP, render_code, render_code, nw_append, nw_append, nw_block, nw_block, nw_elems as, nw_coms]
  | .hash p m es c f, n => by
    rw [settleVal, valP, valP, render_code, render_code, nw_append, nw_append, nw_block, nw_block, nw_entries es, nw_coms]
  | .plug p m v c, n => by rw [settleVal, valP, valP, nw_plug v]
theorem nw_elems : ∀ (as : List Attr) (first first' : Bool) (n : Nat),
    nw (render (elemsP first n (settleAttrs first' as))) = nw (render (elemsP first n as))
  | [], _, _, n => by rw [settleAttrs]
  | a :: as, first, first', n => by
    rw [settleAttrs, elemsP, elemsP]
    simp only [render_append, nw_append, nw_elems as, nw_withComment, nw_val a, nw_elemComs]
theorem nw_entries : ∀ (es : List HEntry) (first first' : Bool) (n : Nat),
    nw (render (entriesP first n (settleEntries first' es))) = nw (render (entriesP first n es))
  | [], _, _, n => by rw [settleEntries]
  | .mk p k v c :: es, first, first', n => by
    rw [settleEntries, entriesP, entriesP]
    have : (AMap.noPos.hkey k).valueStr = k.valueStr := by cases k <;> rfl
    simp only [render_append, render_code, nw_append, nw_entries es, nw_val v, nw_coms, this]
theorem nw_plug : ∀ (p : Plugin) (n : Nat), nw (render (plugP n (settlePlugin p))) = nw (render (plugP n p))
  | .mk p m as c f, n => by
    rw [settlePlugin, plugP, plugP]
    simp only [render_code, nw_append, nw_block, nw_attrs as, nw_coms]
theorem nw_attrs : ∀ (as : List Attr) (first first' : Bool) (n : Nat),
    nw (render (attrsP first n (settleAttrs first' as))) = nw (render (attrsP first n as))
  | [], _, _, n => by rw [settleAttrs]
  | a :: as, first, first', n => by
    rw [settleAttrs, attrsP, attrsP]
    simp only [render_append, render_code, nw_append, nw_attrs as, nw_withComment, nw_val a, nw_elemComs, name_with, settleVal_nm]
end

theorem find_nw (b : Bytes) : b.find? (fun c => !isSelChar c) = (nw b).find? (fun c => !isSelChar c) := by
  induction b with
  | nil => rfl
  | cons c b ih =>
    unfold nw at ih ⊢
    rw [List.filter_cons]
    split
    · rw [List.find?_cons, List.find?_cons, ih]
    · next h =>
      rw [← ih, List.find?_cons_of_neg]
      have : c = 10 ∨ c = 32 := by grind
      rcases this with rfl | rfl <;> decide

/-! ### Comments -/

theorem commentsOk_mark {b : Bool} {cs : CommentBlock} (h : CommentsOk cs) : CommentsOk (markFirst b cs) := by
  cases cs with
  | nil => exact h
  | cons c cs =>
    intro x hx
    rcases List.mem_cons.1 hx with rfl | hx
    · exact h c (List.mem_cons_self ..)
    · exact h x (List.mem_cons_of_mem _ hx)

theorem sectionCommentsOk_mark {b : Bool} {cs : CommentBlock} (h : SectionCommentsOk cs) : SectionCommentsOk (markFirst b cs) := by
  cases cs with
  | nil => exact h
  | cons c cs =>
    refine ⟨fun x hx => ?_, ?_⟩
    · rcases List.mem_cons.1 hx with rfl | hx
      · exact h.1 c (List.mem_cons_self ..)
      · exact h.1 x (List.mem_cons_of_mem _ hx)
    · cases cs with
      | nil => simp [markFirst]
      | cons d cs =>
        intro x hx
        simp only [markFirst, List.dropLast_cons_cons] at hx
        rcases List.mem_cons.1 hx with rfl | hx
        · exact h.2 c (by simp)
        · exact h.2 x (by simp only [List.dropLast_cons_cons]; exact List.mem_cons_of_mem _ hx)

theorem sectionCommentsOk_noAfter {cs : CommentBlock} (h : SectionCommentsOk cs) : SectionCommentsOk (cs.map noAfter) := by
  refine ⟨fun x hx => ?_, fun x hx => ?_⟩
  · obtain ⟨y, hy, rfl⟩ := List.mem_map.1 hx; exact h.1 y hy
  · obtain ⟨y, hy, rfl⟩ := List.mem_map.1 (List.dropLast_subset _ hx); rfl

/-! ### Values -/

theorem keyOk_noPos {t : Bool} {k : HKey} (h : KeyOk t k) : KeyOk t (AMap.noPos.hkey k) := by cases k <;> exact h

theorem valueOk_with {t : Bool} (c : CommentBlock) {a : Attr} (h : ValueOk t a) : ValueOk t (withComment c a) := by
  cases a <;> simp only [withComment, ValueOk] at h ⊢ <;> exact h

theorem valueOk_ne {t : Bool} {a : Attr} (h : ValueOk t a) : a ≠ .nil := by
  rintro rfl; exact absurd h (by simp [ValueOk])

mutual
theorem valueOk_settle {t : Bool} : ∀ a, ValueOk t a → ValueOk t (settleVal a)
  | .nil, h => h
  | .str a, h => by rw [settleVal]; exact h
  | .num a, h => by rw [settleVal]; exact h
  | .arr p m as c f, h => by
    rw [ValueOk] at h; rw [settleVal, ValueOk]; exact ⟨elemsOk_settle as true h.1, commentsOk_mark h.2⟩
  | .hash p m es c f, h => by
    rw [ValueOk] at h; rw [settleVal, ValueOk]; exact ⟨entriesOk_settle es true h.1, commentsOk_mark h.2⟩
  | .plug p m v c, h => by
    rw [ValueOk] at h; rw [settleVal, ValueOk]; refine ⟨pluginOk_settle v h.1, ?_⟩
    obtain ⟨p', n', as', c', f'⟩ := v
    have := h.2
    simp only [Plugin.comment] at this
    subst this
    rw [settlePlugin]; rfl
theorem elemsOk_settle {t : Bool} : ∀ as first, ElemsOk t as → ElemsOk t (settleAttrs first as)
  | [], _, h => h
  | a :: as, first, h => by
    rw [ElemsOk] at h
    obtain ⟨h1, h2, h3, h4, h5⟩ := h
    rw [settleAttrs, ElemsOk, isPlug_with, settleVal_isPlug, name_with, settleVal_nm, settle_comment _ (valueOk_ne h1)]
    exact ⟨valueOk_with _ (valueOk_settle a h1), h2, h3, commentsOk_mark h4, elemsOk_settle as _ h5⟩
theorem entriesOk_settle {t : Bool} : ∀ es first, EntriesOk t es → EntriesOk t (settleEntries first es)
  | [], _, h => h
  | .mk p k v c :: es, first, h => by
    rw [EntriesOk] at h
    obtain ⟨h1, h2, h3, h4, h5, h6, h7⟩ := h
    rw [settleEntries, EntriesOk, settleVal_isPlug, settleVal_nm, settleVal_cm]
    exact ⟨keyOk_noPos h1, valueOk_settle v h2, h3, h4, h5, commentsOk_mark h6, entriesOk_settle es _ h7⟩
theorem pluginOk_settle {t : Bool} : ∀ p, PluginOk t p → PluginOk t (settlePlugin p)
  | .mk p m as c f, h => by
    rw [PluginOk] at h
    rw [settlePlugin, PluginOk]
    exact ⟨h.1, attrsOk_settle as _ h.2.1, commentsOk_mark h.2.2.1, commentsOk_mark h.2.2.2⟩
theorem attrsOk_settle {t : Bool} : ∀ as first, AttrsOk t as → AttrsOk t (settleAttrs first as)
  | [], _, h => h
  | a :: as, first, h => by
    rw [AttrsOk] at h
    obtain ⟨h1, h2, h3, h4⟩ := h
    rw [settleAttrs, AttrsOk, name_with, settleVal_nm, settle_comment _ (valueOk_ne h1)]
    exact ⟨valueOk_with _ (valueOk_settle a h1), h2, commentsOk_mark h3, attrsOk_settle as _ h4⟩
end

theorem settleAttrs_empty (first : Bool) (as : List Attr) : (settleAttrs first as).isEmpty = as.isEmpty := by cases as <;> rfl

theorem selLike_settle {p p' : Pos} {m : Bytes} {as : List Attr} {c f : CommentBlock} (h : ElemsOk true as) (hf : CommentsOk f) :
    SelLike (Attr.arr p' m (settleAttrs true as) c (markFirst false f)).valueStr → SelLike (Attr.arr p m as c f).valueStr := by
  have h2 : ValueOk true (.arr p m as c f) := by rw [ValueOk]; exact ⟨h, hf⟩
  have h1 : ValueOk true (.arr p' m (settleAttrs true as) c (markFirst false f)) := by
    rw [ValueOk]; exact ⟨elemsOk_settle _ _ h, commentsOk_mark hf⟩
  rw [valStr _ h1, valStr _ h2]
  rw [valP, valP, render_code, render_code]
  rw [show ∀ q : Bytes, b!"[" ++ q = 91 :: q from fun _ => rfl, show ∀ q : Bytes, b!"[" ++ q = 91 :: q from fun _ => rfl, selLike_iff, selLike_iff]
  rw [find_nw, find_nw (render (blockP 0 false b!"]" (elemsP true (0 + 1) as) f)), nw_block, nw_block, nw_elems, nw_coms]
  rintro ⟨a1, a2⟩
  refine ⟨a1, fun hh => a2 ?_⟩
  rw [← hh]
  have e1 : (elemsP true (0 + 1) (settleAttrs true as)).isEmpty = (elemsP true (0 + 1) as).isEmpty := by
    rw [elemsP_empty _ (elemsOk_settle _ _ h), elemsP_empty _ h, settleAttrs_empty]
  have e2 : (markFirst false f).isEmpty = f.isEmpty := by cases f <;> rfl
  unfold blockP
  rw [e1, e2]
  cases (elemsP true (0 + 1) as).isEmpty <;> cases f.isEmpty <;> simp [render_append, render_cons, Piece.text]

theorem rvalueOk_settle {t : Bool} {r : Rvalue} (h : RvalueOk t r) : RvalueOk t (settleRvalue r) := by
  cases r with
  | arr p n as c f =>
    obtain ⟨h1, h2, h3, h4, h5⟩ := h
    refine ⟨elemsOk_settle _ _ h1, commentsOk_mark h2, h3, h4, fun ht hs => ?_⟩
    subst ht
    exact h5 rfl (selLike_settle (p := p) (p' := Pos.zero) (m := n) (c := c) h1 h2 hs)
  | sel s =>
    simp only [settleRvalue, AMap.rvalue, RvalueOk, AMap.selector, List.map_map] at h ⊢
    refine ⟨h.1, fun ht e he => ?_⟩
    obtain ⟨e', he', rfl⟩ := List.mem_map.1 he
    exact h.2 ht e' he'
  | _ => exact h

theorem joinOk_noPos {first : Bool} {b : BoolExpr} (h : JoinOk first b) : JoinOk first (AMap.noPos.boolExpr b) := h

theorem isPattern_settle {r : Rvalue} (h : IsPattern r) : IsPattern (settleRvalue r) := by cases r <;> exact h

mutual
theorem exprOk_settle {t : Bool} : ∀ e first, ExprOk t first e → ExprOk t first (settleExpr e)
  | .nil, _, h => h
  | .cond p b c, _, h => by rw [ExprOk] at h; rw [settleExpr, ExprOk]; exact ⟨h.1, condOk_settle c true h.2⟩
  | .negCond p b c, _, h => by rw [ExprOk] at h; rw [settleExpr, ExprOk]; exact ⟨h.1, condOk_settle c true h.2⟩
  | .negSel p b s, _, h => by
    rw [ExprOk] at h
    have := rvalueOk_settle (r := .sel s) (t := t) h.2
    rw [settleExpr, ExprOk]; exact ⟨h.1, this⟩
  | .inE p b l r, _, h => by
    rw [ExprOk] at h; rw [settleExpr, ExprOk]; exact ⟨h.1, rvalueOk_settle h.2.1, rvalueOk_settle h.2.2⟩
  | .notIn p b l r, _, h => by
    rw [ExprOk] at h; rw [settleExpr, ExprOk]; exact ⟨h.1, rvalueOk_settle h.2.1, rvalueOk_settle h.2.2⟩
  | .rval p b r, _, h => by rw [ExprOk] at h; rw [settleExpr, ExprOk]; exact ⟨h.1, rvalueOk_settle h.2⟩
  | .cmp p b l o r, _, h => by
    rw [ExprOk] at h; rw [settleExpr, ExprOk]; exact ⟨h.1, rvalueOk_settle h.2.1, h.2.2.1, rvalueOk_settle h.2.2.2⟩
  | .re p b l o r, _, h => by
    rw [ExprOk] at h; rw [settleExpr, ExprOk]
    exact ⟨h.1, rvalueOk_settle h.2.1, h.2.2.1, rvalueOk_settle h.2.2.2.1, isPattern_settle h.2.2.2.2⟩
theorem condOk_settle {t : Bool} : ∀ es first, CondOk t first es → CondOk t first (settleCond es)
  | [], _, h => h
  | e :: es, first, h => by
    rw [CondOk] at h; rw [settleCond, CondOk]; exact ⟨exprOk_settle e first h.1, condOk_settle es false h.2⟩
end

theorem settlePlugin_name (p : Plugin) : (settlePlugin p).name = p.name := by cases p; rw [settlePlugin]; rfl

theorem isOpen_settle (b : BOP) : (settleBop b).isOpen = b.isOpen := by
  cases b with
  | branch p c b cm f ei el =>
    obtain ⟨lp, lb, lc, lf⟩ := el
    rw [settleBop, settleElse]
    cases lb <;> cases lc <;> cases lf <;> simp [BOP.isOpen, settleBlock, markFirst]
  | _ => rw [settleBop]; try rfl

theorem noElse_settle {bs : List BOP} (h : NoElse bs) : NoElse (settleBlock bs) := by
  cases bs with
  | nil => exact h
  | cons b bs =>
    rw [settleBlock]
    cases b <;> rw [settleBop] <;> first | trivial | (simp only [NoElse, settlePlugin_name] at h ⊢; exact h)

mutual
theorem bopOk_settle {t : Bool} : ∀ b, BopOk t b → BopOk t (settleBop b)
  | .nil, h => h
  | .plugin p, h => by rw [BopOk] at h; rw [settleBop, BopOk, settlePlugin_name]; exact ⟨pluginOk_settle p h.1, h.2⟩
  | .pluginPtr p, h => by rw [BopOk] at h; rw [settleBop, BopOk, settlePlugin_name]; exact ⟨pluginOk_settle p h.1, h.2⟩
  | .branch p c b cm f ei el, h => by
    rw [BopOk] at h
    obtain ⟨h1, h2, h3, h4, h5, h6⟩ := h
    rw [settleBop, BopOk]
    exact ⟨condOk_settle c _ h1, blockOk_settle b h2, commentsOk_mark h3, commentsOk_mark h4, elifsOk_settle ei h5, elseOk_settle el h6⟩
theorem blockOk_settle {t : Bool} : ∀ bs, BlockOk t bs → BlockOk t (settleBlock bs)
  | [], h => h
  | b :: bs, h => by
    rw [BlockOk] at h
    rw [settleBlock, BlockOk, isOpen_settle]
    exact ⟨bopOk_settle b h.1, fun ht ho => noElse_settle (h.2.1 ht ho), blockOk_settle bs h.2.2⟩
theorem elifsOk_settle {t : Bool} : ∀ es, ElifsOk t es → ElifsOk t (settleElifs es)
  | [], h => h
  | .mk p c b cm f :: es, h => by
    rw [ElifsOk] at h
    obtain ⟨h1, h2, h3, h4, h5⟩ := h
    rw [settleElifs, ElifsOk]
    exact ⟨condOk_settle c _ h1, blockOk_settle b h2, commentsOk_mark h3, commentsOk_mark h4, elifsOk_settle es h5⟩
theorem elseOk_settle {t : Bool} : ∀ e, ElseOk t e → ElseOk t (settleElse e)
  | .mk p b cm f, h => by
    rw [ElseOk] at h
    rw [settleElse, ElseOk]
    exact ⟨blockOk_settle b h.1, commentsOk_mark h.2.1, commentsOk_mark h.2.2⟩
end

theorem sectionsOk_settle {t : Bool} {pt : PluginType} (first : Bool) {l : List Section} (h : SectionsOk t pt l) :
    SectionsOk t pt (settleSections first l) := by
  cases l with
  | nil => exact h
  | cons s ss =>
    have hs := h s (List.mem_cons_self ..)
    have key : ∀ (b : Bool) (x : Section), x ∈ s :: ss → (settleSection b s.comment x).ptype = pt ∧ BlockOk t (settleSection b s.comment x).bops ∧
        SectionCommentsOk (settleSection b s.comment x).comment ∧ CommentsOk (settleSection b s.comment x).footer := by
      intro b x hx
      have := h x hx
      refine ⟨this.1, blockOk_settle _ this.2.1, sectionCommentsOk_mark ?_, commentsOk_mark this.2.2.2⟩
      cases b
      · exact sectionCommentsOk_noAfter hs.2.2.1
      · exact hs.2.2.1
    intro x hx
    rcases List.mem_cons.1 hx with rfl | hx
    · exact key _ s (List.mem_cons_self ..)
    · obtain ⟨y, hy, rfl⟩ := List.mem_map.1 hx
      exact key _ y (List.mem_cons_of_mem _ hy)

theorem configOk_settle {t : Bool} {c : Config} (h : ConfigOk t c) : ConfigOk t (settle c) := by
  obtain ⟨h1, h2, h3, h4⟩ := h
  refine ⟨sectionsOk_settle _ h1, sectionsOk_settle _ h2, sectionsOk_settle _ h3, ?_⟩
  unfold settle
  simp only
  split
  · intro c hc; simp at hc
  · exact commentsOk_mark h4

end Verif
