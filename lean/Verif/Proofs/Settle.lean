import Verif.Proofs.PrintCst
/-
Properties of `settle`: it is idempotent, and changes nothing but marks for blank lines.
-/
namespace Verif
open Spec

theorem withComment_twice (c d : CommentBlock) (a : Attr) : withComment c (withComment d a) = withComment c a := by cases a <;> rfl
theorem settleVal_withComment (c : CommentBlock) (a : Attr) : settleVal (withComment c a) = withComment c (settleVal a) := by
  cases a <;> simp [withComment, settleVal, AMap.str, AMap.num, AMap.noPos]
theorem comment_with {c : CommentBlock} {a : Attr} (h : a ≠ .nil) : (withComment c a).comment = c := by
  cases a <;> first | rfl | exact absurd rfl h
theorem settleVal_nil {a : Attr} : settleVal a = .nil ↔ a = .nil := by cases a <;> simp [settleVal]

theorem noPos_hkey (k : HKey) : AMap.noPos.hkey (AMap.noPos.hkey k) = AMap.noPos.hkey k := by cases k <;> rfl
theorem noPos_selector (s : Selector) : AMap.noPos.selector (AMap.noPos.selector s) = AMap.noPos.selector s := by
  simp only [AMap.selector, List.map_map]; rfl

theorem settle_head (first : Bool) (a : Attr) (h : settleVal (settleVal a) = settleVal a) :
    let x := withComment (markFirst first a.comment) (settleVal a)
    withComment (markFirst first x.comment) (settleVal x) = x := by
  intro x
  simp only [x]
  rw [settleVal_withComment, withComment_twice, h]
  by_cases hn : a = .nil
  · subst hn; rfl
  · rw [comment_with (mt settleVal_nil.1 hn), markFirst_twice]

mutual
theorem settleVal_idem : ∀ a, settleVal (settleVal a) = settleVal a
  | .nil => rfl
  | .str a => by rw [settleVal, settleVal]; rfl
  | .num a => by rw [settleVal, settleVal]; rfl
  | .arr p n as c f => by rw [settleVal, settleVal, settleAttrs_idem as, markFirst_twice]
  | .hash p n es c f => by rw [settleVal, settleVal, settleEntries_idem es, markFirst_twice]
  | .plug p n v c => by rw [settleVal, settleVal, settlePlugin_idem v]
theorem settleAttrs_idem : ∀ as first, settleAttrs first (settleAttrs first as) = settleAttrs first as
  | [], _ => rfl
  | a :: as, first => by
    rw [settleAttrs, settleAttrs, settleAttrs_idem as]
    congr 1
    exact settle_head _ a (settleVal_idem a)
theorem settleEntries_idem : ∀ es first, settleEntries first (settleEntries first es) = settleEntries first es
  | [], _ => rfl
  | .mk p k v c :: es, first => by
    rw [settleEntries, settleEntries, settleEntries_idem es, settleVal_idem v, noPos_hkey, markFirst_twice]
theorem settlePlugin_idem : ∀ p, settlePlugin (settlePlugin p) = settlePlugin p
  | .mk p n as c f => by rw [settlePlugin, settlePlugin, settleAttrs_idem as, markFirst_twice, markFirst_twice]
end

theorem settleRvalue_idem (r : Rvalue) : settleRvalue (settleRvalue r) = settleRvalue r := by
  cases r with
  | arr p n as c f => simp only [settleRvalue, settleAttrs_idem, markFirst_twice]
  | sel s => simp only [settleRvalue, AMap.rvalue, noPos_selector]
  | _ => rfl

mutual
theorem settleExpr_idem : ∀ e, settleExpr (settleExpr e) = settleExpr e
  | .nil => rfl
  | .cond p b c => by rw [settleExpr, settleExpr, settleCond_idem c]; rfl
  | .negCond p b c => by rw [settleExpr, settleExpr, settleCond_idem c]; rfl
  | .negSel p b s => by rw [settleExpr, settleExpr, noPos_selector]; rfl
  | .inE p b l r => by rw [settleExpr, settleExpr, settleRvalue_idem, settleRvalue_idem]; rfl
  | .notIn p b l r => by rw [settleExpr, settleExpr, settleRvalue_idem, settleRvalue_idem]; rfl
  | .rval p b r => by rw [settleExpr, settleExpr, settleRvalue_idem]; rfl
  | .cmp p b l o r => by rw [settleExpr, settleExpr, settleRvalue_idem, settleRvalue_idem]; rfl
  | .re p b l o r => by rw [settleExpr, settleExpr, settleRvalue_idem, settleRvalue_idem]; rfl
theorem settleCond_idem : ∀ es, settleCond (settleCond es) = settleCond es
  | [] => rfl
  | e :: es => by rw [settleCond, settleCond, settleExpr_idem e, settleCond_idem es]
end

mutual
theorem settleBop_idem : ∀ b, settleBop (settleBop b) = settleBop b
  | .nil => rfl
  | .plugin p => by rw [settleBop, settleBop, settlePlugin_idem]
  | .pluginPtr p => by rw [settleBop, settleBop, settlePlugin_idem]
  | .branch p c b cm f ei el => by
    rw [settleBop, settleBop, settleCond_idem, settleBlock_idem b, settleElifs_idem ei, settleElse_idem el, markFirst_twice, markFirst_twice]
theorem settleBlock_idem : ∀ bs, settleBlock (settleBlock bs) = settleBlock bs
  | [] => rfl
  | b :: bs => by rw [settleBlock, settleBlock, settleBop_idem b, settleBlock_idem bs]
theorem settleElifs_idem : ∀ es, settleElifs (settleElifs es) = settleElifs es
  | [] => rfl
  | .mk p c b cm f :: es => by
    rw [settleElifs, settleElifs, settleCond_idem, settleBlock_idem b, settleElifs_idem es, markFirst_twice, markFirst_twice]
theorem settleElse_idem : ∀ e, settleElse (settleElse e) = settleElse e
  | .mk p b cm f => by rw [settleElse, settleElse, settleBlock_idem b, markFirst_twice, markFirst_twice]
end

theorem noAfter_twice (cs : CommentBlock) : (cs.map noAfter).map noAfter = cs.map noAfter := by
  rw [List.map_map]; rfl

theorem noAfter_lam : (fun c : Comment => { c with spaceAfter := false }) = noAfter := rfl

theorem settleSections_empty (first : Bool) (l : List Section) : (settleSections first l).isEmpty = l.isEmpty := by cases l <;> rfl

theorem settleSections_idem (first : Bool) (l : List Section) : settleSections first (settleSections first l) = settleSections first l := by
  cases l with
  | nil => rfl
  | cons s ss =>
    simp only [settleSections, settleSection, settleBlock_idem, List.map_map, noAfter_lam, markFirst_twice]
    congr 1
    · cases first <;> simp [markFirst_twice, ← markFirst_map, noAfter_twice, -List.map_map]
    · apply List.map_congr_left
      intro x hx
      simp only [Function.comp, settleSection, settleBlock_idem, markFirst_twice, noAfter_lam, Bool.false_eq_true, if_false]
      cases first <;> simp [markFirst_twice, ← markFirst_map, noAfter_twice, -List.map_map]

theorem settle_idem (c : Config) : settle (settle c) = settle c := by
  unfold settle
  simp only [settleSections_idem, settleSections_empty]
  congr 1
  split
  · rfl
  · rw [markFirst_twice]

/-! ### What does not change -/

section
variable {m : AMap} (hp : ∀ p, m.pos p = Pos.zero) (hc : ∀ b cs, m.com (markFirst b cs) = m.com cs)
include hp

theorem keepMap_str (a : StrAttr) : m.str (AMap.noPos.str a) = m.str a := by simp [AMap.str, AMap.noPos, hp]
theorem keepMap_num (a : NumAttr) : m.num (AMap.noPos.num a) = m.num a := by simp [AMap.num, AMap.noPos, hp]
theorem keepMap_hkey (k : HKey) : m.hkey (AMap.noPos.hkey k) = m.hkey k := by
  cases k <;> simp [AMap.hkey, keepMap_str hp, keepMap_num hp]

include hc

theorem keepMap_with (b : Bool) (a a' : Attr) (h : m.attr a' = m.attr a) : m.attr (withComment (markFirst b a.comment) a') = m.attr a := by
  cases a <;> cases a' <;> simp only [AMap.attr, withComment, AMap.str, AMap.num, reduceCtorEq, Attr.str.injEq, Attr.num.injEq,
    StrAttr.mk.injEq, NumAttr.mk.injEq, Attr.arr.injEq, Attr.hash.injEq, Attr.plug.injEq, Attr.comment, hc] at h ⊢ <;> grind

mutual
theorem keep_attr : ∀ a, m.attr (settleVal a) = m.attr a
  | .nil => rfl
  | .str a => by rw [settleVal, AMap.attr, AMap.attr, keepMap_str hp]
  | .num a => by rw [settleVal, AMap.attr, AMap.attr, keepMap_num hp]
  | .arr p n as c f => by rw [settleVal, AMap.attr, AMap.attr, keep_attrs as, hc, hp, hp]
  | .hash p n es c f => by rw [settleVal, AMap.attr, AMap.attr, keep_entries es, hc, hp, hp]
  | .plug p n v c => by rw [settleVal, AMap.attr, AMap.attr, keep_plugin v, hp, hp]
theorem keep_attrs : ∀ as first, m.attrs (settleAttrs first as) = m.attrs as
  | [], _ => rfl
  | a :: as, first => by
    rw [settleAttrs, AMap.attrs, AMap.attrs, keep_attrs as, keepMap_with hp hc _ a _ (keep_attr a)]
theorem keep_entries : ∀ es first, m.hentries (settleEntries first es) = m.hentries es
  | [], _ => rfl
  | .mk p k v c :: es, first => by
    rw [settleEntries, AMap.hentries, AMap.hentries, AMap.hentry, AMap.hentry, keep_entries es, keep_attr v, keepMap_hkey hp, hc, hp, hp]
theorem keep_plugin : ∀ p, m.plugin (settlePlugin p) = m.plugin p
  | .mk p n as c f => by rw [settlePlugin, AMap.plugin, AMap.plugin, keep_attrs as, hc, hc, hp, hp]
end

omit hc in
theorem keep_selector (s : Selector) : m.selector (AMap.noPos.selector s) = m.selector s := by
  simp only [AMap.selector, List.map_map, hp]
  congr 1
  exact List.map_congr_left fun e _ => by simp [AMap.selElem, hp]

theorem keep_rvalue (r : Rvalue) : m.rvalue (settleRvalue r) = m.rvalue r := by
  cases r with
  | arr p n as c f => simp only [settleRvalue, AMap.rvalue, keep_attrs hp hc, hc, hp]
  | sel s => simp only [settleRvalue, AMap.rvalue, keep_selector hp]
  | str a => simp only [settleRvalue, AMap.rvalue, keepMap_str hp]
  | num a => simp only [settleRvalue, AMap.rvalue, keepMap_num hp]
  | re r => simp [settleRvalue, AMap.rvalue, AMap.regexp, hp]
  | nil => rfl

omit hc in
theorem keep_bool (b : BoolExpr) : m.boolExpr (AMap.noPos.boolExpr b) = m.boolExpr b := by simp [AMap.boolExpr, AMap.boolOp, hp]
omit hc in
theorem keep_cmp (b : CmpOp) : m.cmpOp (AMap.noPos.cmpOp b) = m.cmpOp b := by simp [AMap.cmpOp, hp]
omit hc in
theorem keep_re (b : ReOp) : m.reOp (AMap.noPos.reOp b) = m.reOp b := by simp [AMap.reOp, hp]

mutual
theorem keep_expr : ∀ e, m.expr (settleExpr e) = m.expr e
  | .nil => rfl
  | .cond p b c => by rw [settleExpr, AMap.expr, AMap.expr, keep_cond c, keep_bool hp, hp, hp]
  | .negCond p b c => by rw [settleExpr, AMap.expr, AMap.expr, keep_cond c, keep_bool hp, hp, hp]
  | .negSel p b s => by rw [settleExpr, AMap.expr, AMap.expr, keep_selector hp, keep_bool hp, hp, hp]
  | .inE p b l r => by rw [settleExpr, AMap.expr, AMap.expr, keep_rvalue hp hc, keep_rvalue hp hc, keep_bool hp, hp, hp]
  | .notIn p b l r => by rw [settleExpr, AMap.expr, AMap.expr, keep_rvalue hp hc, keep_rvalue hp hc, keep_bool hp, hp, hp]
  | .rval p b r => by rw [settleExpr, AMap.expr, AMap.expr, keep_rvalue hp hc, keep_bool hp, hp, hp]
  | .cmp p b l o r => by rw [settleExpr, AMap.expr, AMap.expr, keep_rvalue hp hc, keep_rvalue hp hc, keep_bool hp, keep_cmp hp, hp, hp]
  | .re p b l o r => by rw [settleExpr, AMap.expr, AMap.expr, keep_rvalue hp hc, keep_rvalue hp hc, keep_bool hp, keep_re hp, hp, hp]
theorem keep_cond : ∀ es, m.cond (settleCond es) = m.cond es
  | [] => rfl
  | e :: es => by rw [settleCond, AMap.cond, AMap.cond, keep_expr e, keep_cond es]
end

mutual
theorem keep_bop : ∀ b, m.bop (settleBop b) = m.bop (derefBop b)
  | .nil => rfl
  | .plugin p => by rw [settleBop, derefBop, AMap.bop, AMap.bop, keep_plugin hp hc]
  | .pluginPtr p => by rw [settleBop, derefBop, AMap.bop, AMap.bop, keep_plugin hp hc]
  | .branch p c b cm f ei el => by
    rw [settleBop, derefBop, AMap.bop, AMap.bop, keep_cond hp hc, keep_bops b, keep_elifs ei, keep_else el, hc, hc, hp, hp]
theorem keep_bops : ∀ bs, m.bops (settleBlock bs) = m.bops (derefBlock bs)
  | [] => rfl
  | b :: bs => by rw [settleBlock, derefBlock, AMap.bops, AMap.bops, keep_bop b, keep_bops bs]
theorem keep_elifs : ∀ es, m.elifs (settleElifs es) = m.elifs (derefElifs es)
  | [] => rfl
  | .mk p c b cm f :: es => by
    rw [settleElifs, derefElifs, AMap.elifs, AMap.elifs, AMap.elif, AMap.elif, keep_cond hp hc, keep_bops b, keep_elifs es, hc, hc, hp, hp]
theorem keep_else : ∀ e, m.elseB (settleElse e) = m.elseB (derefElse e)
  | .mk p b cm f => by rw [settleElse, derefElse, AMap.elseB, AMap.elseB, keep_bops b, hc, hc, hp, hp]
end

theorem keep_section (ha : ∀ cs, m.com (cs.map noAfter) = m.com cs) (first : Bool) (c0 : CommentBlock) (s : Section) (h0 : m.com c0 = m.com s.comment) :
    m.sect (settleSection first c0 s) = m.sect { s with bops := derefBlock s.bops } := by
  simp only [AMap.sect, settleSection, noAfter_lam, keep_bops hp hc, hc, hp, ← h0]
  congr 1
  cases first
  · exact ha _
  · rfl

theorem keep_sections (ha : ∀ cs, m.com (cs.map noAfter) = m.com cs) (first : Bool) (l : List Section)
    (h : ∀ s ∈ l, ∀ t ∈ l, m.com s.comment = m.com t.comment) :
    (settleSections first l).map m.sect = (derefSects l).map m.sect := by
  cases l with
  | nil => rfl
  | cons s ss =>
    simp only [settleSections, derefSects, List.map_cons, List.map_map]
    congr 1
    · exact keep_section hp hc ha _ _ _ rfl
    · exact List.map_congr_left fun x hx => keep_section hp hc ha _ _ _ (h s (List.mem_cons_self ..) x (List.mem_cons_of_mem _ hx))

end

/-- Formatting keeps everything but positions and comments. -/
theorem settle_skeleton (c : Config) : skeleton (settle c) = skeleton (deref c) := by
  have hp : ∀ p, AMap.skeleton.pos p = Pos.zero := fun _ => rfl
  have key := fun first l => keep_sections (m := AMap.skeleton) hp (fun _ _ => rfl) (fun _ => rfl) first l (fun _ _ _ _ => rfl)
  unfold skeleton AMap.config settle deref
  simp only [key]
  rfl

/-- Formatting keeps everything but positions and marks for blank lines, unless comments are lost. -/
theorem settle_marks (c : Config) (h : CommentsKept c) : withoutMarks (settle c) = withoutMarks (deref c) := by
  obtain ⟨h1, h2, h3, h4⟩ := h
  have hc : ∀ b cs, AMap.noMarks.com (markFirst b cs) = AMap.noMarks.com cs := by intro b cs; cases cs <;> rfl
  have ha : ∀ cs, AMap.noMarks.com (cs.map noAfter) = AMap.noMarks.com cs := by
    intro cs; simp only [AMap.noMarks, List.map_map]; rfl
  have hs : ∀ l : List Section, SameComments l → ∀ s ∈ l, ∀ t ∈ l, AMap.noMarks.com s.comment = AMap.noMarks.com t.comment := by
    intro l hl s hs t ht
    have := congrArg (List.map fun t : Bytes => (⟨t, false, false⟩ : Comment)) (hl s hs t ht)
    simpa [AMap.noMarks, List.map_map, Function.comp_def] using this
  have key := fun first l h => keep_sections (m := AMap.noMarks) (fun _ => rfl) hc ha first l (hs l h)
  unfold withoutMarks AMap.config settle deref
  simp only [key _ _ h1, key _ _ h2, key _ _ h3]
  congr 1
  split
  · next hh =>
    simp only [Bool.and_eq_true, List.isEmpty_iff] at hh
    rw [h4 hh.1.1 hh.1.2 hh.2]
  · exact hc _ _

end Verif
