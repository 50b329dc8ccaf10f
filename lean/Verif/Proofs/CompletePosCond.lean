import Verif.Proofs.CompletePos
/-
Completeness with positions and warnings: conditions.
-/
namespace Verif
open Spec

section
variable {o : Opts} {pf : Bytes → Pos} {pos : Nat → Pos} {D : Nat}

/-- Completeness of the rule `rvalue`. -/
theorem rvalueQ (hp : PosFn pf pos D) {r : CRval} (h : r.Ok) {X : Bytes} (hX : RvFollow X) (k : Nat) (hk : k + (r.text ++ X).length = D) :
    ∃ v, (∀ ws, RunsP o pf G.rvalue (r.text ++ X) ws v X (ws ++ wl o pos (r.exc k))) ∧ toRvalue v = some (r.astAt o.ignoreComments pos k) := by
  cases r with
  | str s =>
    refine ⟨.attr (.str (s.astAt (pos k))), fun ws => ?_, rfl⟩
    simp only [CRval.exc, wl_nil, List.append_nil]
    exact choice1Q (stringQ hp h hk)
  | num t =>
    obtain ⟨c, r, h1, h2⟩ := num_head h X
    refine ⟨.attr (.num (numAst t)), fun ws => ?_, rfl⟩
    simp only [CRval.exc, wl_nil, List.append_nil]
    refine choice2Q ?_ (choice1Q (numberQ h hX.num))
    simp only [CRval.text]
    rw [h1]
    refine string_fail_head ?_
    rcases h2 with rfl | h2
    · decide
    · clear h1; revert h2; revert c; decide +kernel
  | sel names =>
    refine ⟨.selector (selAt pos k names), fun ws => ?_, rfl⟩
    simp only [CRval.exc, wl_nil, List.append_nil]
    obtain ⟨t, ht⟩ := sel_open h X
    simp only [CRval.text] at hk ⊢
    refine choice2Q ?_ (choice2Q ?_ (choice1Q (selectorQ hp h hX.sel hk)))
    · rw [ht]; exact string_fail_head (by decide)
    · rw [ht]; exact number_fail_head (by decide) (by decide)
  | arr es g =>
    obtain ⟨h1, h2⟩ := h
    have h3 := arr_not_selLike h2 X
    have e : (CVal.arr es g).text ++ X = 91 :: (elemsText true es ++ (g.text ++ ([93] ++ X))) := by simp [CVal.text]
    refine ⟨.attr (CVal.astAt o.ignoreComments pos k (.arr es g)), fun ws => ?_, rfl⟩
    refine choice2Q ?_ (choice2Q ?_ (choice2Q (fails_selector.2 h3) (choice1Q (refQ (arrayQ hp h1 X hk)))))
    · simp only [CRval.text]; rw [e]; exact string_fail_head (by decide)
    · simp only [CRval.text]; rw [e]; exact number_fail_head (by decide) (by decide)
  | re body =>
    have e : (CRval.re body).text ++ X = 47 :: (body ++ (47 :: X)) := by simp [CRval.text]
    have e2 : (CRval.re body).text ++ X = (b!"/" ++ body ++ b!"/") ++ X := by simp [CRval.text]
    refine ⟨.regexp ⟨pos k, body⟩, fun ws => ?_, rfl⟩
    simp only [CRval.exc, wl_nil, List.append_nil]
    have h3 := regexpQ (o := o) (ws := ws) hp h (X := X) (k := k) (by rw [← e2]; exact hk)
    rw [← e2] at h3
    refine choice2Q ?_ (choice2Q ?_ (choice2Q ?_ (choice2Q ?_ (choice1Q h3))))
    · rw [e]; exact string_fail_head (by decide)
    · rw [e]; exact number_fail_head (by decide) (by decide)
    · rw [e, fails_selector]
      rintro ⟨n, r, h1, _⟩
      simp at h1
    · rw [e]; exact refF (array_fail (by simp))

/-! ### Expressions -/

/-- Completeness of the rule `expression` at offset `k`. -/
def ExprQ (o : Opts) (pf : Bytes → Pos) (pos : Nat → Pos) (k : Nat) (e : CExpr) (X : Bytes) : Prop :=
  ∀ ws, RunsP o pf G.expression (e.text ++ X) ws (.expr (e.astAt o.ignoreComments pos k unjoined)) X (ws ++ wl o pos (e.exc k))

/-- An operand and a gap. -/
theorem operandQ (hp : PosFn pf pos D) {l : CRval} (hl : l.Ok) {g : Gap} (hg : g.Ok) {T : Bytes} (hs : Stop T) (hT : RvFollow T)
    (k : Nat) (hk : k + (l.text ++ (g.text ++ T)).length = D) :
    ∃ v, toRvalue v = some (l.astAt o.ignoreComments pos k) ∧ ∀ es ws b' fr' ws',
      SeqQ o pf es T [(.lv, v)] (ws ++ wl o pos (l.exc k) ++ wl o pos [(k + l.text.length, g)]) b' fr' ws' →
      SeqQ o pf (.labeled .lv (.ref .rvalue) :: G.gapS :: G.warn :: es) (l.text ++ (g.text ++ T)) [] ws b' fr' ws' := by
  obtain ⟨v, h1, h2⟩ := rvalueQ (o := o) hp hl (rvFollow_gap hg hT) k hk
  exact ⟨v, h2, fun es ws b' fr' ws' h => seqQ (labQ (refQ (r := .rvalue) (h1 ws))) (gapSWQ hp (k + l.text.length) (by len) hg hs h)⟩

/-- The first two alternatives fail on an operand. -/
theorem expr_skipQ {l : CRval} (hl : l.Ok) {X b1 : Bytes} {v : Val} {ws ws'}
    (h : RunsP o pf (.choice [.ref .inExpression, .ref .notInExpression, .ref .compareExpression, .ref .regexpExpression,
      .action (.rvalue .rv) (.labeled .rv (.ref .rvalue))]) (l.text ++ X) ws v b1 ws') : RunsP o pf G.expression (l.text ++ X) ws v b1 ws' := by
  obtain ⟨c, t, h1, h2⟩ := rval_head hl X
  have h3 := rvalHead_ok h2
  refine choice2Q (actF (seqF (tokF (by decide) ?_))) (choice2Q (refF (neg_fail ?_)) h)
  · rw [h1]; simpa using h3.2.1
  · rw [h1]; simpa using h3.2.2.1

theorem inQ (hp : PosFn pf pos D) {l r : CRval} {g1 g2 : Gap} {X : Bytes} (hl : l.Ok) (h1 : g1.Ok) (h2 : g2.Ok) (hr : r.Ok) (hX : RvFollow X)
    (k : Nat) (hk : k + ((CExpr.inE l g1 g2 r).text ++ X).length = D) : ExprQ o pf pos k (.inE l g1 g2 r) X := by
  intro ws
  simp only [CExpr.text, List.append_assoc] at hk ⊢
  refine expr_skipQ hl (choice1Q (refQ (r := .inExpression) ?_))
  obtain ⟨lv, l1, l2⟩ := operandQ (o := o) hp hl h1
    (T := b!"in" ++ (g2.text ++ (r.text ++ X))) (stop_cons (by decide)) (rvFollow_cons (by decide)) k hk
  obtain ⟨rv, r1, r2⟩ := rvalueQ (o := o) hp hr hX (k + l.text.length + g1.text.length + 2 + g2.text.length) (by len)
  refine (actQ _ (l2 _ _ _ _ _ (seqQ (closeQ (by decide) (by simp))
    (gapSWQ hp (k + l.text.length + g1.text.length + 2) (by len) h2 (rval_stop hr X) (seqQ (labQ (refQ (r := .rvalue) (r1 _))) endQ)))) ?_).w ?_
  · simp only [runAct, Frame.get, if_true, reduceCtorEq, if_false, l1, r2, hp _ _ hk]
    rfl
  · simp only [CExpr.exc]
    warns

theorem notInQ (hp : PosFn pf pos D) {l r : CRval} {g1 g2 g3 : Gap} {X : Bytes} (hl : l.Ok) (h1 : g1.Ok) (h2 : g2.Ok) (h3 : g3.Ok) (hr : r.Ok)
    (hX : RvFollow X) (k : Nat) (hk : k + ((CExpr.notIn l g1 g2 g3 r).text ++ X).length = D) : ExprQ o pf pos k (.notIn l g1 g2 g3 r) X := by
  intro ws
  simp only [CExpr.text, List.append_assoc] at hk ⊢
  refine expr_skipQ hl (choice2Q (refF (in_fail hl h1 (stop_cons (by decide)) (rvFollow_cons (by decide)) (by simp)))
    (choice1Q (refQ (r := .notInExpression) ?_)))
  obtain ⟨lv, l1, l2⟩ := operandQ (o := o) hp hl h1
    (T := b!"not " ++ (g2.text ++ (b!"in" ++ (g3.text ++ (r.text ++ X))))) (stop_cons (by decide)) (rvFollow_cons (by decide)) k hk
  obtain ⟨rv, r1, r2⟩ := rvalueQ (o := o) hp hr hX
    (k + l.text.length + g1.text.length + 4 + g2.text.length + 2 + g3.text.length) (by len)
  have hop : ∀ fr ws, ∃ w, RP o pf G.notInOperator (b!"not " ++ (g2.text ++ (b!"in" ++ (g3.text ++ (r.text ++ X))))) fr ws w
      (g3.text ++ (r.text ++ X)) fr (ws ++ wl o pos [(k + l.text.length + g1.text.length + 4, g2)]) := by
    intro fr ws
    have hs : SeqQ o pf [.lit b!"not ", G.gapS, G.warn, .lit b!"in"] (b!"not " ++ (g2.text ++ (b!"in" ++ (g3.text ++ (r.text ++ X))))) [] ws
      (g3.text ++ (r.text ++ X)) [] (ws ++ wl o pos [(k + l.text.length + g1.text.length + 4, g2)]) :=
      seqQ (litQ (by decide)) (gapTokQ hp (k + l.text.length + g1.text.length + 4) (by len) h2 (by decide) (by decide) endQ)
    obtain ⟨vs, hs⟩ := hs (_, _)
    exact ⟨_, notInOp_rp.2 ⟨rfl, _, ⟨[], .seq hs⟩, rfl⟩⟩
  obtain ⟨w, hw⟩ := hop [(.lv, lv)] (ws ++ wl o pos (l.exc k) ++ wl o pos [(k + l.text.length, g1)])
  refine (actQ _ (l2 _ _ _ _ _ (seqQ hw
    (gapSWQ hp (k + l.text.length + g1.text.length + 4 + g2.text.length + 2) (by len) h3 (rval_stop hr X)
      (seqQ (labQ (refQ (r := .rvalue) (r1 _))) endQ)))) ?_).w ?_
  · simp only [runAct, Frame.get, if_true, reduceCtorEq, if_false, l1, r2, hp _ _ hk]
    rfl
  · simp only [CExpr.exc]
    warns

theorem cmpQ (hp : PosFn pf pos D) {l r : CRval} {g1 g2 : Gap} {op : CmpKind} {X : Bytes} (hl : l.Ok) (h1 : g1.Ok) (hop : op ≠ .undefined) (h2 : g2.Ok)
    (hr : r.Ok) (hX : RvFollow X) (k : Nat) (hk : k + ((CExpr.cmp l g1 op g2 r).text ++ X).length = D) : ExprQ o pf pos k (.cmp l g1 op g2 r) X := by
  intro ws
  simp only [CExpr.text, List.append_assoc] at hk ⊢
  have hh := cmpOp_head hop (g2.text ++ (r.text ++ X))
  refine expr_skipQ hl (choice2Q (refF (in_fail hl h1 hh.1 hh.2.1 hh.2.2.1)) (choice2Q (refF (notIn_fail hl h1 hh.1 hh.2.1 hh.2.2.2))
    (choice1Q (refQ (r := .compareExpression) ?_))))
  obtain ⟨lv, l1, l2⟩ := operandQ (o := o) hp hl h1 hh.1 hh.2.1 k hk
  obtain ⟨rv, r1, r2⟩ := rvalueQ (o := o) hp hr hX (k + l.text.length + g1.text.length + (cmpText op).length + g2.text.length) (by len)
  have hop2 : Runs o G.compareOperator (cmpText op ++ (g2.text ++ (r.text ++ X))) (.cmpOp ⟨op, Pos.zero⟩) (g2.text ++ (r.text ++ X)) := by
    refine runs_cmpOp.2 ⟨op, hop, rfl, ?_, rfl⟩
    intro _ h
    rcases gap_head h2 h with h | ⟨_, h⟩
    · revert h; decide
    · obtain ⟨c, t, k1, k2⟩ := rval_head hr X
      rw [k1] at h
      simp at h; subst h
      exact (rvalHead_ok k2).2.2.2 rfl
  refine (actQ _ (l2 _ _ _ _ _ (seqQ (labQ (cmpOpQ hp (k := k + l.text.length + g1.text.length) hop2 (by len)))
    (gapSWQ hp (k + l.text.length + g1.text.length + (cmpText op).length) (by len) h2 (rval_stop hr X)
      (seqQ (labQ (refQ (r := .rvalue) (r1 _))) endQ)))) ?_).w ?_
  · simp only [runAct, Frame.get, if_true, reduceCtorEq, if_false, l1, r2, hp _ _ hk]
    rfl
  · simp only [CExpr.exc]
    warns

theorem reQ (hp : PosFn pf pos D) {l r : CRval} {g1 g2 : Gap} {op : ReKind} {X : Bytes} (hl : l.Ok) (h1 : g1.Ok) (hop : op ≠ .undefined) (h2 : g2.Ok)
    (hr : r.Ok) (hpat : r.IsPattern) (k : Nat) (hk : k + ((CExpr.re l g1 op g2 r).text ++ X).length = D) : ExprQ o pf pos k (.re l g1 op g2 r) X := by
  intro ws
  simp only [CExpr.text, List.append_assoc] at hk ⊢
  have hh := reOp_head hop (g2.text ++ (r.text ++ X))
  refine expr_skipQ hl (choice2Q (refF (in_fail hl h1 hh.1 hh.2.1 hh.2.2.1)) (choice2Q (refF (notIn_fail hl h1 hh.1 hh.2.1 hh.2.2.2))
    (choice2Q (refF (cmp_fail hl h1 hh.1 hh.2.1 (reOp_cmp hop _))) (choice1Q (refQ (r := .regexpExpression) ?_)))))
  obtain ⟨lv, l1, l2⟩ := operandQ (o := o) hp hl h1 hh.1 hh.2.1 k hk
  obtain ⟨kr, hkr⟩ : ∃ kr, kr = k + l.text.length + g1.text.length + (reText op).length + g2.text.length := ⟨_, rfl⟩
  obtain ⟨rv, r1, r2, r3⟩ : ∃ v, (∀ ws, RunsP o pf (.choice [G.stringValue, G.regexp]) (r.text ++ X) ws v X ws) ∧
      toStringOrRegexp v = some (r.astAt o.ignoreComments pos kr) ∧ r.exc kr = [] := by
    have hk' : kr + (r.text ++ X).length = D := by rw [hkr]; len
    clear hkr
    cases r with
    | str s => exact ⟨_, fun ws => choice1Q (stringQ hp hr hk'), rfl, rfl⟩
    | re body =>
      have e : (CRval.re body).text ++ X = 47 :: (body ++ (47 :: X)) := by simp [CRval.text]
      have e2 : (CRval.re body).text ++ X = (b!"/" ++ body ++ b!"/") ++ X := by simp [CRval.text]
      refine ⟨.regexp ⟨pos kr, body⟩, fun ws => ?_, rfl, rfl⟩
      have h3 := regexpQ (o := o) (ws := ws) hp hr (X := X) (k := kr) (by rw [← e2]; exact hk')
      rw [← e2] at h3
      exact choice2Q (by rw [e]; exact string_fail_head (by decide)) (choice1Q h3)
    | _ => exact absurd hpat (by simp [CRval.IsPattern])
  subst hkr
  refine (actQ _ (l2 _ _ _ _ _ (seqQ (labQ (reOpQ hp (k := k + l.text.length + g1.text.length) hop (by len)))
    (gapSWQ hp (k + l.text.length + g1.text.length + (reText op).length) (by len) h2 (rval_stop hr X)
      (seqQ (labQ (r1 _)) endQ)))) ?_).w ?_
  · simp only [runAct, Frame.get, if_true, reduceCtorEq, if_false, l1, r2, hp _ _ hk]
    rfl
  · simp only [CExpr.exc, r3]
    warns

theorem rvalQ (hp : PosFn pf pos D) {r : CRval} {X : Bytes} (hr : r.Ok) (hX : ExprFollow X)
    (k : Nat) (hk : k + ((CExpr.rval r).text ++ X).length = D) : ExprQ o pf pos k (.rval r) X := by
  intro ws
  simp only [CExpr.text] at hk ⊢
  obtain ⟨v, h1, h2⟩ := rvalueQ (o := o) hp hr hX.rv k hk
  obtain ⟨g, T, hg, rfl, hT⟩ := hX
  have hs := exprEnd_stop hT
  have hf := exprEnd_rv hT
  obtain ⟨k1, k2, k3, k4, k5, k6⟩ := exprEnd_ops hT
  refine expr_skipQ hr (choice2Q (refF (in_fail hr hg hs hf k1)) (choice2Q (refF (notIn_fail hr hg hs hf k2))
    (choice2Q (refF (cmp_fail hr hg hs hf (fails_cmpOp (not_prefix_of_head rfl k3) (not_prefix_of_head rfl k4) k5 k6)))
    (choice2Q (refF (re_fail hr hg hs hf (fails_reOp.2 ⟨not_prefix_of_head rfl k3, not_prefix_of_head rfl k4⟩)))
    (choice1Q ⟨[(.rv, v)], .action (labQ (refQ (r := .rvalue) (h1 ws))) ?_⟩)))))
  simp only [runAct, Frame.get, if_true, h2, hp _ _ hk]
  rfl

theorem notSelQ (hp : PosFn pf pos D) {g : Gap} {names : List Bytes} {X : Bytes} (hg : g.Ok) (hn : SelOk names) (hX : RvFollow X)
    (k : Nat) (hk : k + ((CExpr.notSel g names).text ++ X).length = D) : ExprQ o pf pos k (.notSel g names) X := by
  intro ws
  simp only [CExpr.text, List.append_assoc] at hk ⊢
  obtain ⟨t, ht⟩ := sel_open hn X
  have hs : Stop (selText names ++ X) := by rw [ht]; exact stop_cons (by decide)
  refine choice2Q (actF (seqF (tokF (by decide) (by simp)))) (choice1Q (refQ (r := .negativeExpression) (choice2Q (actF ?_) (choice1Q ?_))))
  · refine seqA (tok_append (by decide) _ _) (gapSW hg hs (seqF (tokF (by decide) ?_)))
    rw [ht]; simp
  · refine (actQ _ (seqQ (litQ (by decide)) (gapSWQ hp (k + 1) (by len) hg hs
      (seqQ (labQ (selectorQ hp (k := k + 1 + g.text.length) hn hX.sel (by len))) endQ))) ?_).w ?_
    · simp only [runAct, Frame.get, if_true, hp _ _ hk]
      rfl
    · simp only [CExpr.exc]

/-! ### Conditions -/

theorem moreQ (hp : PosFn pf pos D) {g1 g2 : Gap} {op : BoolOpKind} {e : CExpr} {X : Bytes} (hok : moreOk [.mk g1 op g2 e])
    (k : Nat) (hk : k + (moreText [.mk g1 op g2 e] ++ X).length = D)
    (h : ExprQ o pf pos (k + g1.text.length + (boolText op).length + g2.text.length) e X) (ws : List Bytes) :
    RunsP o pf moreEx (moreText [.mk g1 op g2 e] ++ X) ws
      (.expr (e.astAt o.ignoreComments pos (k + g1.text.length + (boolText op).length + g2.text.length) (joinedAt (pos (k + g1.text.length)) op))) X
      (ws ++ wl o pos (moreExc k [.mk g1 op g2 e])) := by
  obtain ⟨h1, h2, h3, h4, _⟩ := hok
  simp only [moreText, List.append_assoc, List.nil_append] at hk ⊢
  refine (actQ _ (gapSWQ hp k (by len) h1 (boolOp_stop h2 _) (seqQ (labQ (boolOpQ hp (k := k + g1.text.length) h2 (by len)))
    (gapSWQ hp (k + g1.text.length + (boolText op).length) (by len) h3 (expr_head h4 X)
    (seqQ (labQ (refQ (r := .expression) (h _))) endQ)))) ?_).w ?_
  · simp only [runAct, Frame.get, if_true, reduceCtorEq, if_false, setBool_astAt]
  · simp only [moreExc]
    warns

theorem conditionQ_of (hp : PosFn pf pos D) {e : CExpr} {ms : List CMore} {X : Bytes} (k : Nat)
    (h : ExprQ o pf pos k e (moreText ms ++ X))
    (hm : ∀ ws, StepsP o pf moreEx (moreText ms ++ X) ws ((moreAt o.ignoreComments pos (k + e.text.length) ms).map Val.expr) X
      (ws ++ wl o pos (moreExc (k + e.text.length) ms))) (hf : Fails o moreEx X) (ws : List Bytes) :
    RunsP o pf G.condition ((CCond.mk e ms).text ++ X) ws (.cond ((CCond.mk e ms).astAt o.ignoreComments pos k)) X
      (ws ++ wl o pos ((CCond.mk e ms).exc k)) := by
  simp only [CCond.text, List.append_assoc]
  refine (actQ _ (seqQ (labQ (refQ (r := .expression) (h _))) (seqQ (labQ (starQ (hm _) hf)) endQ)) ?_).w ?_
  · simp only [runAct, Frame.get, if_true, reduceCtorEq, if_false, toIfaceSlice]
    rw [show ∀ (x : Expr) (l : List Expr), [Val.expr x] ++ l.map Val.expr = (x :: l).map Val.expr from fun _ _ => rfl,
        collectExprs_expr]
    simp [CCond.astAt]
  · simp only [CCond.exc]
    warns

/-- Completeness of the rule `condition` at offset `k`. -/
def CondQ (o : Opts) (pf : Bytes → Pos) (pos : Nat → Pos) (k : Nat) (c : CCond) (X : Bytes) : Prop :=
  ∀ ws, RunsP o pf G.condition (c.text ++ X) ws (.cond (c.astAt o.ignoreComments pos k)) X (ws ++ wl o pos (c.exc k))

theorem parenQ (hp : PosFn pf pos D) {g1 g2 : Gap} {c : CCond} {X : Bytes} (hok : (CExpr.paren g1 c g2).Ok)
    (k : Nat) (hk : k + ((CExpr.paren g1 c g2).text ++ X).length = D)
    (h : CondQ o pf pos (k + 1 + g1.text.length) c (g2.text ++ (b!")" ++ X))) : ExprQ o pf pos k (.paren g1 c g2) X := by
  intro ws
  simp only [CExpr.text, List.append_assoc] at hk ⊢
  refine choice1Q ((actQ _ (seqQ (litQ (by decide)) (gapSWQ hp (k + 1) (by len) hok.1 (cond_stop hok.2.1 _)
    (seqQ (labQ (refQ (r := .condition) (h _)))
    (gapTokQ hp (k + 1 + g1.text.length + c.text.length) (by len) hok.2.2 (by decide) (by decide) endQ)))) ?_).w ?_)
  · simp only [runAct, Frame.get, if_true, hp _ _ hk]
    rfl
  · simp only [CExpr.exc]
    warns

theorem notParenQ (hp : PosFn pf pos D) {g0 g1 g2 : Gap} {c : CCond} {X : Bytes} (hok : (CExpr.notParen g0 g1 c g2).Ok)
    (k : Nat) (hk : k + ((CExpr.notParen g0 g1 c g2).text ++ X).length = D)
    (h : CondQ o pf pos (k + 1 + g0.text.length + 1 + g1.text.length) c (g2.text ++ (b!")" ++ X))) : ExprQ o pf pos k (.notParen g0 g1 c g2) X := by
  intro ws
  simp only [CExpr.text, List.append_assoc] at hk ⊢
  obtain ⟨h0, h1, hc, h2⟩ := hok
  refine choice2Q (actF (seqF (tokF (by decide) (by simp)))) (choice1Q (refQ (r := .negativeExpression) (choice1Q
    ((actQ _ (seqQ (litQ (by decide)) (gapTokQ hp (k + 1) (by len) h0 (by decide) (by decide)
      (gapSWQ hp (k + 1 + g0.text.length + 1) (by len) h1 (cond_stop hc _) (seqQ (labQ (refQ (r := .condition) (h _)))
      (gapSWQ hp (k + 1 + g0.text.length + 1 + g1.text.length + c.text.length) (by len) h2 (stop_cons (by decide))
        (seqQ (closeQ (by decide) (by simp)) endQ)))))) ?_).w ?_))))
  · simp only [runAct, Frame.get, if_true, hp _ _ hk]
    rfl
  · simp only [CExpr.exc]
    warns

mutual
/-- Completeness of the rule `expression`. -/
theorem expressionQ (o : Opts) (hp : PosFn pf pos D) : (e : CExpr) → e.Ok → (X : Bytes) → ExprFollow X → (k : Nat) → k + (e.text ++ X).length = D →
    ExprQ o pf pos k e X
  | .paren g1 c g2, h, X, _, k, hk => parenQ hp h k hk (conditionQ o hp c h.2.1 _ (condFollow_paren h.2.2 X) _ (by
      simp only [CExpr.text, List.append_assoc] at hk; len))
  | .notParen g0 g1 c g2, h, X, _, k, hk => notParenQ hp h k hk (conditionQ o hp c h.2.2.1 _ (condFollow_paren h.2.2.2 X) _ (by
      simp only [CExpr.text, List.append_assoc] at hk; len))
  | .notSel _ _, h, _, hX, k, hk => notSelQ hp h.1 h.2 hX.rv k hk
  | .inE _ _ _ _, h, _, hX, k, hk => inQ hp h.1 h.2.1 h.2.2.1 h.2.2.2 hX.rv k hk
  | .notIn _ _ _ _ _, h, _, hX, k, hk => notInQ hp h.1 h.2.1 h.2.2.1 h.2.2.2.1 h.2.2.2.2 hX.rv k hk
  | .cmp _ _ _ _ _, h, _, hX, k, hk => cmpQ hp h.1 h.2.1 h.2.2.1 h.2.2.2.1 h.2.2.2.2 hX.rv k hk
  | .re _ _ _ _ _, h, _, _, k, hk => reQ hp h.1 h.2.1 h.2.2.1 h.2.2.2.1 h.2.2.2.2.1 h.2.2.2.2.2 k hk
  | .rval _, h, _, hX, k, hk => rvalQ hp h hX k hk
/-- Completeness of the rule `condition`. -/
theorem conditionQ (o : Opts) (hp : PosFn pf pos D) : (c : CCond) → c.Ok → (X : Bytes) → CondFollow X → (k : Nat) → k + (c.text ++ X).length = D →
    CondQ o pf pos k c X
  | .mk e ms, h, X, hX, k, hk => by
    simp only [CCond.text, List.append_assoc] at hk
    exact conditionQ_of hp k (expressionQ o hp e h.1 _ (more_follow h.2 hX) k hk) (moresQ o hp ms h.2 _ hX _ (by len)) (more_fail hX)
/-- Further operands. -/
theorem moresQ (o : Opts) (hp : PosFn pf pos D) : (ms : List CMore) → moreOk ms → (X : Bytes) → CondFollow X → (k : Nat) →
    k + (moreText ms ++ X).length = D → ∀ ws,
    StepsP o pf moreEx (moreText ms ++ X) ws ((moreAt o.ignoreComments pos k ms).map Val.expr) X (ws ++ wl o pos (moreExc k ms))
  | [], _, _, _, _, _ => fun ws => by
    simp only [moreExc, wl_nil, List.append_nil]
    exact .nil
  | .mk g1 op g2 e :: r, h, X, hX, k, hk => fun ws => by
    have h1 := (moreOk_append _ _).1 h
    rw [moreText_append, List.append_assoc] at hk
    rw [moreText_append, List.append_assoc, moreAt_append, moreExc_append, wl_append, ← List.append_assoc ws]
    have hk2 := hk
    simp only [moreText, List.append_assoc, List.nil_append] at hk2
    exact .cons (moreQ hp h1.1 k hk (expressionQ o hp e h.2.2.2.1 _ (more_follow h.2.2.2.2 hX) _ (by clear hk; have hk := hk2; len)) ws)
      (moresQ o hp r h.2.2.2.2 X hX _ (by rw [List.length_append] at hk; omega) _)
end

end
end Verif
