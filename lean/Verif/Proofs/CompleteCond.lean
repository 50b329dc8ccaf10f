import Verif.Proofs.Complete
/-
Completeness of the grammar, continued: conditions.
-/
namespace Verif
open Spec

section
variable {o : Opts}

/-! ### Operands -/

/-- What may follow an operand: no digit, no dot, no `[`. -/
def RvFollow (b : Bytes) : Prop := ∀ c, b.head? = some c → isNumChar c = false ∧ c ≠ 91

theorem RvFollow.num {b : Bytes} (h : RvFollow b) : b.takeWhile isNumChar = [] := takeWhile_nil fun c hc => (h c hc).1
theorem RvFollow.sel {b : Bytes} (h : RvFollow b) : ¬ SelLike b := by
  rintro ⟨n, r, rfl, _, _⟩
  exact (h 91 rfl).2 rfl

theorem gapChar_sel : ∀ c : UInt8, isGapChar c = true → c ≠ 91 := by decide +kernel

theorem rvFollow_gap {g : Gap} (hg : g.Ok) {X : Bytes} (h : RvFollow X) : RvFollow (g.text ++ X) := by
  intro c hc
  rcases gap_head hg hc with h1 | ⟨_, h1⟩
  · exact ⟨gapChar_num c h1, gapChar_sel c h1⟩
  · exact h c h1

theorem rvFollow_cons {c : UInt8} {X : Bytes} (h : isNumChar c = false ∧ c ≠ 91) : RvFollow (c :: X) := by
  intro d hd
  simp at hd; subst hd; exact h

theorem arr_not_selLike {es : List CElem} {g : Gap} (h : ¬ SelLike (CVal.arr es g).text) (X : Bytes) :
    ¬ SelLike ((CVal.arr es g).text ++ X) := by
  rintro ⟨n, r, h1, h2, h3⟩
  have hn : 93 ∉ n := by
    intro h4
    have := List.all_eq_true.1 h3 93 h4
    revert this; decide
  apply h
  have e : (CVal.arr es g).text = 91 :: (elemsText true es ++ g.text) ++ [93] := by simp [CVal.text]
  rw [e] at h1 ⊢
  simp only [List.cons_append, List.append_assoc, List.cons.injEq, true_and, List.nil_append] at h1
  rw [← List.append_assoc] at h1
  generalize elemsText true es ++ g.text = M at h1
  rcases List.append_eq_append_iff.1 h1.symm with ⟨a, rfl, h4⟩ | ⟨a, rfl, h4⟩
  · cases a with
    | nil => exact ⟨n, [], by simp, h2, h3⟩
    | cons c a =>
      simp only [List.cons_append, List.cons.injEq] at h4
      rw [← h4.1]
      exact ⟨n, a ++ [93], by simp, h2, h3⟩
  · cases a with
    | nil => exact ⟨M, [], by simp, by simpa using h2, by simpa using h3⟩
    | cons c a =>
      simp only [List.cons_append, List.cons.injEq] at h4
      rw [← h4.1] at hn
      simp at hn

/-- The first character of an operand. -/
theorem rval_head {r : CRval} (h : r.Ok) (X : Bytes) : ∃ c t, r.text ++ X = c :: t ∧
    (c = 34 ∨ c = 39 ∨ c = 91 ∨ c = 47 ∨ c = 45 ∨ Spec.isDigit c = true) := by
  cases r with
  | str s =>
    obtain ⟨sat, body⟩ := s
    rcases h with ⟨h, _⟩ | ⟨h, _⟩ <;> simp only at h <;> subst h
    · exact ⟨34, _, rfl, by simp⟩
    · exact ⟨39, _, rfl, by simp⟩
  | num t =>
    obtain ⟨c, r, h1, h2⟩ := num_head h X
    exact ⟨c, r, h1, by rcases h2 with h2 | h2 <;> simp [h2]⟩
  | sel names =>
    obtain ⟨n1, _⟩ := h
    cases names with
    | nil => exact absurd rfl n1
    | cons n ns => exact ⟨91, n ++ (93 :: selText ns ++ X), by simp [CRval.text, selText], by simp⟩
  | arr e g => exact ⟨91, _, by simp [CRval.text, CVal.text]; rfl, by simp⟩
  | re b => exact ⟨47, _, rfl, by simp⟩

theorem rvalHead_ok {c : UInt8} (h : c = 34 ∨ c = 39 ∨ c = 91 ∨ c = 47 ∨ c = 45 ∨ Spec.isDigit c = true) :
    isStop c = true ∧ c ≠ 40 ∧ c ≠ 33 ∧ c ≠ 61 := by
  rcases h with rfl | rfl | rfl | rfl | rfl | h
  all_goals first | decide | skip
  revert h; revert c; decide +kernel

theorem rval_stop {r : CRval} (h : r.Ok) (X : Bytes) : Stop (r.text ++ X) := by
  obtain ⟨c, t, h1, h2⟩ := rval_head h X
  rw [h1]; exact stop_cons (rvalHead_ok h2).1

theorem sel_open {names : List Bytes} (h : SelOk names) (X : Bytes) : ∃ t, selText names ++ X = 91 :: t := by
  obtain ⟨n1, _⟩ := h
  cases names with
  | nil => exact absurd rfl n1
  | cons n ns => exact ⟨n ++ (93 :: selText ns ++ X), by simp [selText]⟩

theorem string_fail_head {c : UInt8} {X : Bytes} (h : c ≠ 34 ∧ c ≠ 39) : Fails o G.stringValue (c :: X) := by
  rw [fails_stringValue]; simpa using h

/-- Completeness of the rule `rvalue`. -/
theorem rvalue_complete {r : CRval} (h : r.Ok) {X : Bytes} (hX : RvFollow X) :
    ∃ v, Runs o G.rvalue (r.text ++ X) v X ∧ toRvalue v = some (r.ast o.ignoreComments) := by
  cases r with
  | str s => exact ⟨_, choiceA fun _ => choice1 (runs_stringValue.2 ⟨_, h, rfl, rfl⟩), rfl⟩
  | num t =>
    obtain ⟨c, r, h1, h2⟩ := num_head h X
    refine ⟨_, choiceA fun _ => choice2 ?_ (choice1 (number_complete h hX.num)), rfl⟩
    simp only [CRval.text]
    rw [h1]
    refine string_fail_head ?_
    rcases h2 with rfl | h2
    · decide
    · clear h1; revert h2; revert c; decide +kernel
  | sel names =>
    refine ⟨.selector (selAst names), choiceA fun _ => ?_, rfl⟩
    · obtain ⟨t, ht⟩ := sel_open h X
      simp only [CRval.text]
      refine choice2 ?_ (choice2 ?_ (choice1 (runs_selector.2 ⟨names, h, rfl, hX.sel, rfl⟩)))
      · rw [ht]; exact string_fail_head (by decide)
      · rw [ht]; exact number_fail_head (by decide) (by decide)
  | arr es g =>
    obtain ⟨h1, h2⟩ := h
    have h3 := arr_not_selLike h2 X
    have e : (CVal.arr es g).text ++ X = 91 :: (elemsText true es ++ (g.text ++ ([93] ++ X))) := by simp [CVal.text]
    refine ⟨_, choiceA fun _ => choice2 ?_ (choice2 ?_ (choice2 (fails_selector.2 h3) (choice1 (refA (array_complete h1 X))))), rfl⟩
    · simp only [CRval.text]; rw [e]; exact string_fail_head (by decide)
    · simp only [CRval.text]; rw [e]; exact number_fail_head (by decide) (by decide)
  | re body =>
    have e : (CRval.re body).text ++ X = 47 :: (body ++ (47 :: X)) := by simp [CRval.text]
    rw [e]
    refine ⟨_, choiceA fun _ => choice2 (string_fail_head (by decide)) (choice2 (number_fail_head (by decide) (by decide)) (choice2 ?_
      (choice2 (refF (array_fail (by simp))) (choice1 (runs_regexp.2 ⟨body, h, rfl, rfl⟩))))), rfl⟩
    rw [fails_selector]
    rintro ⟨n, r, h1, _⟩
    simp at h1

/-! ### Expressions -/

/-- What may follow a condition after a gap: `)`, `{` or nothing. -/
def CondEnd (T : Bytes) : Prop := T = [] ∨ ∃ Y, T = 41 :: Y ∨ T = 123 :: Y

/-- What may follow an expression after a gap: what may follow a condition, or a boolean operator. -/
def ExprEnd (T : Bytes) : Prop :=
  CondEnd T ∨ ∃ op Y, (op ≠ BoolOpKind.undefined ∧ op ≠ .noOp) ∧ T = boolText op ++ Y

/-- What may follow an expression. -/
def ExprFollow (X : Bytes) : Prop := ∃ g : Gap, ∃ T, g.Ok ∧ X = g.text ++ T ∧ ExprEnd T

theorem exprEnd_stop {T : Bytes} (h : ExprEnd T) : Stop T := by
  rcases h with (rfl | ⟨Y, rfl | rfl⟩) | ⟨op, Y, h, rfl⟩
  · exact ⟨rfl, rfl⟩
  · exact stop_cons (by decide)
  · exact stop_cons (by decide)
  · cases op <;> simp_all [boolText] <;> exact stop_cons (by decide)

theorem exprEnd_rv {T : Bytes} (h : ExprEnd T) : RvFollow T := by
  rcases h with (rfl | ⟨Y, rfl | rfl⟩) | ⟨op, Y, h, rfl⟩
  · exact nofun
  · exact rvFollow_cons (by decide)
  · exact rvFollow_cons (by decide)
  · cases op <;> simp_all [boolText] <;> exact rvFollow_cons (by decide)

theorem ExprFollow.rv {X : Bytes} (h : ExprFollow X) : RvFollow X := by
  obtain ⟨g, T, hg, rfl, h⟩ := h
  exact rvFollow_gap hg (exprEnd_rv h)

theorem not_prefix_second {a b : UInt8} {r T Y : Bytes} (h : T = a :: Y) (h2 : Y.head? ≠ some b) : ¬ (a :: b :: r) <+: T := by
  rintro ⟨t, rfl⟩
  simp only [List.cons_append, List.cons.injEq] at h
  rw [← h.2] at h2
  simp at h2

theorem exprEnd_ops {T : Bytes} (h : ExprEnd T) : ¬ b!"in" <+: T ∧ ¬ b!"not " <+: T ∧ T.head? ≠ some 61 ∧ T.head? ≠ some 33 ∧
    T.head? ≠ some 60 ∧ T.head? ≠ some 62 := by
  rcases h with (rfl | ⟨Y, rfl | rfl⟩) | ⟨op, Y, h, rfl⟩
  · simp
  · simp
  · simp
  · cases op <;> simp_all [boolText]

/-- An operand, a gap and something that is not the operator. -/
theorem opA {e : Ex} {es : List Ex} {l : CRval} (hl : l.Ok) {g : Gap} (hg : g.Ok) {T : Bytes} (hs : Stop T) (hT : RvFollow T) :
    ∃ v, toRvalue v = some (l.ast o.ignoreComments) ∧ ∀ P, SeqP o P (e :: es) T [(.lv, v)] →
      SeqP o P (.labeled .lv (.ref .rvalue) :: G.gapS :: G.warn :: e :: es) (l.text ++ (g.text ++ T)) [] := by
  obtain ⟨v, h1, h2⟩ := rvalue_complete (o := o) hl (rvFollow_gap hg hT)
  exact ⟨v, h2, fun P h => seqA (labA (refA h1)) (gapSW hg hs h)⟩

theorem in_fail {l : CRval} (hl : l.Ok) {g : Gap} (hg : g.Ok) {T : Bytes} (hs : Stop T) (hT : RvFollow T) (h : ¬ b!"in" <+: T) :
    Fails o G.inExpression (l.text ++ (g.text ++ T)) := by
  obtain ⟨v, _, h1⟩ := opA (o := o) hl hg hs hT
  exact actF (h1 _ (seqF ((close_push_fail (by decide)).2 h)))

theorem notIn_fail {l : CRval} (hl : l.Ok) {g : Gap} (hg : g.Ok) {T : Bytes} (hs : Stop T) (hT : RvFollow T) (h : ¬ b!"not " <+: T) :
    Fails o G.notInExpression (l.text ++ (g.text ++ T)) := by
  obtain ⟨v, _, h1⟩ := opA (o := o) hl hg hs hT
  refine actF (h1 _ (seqF ?_))
  rw [G.notInOperator, run_choice]
  refine choice2 ?_ (choice2 (run_pushError ..) (by rw [choiceR]))
  unfold Fails
  rw [run_seq]
  exact seqF ((tok_fail (by decide)).2 h) _

theorem cmp_fail {l : CRval} (hl : l.Ok) {g : Gap} (hg : g.Ok) {T : Bytes} (hs : Stop T) (hT : RvFollow T) (h : Fails o G.compareOperator T) :
    Fails o G.compareExpression (l.text ++ (g.text ++ T)) := by
  obtain ⟨v, _, h1⟩ := opA (o := o) hl hg hs hT
  exact actF (h1 _ (seqF (labeled_fail.2 h)))

theorem re_fail {l : CRval} (hl : l.Ok) {g : Gap} (hg : g.Ok) {T : Bytes} (hs : Stop T) (hT : RvFollow T) (h : Fails o G.regexpOperator T) :
    Fails o G.regexpExpression (l.text ++ (g.text ++ T)) := by
  obtain ⟨v, _, h1⟩ := opA (o := o) hl hg hs hT
  exact actF (h1 _ (seqF (labeled_fail.2 h)))

theorem neg_fail {b : Bytes} (h : b.head? ≠ some 33) : Fails o G.negativeExpression b := by
  unfold Fails; rw [G.negativeExpression, run_choice]
  exact choice2 (actF (seqF (tokF (by decide) h))) (choice2 (actF (seqF (tokF (by decide) h))) (by rw [choiceR]))

/-- The first two alternatives fail on an operand. -/
theorem expr_skip {l : CRval} (hl : l.Ok) {X b1 : Bytes} {v : Val}
    (h : ∀ fr, choiceR (run o) [.ref .inExpression, .ref .notInExpression, .ref .compareExpression, .ref .regexpExpression,
      .action (.rvalue .rv) (.labeled .rv (.ref .rvalue))] (l.text ++ X) fr = .ok v b1 fr) : Runs o G.expression (l.text ++ X) v b1 := by
  obtain ⟨c, t, h1, h2⟩ := rval_head hl X
  have h3 := rvalHead_ok h2
  refine choiceA fun fr => choice2 (actF (seqF (tokF (by decide) ?_))) (choice2 (refF (neg_fail ?_)) (h fr))
  · rw [h1]; simpa using h3.2.1
  · rw [h1]; simpa using h3.2.2.1

theorem in_complete {l r : CRval} {g1 g2 : Gap} {X : Bytes} (hl : l.Ok) (h1 : g1.Ok) (h2 : g2.Ok) (hr : r.Ok) (hX : RvFollow X) :
    Runs o G.expression ((CExpr.inE l g1 g2 r).text ++ X) (.expr ((CExpr.inE l g1 g2 r).ast o.ignoreComments .noOp)) X := by
  simp only [CExpr.text, List.append_assoc]
  refine expr_skip hl fun _ => choice1 (refA ?_)
  obtain ⟨lv, l1, l2⟩ := opA (o := o) (e := G.inOperator) (es := [G.gapS, G.warn, .labeled .rv (.ref .rvalue)]) hl h1
    (T := b!"in" ++ (g2.text ++ (r.text ++ X))) (stop_cons (by decide)) (rvFollow_cons (by decide))
  obtain ⟨rv, r1, r2⟩ := rvalue_complete (o := o) hr hX
  refine actA _ (l2 _ (seqA ((close_ok (by decide) (by simp)).2 ⟨rfl, rfl, rfl⟩) (gapSW h2 (rval_stop hr X) (seqA (labA (refA r1)) seqEnd)))) ?_
  simp only [runAct, Frame.get, if_true, reduceCtorEq, if_false, l1, r2]
  rfl

theorem notIn_complete {l r : CRval} {g1 g2 g3 : Gap} {X : Bytes} (hl : l.Ok) (h1 : g1.Ok) (h2 : g2.Ok) (h3 : g3.Ok) (hr : r.Ok)
    (hX : RvFollow X) :
    Runs o G.expression ((CExpr.notIn l g1 g2 g3 r).text ++ X) (.expr ((CExpr.notIn l g1 g2 g3 r).ast o.ignoreComments .noOp)) X := by
  simp only [CExpr.text, List.append_assoc]
  refine expr_skip hl fun _ => choice2 (refF (in_fail hl h1 (stop_cons (by decide)) (rvFollow_cons (by decide)) (by simp))) (choice1 (refA ?_))
  obtain ⟨lv, l1, l2⟩ := opA (o := o) (e := G.notInOperator) (es := [G.gapS, G.warn, .labeled .rv (.ref .rvalue)]) hl h1
    (T := b!"not " ++ (g2.text ++ (b!"in" ++ (g3.text ++ (r.text ++ X))))) (stop_cons (by decide)) (rvFollow_cons (by decide))
  obtain ⟨rv, r1, r2⟩ := rvalue_complete (o := o) hr hX
  have hop : ∀ fr, ∃ w, run o G.notInOperator (b!"not " ++ (g2.text ++ (b!"in" ++ (g3.text ++ (r.text ++ X))))) fr = .ok w (g3.text ++ (r.text ++ X)) fr := by
    intro fr
    obtain ⟨w, hw⟩ := (seqA (tok_append (by decide) _ _) (gapTok h2 (by decide) (by decide) seqEnd) : SeqP o (OkAt (g3.text ++ (r.text ++ X)) [])
      [.lit b!"not ", G.gapS, G.warn, .lit b!"in"] (b!"not " ++ (g2.text ++ (b!"in" ++ (g3.text ++ (r.text ++ X))))) []) []
    refine ⟨w, ?_⟩
    rw [G.notInOperator, run_choice]
    exact choice1 ⟨[], by rw [run_seq]; exact hw⟩
  obtain ⟨w, hw⟩ := hop [(.lv, lv)]
  refine actA _ (l2 _ (seqA hw (gapSW h3 (rval_stop hr X) (seqA (labA (refA r1)) seqEnd)))) ?_
  simp only [runAct, Frame.get, if_true, reduceCtorEq, if_false, l1, r2]
  rfl

theorem cmpOp_head {op : CmpKind} (h : op ≠ .undefined) (Y : Bytes) : Stop (cmpText op ++ Y) ∧ RvFollow (cmpText op ++ Y) ∧
    ¬ b!"in" <+: cmpText op ++ Y ∧ ¬ b!"not " <+: cmpText op ++ Y := by
  cases op <;> simp_all [cmpText] <;> exact ⟨stop_cons (by decide), rvFollow_cons (by decide)⟩
theorem reOp_head {op : ReKind} (h : op ≠ .undefined) (Y : Bytes) : Stop (reText op ++ Y) ∧ RvFollow (reText op ++ Y) ∧
    ¬ b!"in" <+: reText op ++ Y ∧ ¬ b!"not " <+: reText op ++ Y := by
  cases op <;> simp_all [reText] <;> exact ⟨stop_cons (by decide), rvFollow_cons (by decide)⟩
theorem reOp_cmp {op : ReKind} (h : op ≠ .undefined) (Y : Bytes) : Fails o G.compareOperator (reText op ++ Y) := by
  cases op <;> simp_all [reText] <;> exact fails_cmpOp (by simp) (by simp) (by simp) (by simp)

theorem cmp_complete {l r : CRval} {g1 g2 : Gap} {op : CmpKind} {X : Bytes} (hl : l.Ok) (h1 : g1.Ok) (hop : op ≠ .undefined) (h2 : g2.Ok)
    (hr : r.Ok) (hX : RvFollow X) :
    Runs o G.expression ((CExpr.cmp l g1 op g2 r).text ++ X) (.expr ((CExpr.cmp l g1 op g2 r).ast o.ignoreComments .noOp)) X := by
  simp only [CExpr.text, List.append_assoc]
  have hh := cmpOp_head hop (g2.text ++ (r.text ++ X))
  refine expr_skip hl fun _ => choice2 (refF (in_fail hl h1 hh.1 hh.2.1 hh.2.2.1)) (choice2 (refF (notIn_fail hl h1 hh.1 hh.2.1 hh.2.2.2))
    (choice1 (refA ?_)))
  obtain ⟨lv, l1, l2⟩ := opA (o := o) (e := .labeled .co G.compareOperator) (es := [G.gapS, G.warn, .labeled .rv (.ref .rvalue)]) hl h1 hh.1 hh.2.1
  obtain ⟨rv, r1, r2⟩ := rvalue_complete (o := o) hr hX
  refine actA _ (l2 _ (seqA (labA (runs_cmpOp.2 ⟨op, hop, rfl, ?_, rfl⟩)) (gapSW h2 (rval_stop hr X) (seqA (labA (refA r1)) seqEnd)))) ?_
  · intro _ h
    rcases gap_head h2 h with h | ⟨_, h⟩
    · revert h; decide
    · obtain ⟨c, t, k1, k2⟩ := rval_head hr X
      rw [k1] at h
      simp at h; subst h
      exact (rvalHead_ok k2).2.2.2 rfl
  · simp only [runAct, Frame.get, if_true, reduceCtorEq, if_false, l1, r2]
    rfl

theorem re_complete {l r : CRval} {g1 g2 : Gap} {op : ReKind} {X : Bytes} (hl : l.Ok) (h1 : g1.Ok) (hop : op ≠ .undefined) (h2 : g2.Ok)
    (hr : r.Ok) (hp : r.IsPattern) :
    Runs o G.expression ((CExpr.re l g1 op g2 r).text ++ X) (.expr ((CExpr.re l g1 op g2 r).ast o.ignoreComments .noOp)) X := by
  simp only [CExpr.text, List.append_assoc]
  have hh := reOp_head hop (g2.text ++ (r.text ++ X))
  refine expr_skip hl fun _ => choice2 (refF (in_fail hl h1 hh.1 hh.2.1 hh.2.2.1)) (choice2 (refF (notIn_fail hl h1 hh.1 hh.2.1 hh.2.2.2))
    (choice2 (refF (cmp_fail hl h1 hh.1 hh.2.1 (reOp_cmp hop _))) (choice1 (refA ?_))))
  obtain ⟨lv, l1, l2⟩ := opA (o := o) (e := .labeled .ro G.regexpOperator) (es := [G.gapS, G.warn, .labeled .rv (.choice [G.stringValue, G.regexp])])
    hl h1 hh.1 hh.2.1
  obtain ⟨rv, r1, r2⟩ : ∃ v, Runs o (.choice [G.stringValue, G.regexp]) (r.text ++ X) v X ∧ toStringOrRegexp v = some (r.ast o.ignoreComments) := by
    cases r with
    | str s => exact ⟨_, choiceA fun _ => choice1 (runs_stringValue.2 ⟨_, hr, rfl, rfl⟩), rfl⟩
    | re body =>
      have e : (CRval.re body).text ++ X = 47 :: (body ++ (47 :: X)) := by simp [CRval.text]
      rw [e]
      exact ⟨_, choiceA fun _ => choice2 (string_fail_head (by decide)) (choice1 (runs_regexp.2 ⟨body, hr, rfl, rfl⟩)), rfl⟩
    | _ => exact absurd hp (by simp [CRval.IsPattern])
  refine actA _ (l2 _ (seqA (labA (runs_reOp.2 ⟨op, hop, rfl, rfl⟩)) (gapSW h2 (rval_stop hr X) (seqA (labA r1) seqEnd)))) ?_
  simp only [runAct, Frame.get, if_true, reduceCtorEq, if_false, l1, r2]
  rfl

theorem rval_complete {r : CRval} {X : Bytes} (hr : r.Ok) (hX : ExprFollow X) :
    Runs o G.expression ((CExpr.rval r).text ++ X) (.expr ((CExpr.rval r).ast o.ignoreComments .noOp)) X := by
  simp only [CExpr.text]
  obtain ⟨v, h1, h2⟩ := rvalue_complete (o := o) hr hX.rv
  obtain ⟨g, T, hg, rfl, hT⟩ := hX
  have hs := exprEnd_stop hT
  have hf := exprEnd_rv hT
  obtain ⟨k1, k2, k3, k4, k5, k6⟩ := exprEnd_ops hT
  refine expr_skip hr fun _ => choice2 (refF (in_fail hr hg hs hf k1)) (choice2 (refF (notIn_fail hr hg hs hf k2))
    (choice2 (refF (cmp_fail hr hg hs hf (fails_cmpOp (not_prefix_of_head rfl k3) (not_prefix_of_head rfl k4) k5 k6)))
    (choice2 (refF (re_fail hr hg hs hf (fails_reOp.2 ⟨not_prefix_of_head rfl k3, not_prefix_of_head rfl k4⟩)))
    (choice1 ⟨[(.rv, v)], action_ok.2 ⟨v, labA (refA h1), ?_⟩⟩))))
  simp only [runAct, Frame.get, if_true, h2]
  rfl

theorem notSel_complete {g : Gap} {names : List Bytes} {X : Bytes} (hg : g.Ok) (hn : SelOk names) (hX : RvFollow X) :
    Runs o G.expression ((CExpr.notSel g names).text ++ X) (.expr ((CExpr.notSel g names).ast o.ignoreComments .noOp)) X := by
  simp only [CExpr.text, List.append_assoc]
  obtain ⟨t, ht⟩ := sel_open hn X
  have hs : Stop (selText names ++ X) := by rw [ht]; exact stop_cons (by decide)
  refine choiceA fun _ => choice2 (actF (seqF (tokF (by decide) (by simp)))) (choice1 (refA (choiceA fun _ => choice2 (actF ?_) (choice1 ?_))))
  · refine seqA (tok_append (by decide) _ _) (gapSW hg hs (seqF (tokF (by decide) ?_)))
    rw [ht]; simp
  · refine actA _ (seqA (tok_append (by decide) _ _) (gapSW hg hs (seqA (labA (runs_selector.2 ⟨names, hn, rfl, hX.sel, rfl⟩)) seqEnd))) ?_
    simp only [runAct, Frame.get, if_true]
    rfl

/-! ### Conditions -/

/-- What may follow a condition. -/
def CondFollow (X : Bytes) : Prop := ∃ g : Gap, ∃ T, g.Ok ∧ X = g.text ++ T ∧ CondEnd T

theorem condFollow_expr {X : Bytes} (h : CondFollow X) : ExprFollow X := by
  obtain ⟨g, T, hg, rfl, h⟩ := h
  exact ⟨g, _, hg, rfl, .inl h⟩

theorem more_fail {X : Bytes} (h : CondFollow X) : Fails o moreEx X := by
  obtain ⟨g, T, hg, rfl, h⟩ := h
  refine actF (gapSW hg (exprEnd_stop (.inl h)) (seqF (labeled_fail.2 (fails_boolOp.2 ?_))))
  rcases h with rfl | ⟨Y, rfl | rfl⟩ <;> simp

theorem expr_head {e : CExpr} (h : e.Ok) (X : Bytes) : Stop (e.text ++ X) := by
  cases e with
  | paren | notParen => simp only [CExpr.text, List.append_assoc]; exact stop_cons (by decide)
  | notSel => simp only [CExpr.text, List.append_assoc]; exact stop_cons (by decide)
  | inE l g1 g2 r => simp only [CExpr.text, List.append_assoc]; exact rval_stop h.1 _
  | notIn l g1 g2 r => simp only [CExpr.text, List.append_assoc]; exact rval_stop h.1 _
  | cmp l g1 op g2 r => simp only [CExpr.text, List.append_assoc]; exact rval_stop h.1 _
  | re l g1 op g2 r => simp only [CExpr.text, List.append_assoc]; exact rval_stop h.1 _
  | rval r => exact rval_stop h _

theorem cond_stop {c : CCond} (h : c.Ok) (X : Bytes) : Stop (c.text ++ X) := by
  obtain ⟨e, m⟩ := c
  simp only [CCond.text, List.append_assoc]; exact expr_head h.1 _

theorem more_follow {ms : List CMore} (h : moreOk ms) {X : Bytes} (hX : CondFollow X) : ExprFollow (moreText ms ++ X) := by
  cases ms with
  | nil => exact condFollow_expr hX
  | cons m ms =>
    obtain ⟨g1, op, g2, e⟩ := m
    simp only [moreText, List.append_assoc]
    exact ⟨g1, _, h.1, rfl, .inr ⟨op, _, h.2.1, rfl⟩⟩

theorem boolOp_stop {op : BoolOpKind} (h : op ≠ .undefined ∧ op ≠ .noOp) (Y : Bytes) : Stop (boolText op ++ Y) :=
  exprEnd_stop (.inr ⟨op, Y, h, rfl⟩)

theorem more_complete {g1 g2 : Gap} {op : BoolOpKind} {e : CExpr} {X : Bytes} (hok : moreOk [.mk g1 op g2 e])
    (h : Runs o G.expression (e.text ++ X) (.expr (e.ast o.ignoreComments .noOp)) X) :
    Runs o moreEx (moreText [.mk g1 op g2 e] ++ X) (.expr (e.ast o.ignoreComments op)) X := by
  obtain ⟨h1, h2, h3, h4, _⟩ := hok
  simp only [moreText, List.append_assoc, List.nil_append]
  refine actA _ (gapSW h1 (boolOp_stop h2 _) (seqA (labA (runs_boolOp.2 ⟨op, h2, rfl, rfl⟩)) (gapSW h3 (expr_head h4 X)
    (seqA (labA (refA h)) seqEnd)))) ?_
  simp only [runAct, Frame.get, if_true, reduceCtorEq, if_false, setBool_ast]

theorem condition_complete_of {e : CExpr} {ms : List CMore} {X : Bytes}
    (h : Runs o G.expression (e.text ++ (moreText ms ++ X)) (.expr (e.ast o.ignoreComments .noOp)) (moreText ms ++ X))
    (hm : Steps o moreEx (moreText ms ++ X) ((moreAst o.ignoreComments ms).map Val.expr) X) (hf : Fails o moreEx X) :
    Runs o G.condition ((CCond.mk e ms).text ++ X) (.cond ((CCond.mk e ms).ast o.ignoreComments)) X := by
  simp only [CCond.text, List.append_assoc]
  refine actA _ (seqA (labA (refA h)) (seqA (labA ⟨[], star_of_steps _ hm hf⟩) seqEnd)) ?_
  simp only [runAct, Frame.get, if_true, reduceCtorEq, if_false, toIfaceSlice]
  rw [show ∀ (x : Expr) (l : List Expr), [Val.expr x] ++ l.map Val.expr = (x :: l).map Val.expr from fun _ _ => rfl,
      collectExprs_expr]
  simp [CCond.ast]

theorem paren_complete {g1 g2 : Gap} {c : CCond} {X : Bytes} (hok : (CExpr.paren g1 c g2).Ok)
    (h : Runs o G.condition (c.text ++ (g2.text ++ (b!")" ++ X))) (.cond (c.ast o.ignoreComments)) (g2.text ++ (b!")" ++ X))) :
    Runs o G.expression ((CExpr.paren g1 c g2).text ++ X) (.expr ((CExpr.paren g1 c g2).ast o.ignoreComments .noOp)) X := by
  simp only [CExpr.text, List.append_assoc]
  refine choiceA fun _ => choice1 (actA _ (seqA (tok_append (by decide) _ _) (gapSW hok.1 (cond_stop hok.2.1 _) (seqA (labA (refA h))
    (gapTok hok.2.2 (by decide) (by decide) seqEnd)))) ?_)
  simp only [runAct, Frame.get, if_true]
  simp [CExpr.ast]; rfl

theorem notParen_complete {g0 g1 g2 : Gap} {c : CCond} {X : Bytes} (hok : (CExpr.notParen g0 g1 c g2).Ok)
    (h : Runs o G.condition (c.text ++ (g2.text ++ (b!")" ++ X))) (.cond (c.ast o.ignoreComments)) (g2.text ++ (b!")" ++ X))) :
    Runs o G.expression ((CExpr.notParen g0 g1 c g2).text ++ X) (.expr ((CExpr.notParen g0 g1 c g2).ast o.ignoreComments .noOp)) X := by
  simp only [CExpr.text, List.append_assoc]
  obtain ⟨h0, h1, hc, h2⟩ := hok
  refine choiceA fun _ => choice2 (actF (seqF (tokF (by decide) (by simp)))) (choice1 (refA (choiceA fun _ => choice1
    (actA _ (seqA (tok_append (by decide) _ _) (gapTok h0 (by decide) (by decide) (gapSW h1 (cond_stop hc _) (seqA (labA (refA h))
    (gapSW h2 (stop_cons (by decide)) (seqA ((close_ok (by decide) (by simp)).2 ⟨rfl, rfl, rfl⟩) seqEnd)))))) ?_))))
  simp only [runAct, Frame.get, if_true]
  simp [CExpr.ast]; rfl

theorem condFollow_paren {g : Gap} (hg : g.Ok) (X : Bytes) : CondFollow (g.text ++ (b!")" ++ X)) := ⟨g, _, hg, rfl, .inr ⟨X, .inl rfl⟩⟩
theorem condFollow_brace {g : Gap} (hg : g.Ok) (X : Bytes) : CondFollow (g.text ++ (b!"{" ++ X)) := ⟨g, _, hg, rfl, .inr ⟨X, .inr rfl⟩⟩

mutual
/-- Completeness of the rule `expression`. -/
theorem expression_complete (o : Opts) : (e : CExpr) → e.Ok → (X : Bytes) → ExprFollow X →
    Runs o G.expression (e.text ++ X) (.expr (e.ast o.ignoreComments .noOp)) X
  | .paren g1 c g2, h, X, _ => paren_complete h (condition_complete o c h.2.1 _ (condFollow_paren h.2.2 X))
  | .notParen g0 g1 c g2, h, X, _ => notParen_complete h (condition_complete o c h.2.2.1 _ (condFollow_paren h.2.2.2 X))
  | .notSel _ _, h, _, hX => notSel_complete h.1 h.2 hX.rv
  | .inE _ _ _ _, h, _, hX => in_complete h.1 h.2.1 h.2.2.1 h.2.2.2 hX.rv
  | .notIn _ _ _ _ _, h, _, hX => notIn_complete h.1 h.2.1 h.2.2.1 h.2.2.2.1 h.2.2.2.2 hX.rv
  | .cmp _ _ _ _ _, h, _, hX => cmp_complete h.1 h.2.1 h.2.2.1 h.2.2.2.1 h.2.2.2.2 hX.rv
  | .re _ _ _ _ _, h, _, _ => re_complete h.1 h.2.1 h.2.2.1 h.2.2.2.1 h.2.2.2.2.1 h.2.2.2.2.2
  | .rval _, h, _, hX => rval_complete h hX
/-- Completeness of the rule `condition`. -/
theorem condition_complete (o : Opts) : (c : CCond) → c.Ok → (X : Bytes) → CondFollow X →
    Runs o G.condition (c.text ++ X) (.cond (c.ast o.ignoreComments)) X
  | .mk e ms, h, _, hX => condition_complete_of (expression_complete o e h.1 _ (more_follow h.2 hX)) (mores_complete o ms h.2 _ hX) (more_fail hX)
/-- Further operands. -/
theorem mores_complete (o : Opts) : (ms : List CMore) → moreOk ms → (X : Bytes) → CondFollow X →
    Steps o moreEx (moreText ms ++ X) ((moreAst o.ignoreComments ms).map Val.expr) X
  | [], _, _, _ => .nil _
  | .mk g1 op g2 e :: r, h, X, hX => by
    have h1 := (moreOk_append _ _).1 h
    rw [moreText_append, List.append_assoc]
    have := more_complete (o := o) h1.1 (expression_complete o e h.2.2.2.1 _ (more_follow h.2.2.2.2 hX))
    simp only [moreAst, List.map_cons]
    exact .cons this (mores_complete o r h.2.2.2.2 X hX)
end

end
end Verif
