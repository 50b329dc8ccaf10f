import Verif.Proofs.SoundPos
/-
Soundness of the grammar with positions and warnings: conditions.
-/
namespace Verif
open Spec

section
variable {o : Opts} {pf : Bytes → Pos} {pos : Nat → Pos} {D : Nat}

theorem rvalue_p (hp : PosFn pf pos D) {k b ws v b' ws'} (hk : k + b.length = D) (h : RunsP o pf G.rvalue b ws v b' ws') :
    ∃ r : CRval, r.Ok ∧ b = r.text ++ b' ∧ toRvalue v = some (r.astAt o.ignoreComments pos k) ∧ r.text ≠ [] ∧
      ws' = ws ++ wl o pos (r.exc k) := by
  rw [G.rvalue] at h
  simp only [runsP_choice, runsP_choice_nil, runsP_ref, gram, and_false, or_false] at h
  rcases h with h | ⟨_, h | ⟨_, h | ⟨hs, h | ⟨_, h | ⟨_, h⟩⟩⟩⟩⟩
  · obtain ⟨s, s1, s2, rfl, rfl⟩ := stringValue_p hp hk h
    exact ⟨.str s, s1, s2, rfl, name_text_ne (.inr s1), by simp [CRval.exc, wl_nil]⟩
  · obtain ⟨t, t1, t2, rfl, rfl⟩ := number_p h
    refine ⟨.num t, t1, t2, rfl, ?_, by simp [CRval.exc, wl_nil]⟩
    obtain ⟨⟨s, d, f, rfl, _, hd, _⟩, _⟩ := t1
    simp [CRval.text, hd]
  · obtain ⟨names, n1, n2, rfl, rfl⟩ := selector_p hp hk h
    exact ⟨.sel names, n1, n2, rfl, selText_ne n1, by simp [CRval.exc, wl_nil]⟩
  · obtain ⟨as, g, a1, a2, rfl, rfl⟩ := array_p hp (n := b.length) (value_p hp _) (Nat.le_refl _) hk h
    refine ⟨.arr as g, ⟨a1, fun hl => fails_selector.1 hs (a2 ▸ selLike_append hl)⟩, a2, rfl, ?_, rfl⟩
    simp [CRval.text, CVal.text]
  · obtain ⟨body, b1, b2, rfl, rfl⟩ := regexp_p hp hk h
    exact ⟨.re body, b1, by simpa [CRval.text] using b2, rfl, by simp [CRval.text], by simp [CRval.exc, wl_nil]⟩
  · exact absurd (runsP_pushError.1 h) id

/-- Soundness of an expression on an input. -/
def ExprPAt (o : Opts) (pf : Bytes → Pos) (pos : Nat → Pos) (D : Nat) (e : Ex) (b : Bytes) : Prop :=
  ∀ k ws v b' ws', k + b.length = D → RunsP o pf e b ws v b' ws' →
    ∃ e : CExpr, e.Ok ∧ b = e.text ++ b' ∧ v = .expr (e.astAt o.ignoreComments pos k unjoined) ∧
      ws' = ws ++ wl o pos (e.exc k)

/-- Soundness of the rule `condition` on an input. -/
def CondPAt (o : Opts) (pf : Bytes → Pos) (pos : Nat → Pos) (D : Nat) (b : Bytes) : Prop :=
  ∀ k ws v b' ws', k + b.length = D → RunsP o pf G.condition b ws v b' ws' →
    ∃ c : CCond, c.Ok ∧ b = c.text ++ b' ∧ v = .cond (c.astAt o.ignoreComments pos k) ∧
      ws' = ws ++ wl o pos (c.exc k)

theorem setBool_astAt (ign : Bool) (e : CExpr) (op : BoolOpKind) (p : Pos) (k : Nat) :
    (e.astAt ign pos k unjoined).setBool ⟨op, p⟩ = e.astAt ign pos k (joinedAt p op) := by
  cases e <;> rfl

theorem more_p (hp : PosFn pf pos D) {n : Nat} (ih : ∀ b, b.length < n → ExprPAt o pf pos D G.expression b)
    {k b ws v b' ws'} (hb : b.length < n) (hk : k + b.length = D)
    (h : RunsP o pf moreEx b ws v b' ws') : ∃ m : CMore, moreOk [m] ∧ b = moreText [m] ++ b' ∧
      [v] = (moreAt o.ignoreComments pos k [m]).map Val.expr ∧ ws' = ws ++ wl o pos (moreExc k [m]) := by
  obtain ⟨f, h⟩ := h
  simp (discharger := decide) only [moreEx, action_rp, seq_rp, rseq_cons, rseq_gw, rseq_nil, labeled_rp, ref_rp, tok_rp,
    runsP_ref, gram] at h
  obtain ⟨v0, ⟨vs, ⟨v1, vs1, -, ⟨v2, b2, f2, w2, vs2, ⟨h1, rfl⟩, ⟨v3, vs3, -, ⟨v4, b4, f4, w4, vs4, ⟨h2, rfl⟩,
    ⟨rfl, rfl, rfl, rfl⟩, rfl⟩, rfl⟩, rfl⟩, rfl⟩, rfl⟩, h3⟩ := h
  have hk1 := gap_k hk
  rw [warnOf_wl hp hk] at h1
  obtain ⟨op, p1, p2, rfl, rfl⟩ := boolOp_p hp hk1 h1
  have hk2 := tok_k hk1 p2
  have hk3 := gap_k hk2
  rw [warnOf_wl hp hk2] at h2
  obtain ⟨e1, e2⟩ := gap_split p2 (boolText_ne p1)
  obtain ⟨e, x1, x2, rfl, rfl⟩ := ih _ (by omega) _ _ _ _ _ hk3 h2
  obtain ⟨e3, e4⟩ := gap_split x2 (expr_text_ne x1)
  refine ⟨.mk (gapOf b).1 op (gapOf b2).1 e, ⟨e1, p1, e3, x1, trivial⟩, ?_, ?_, ?_⟩
  · conv => lhs; rw [e2, e4]
    simp [moreText]
  · simp only [runAct, Frame.get, if_true, reduceCtorEq, if_false, setBool_astAt] at h3
    injection h3 with h3
    rw [← h3]
    simp [moreAt]
  · simp only [moreExc, wl_append, wl_cons2, List.append_assoc, List.append_nil]

theorem more_len (g1 g2 : Gap) (op : BoolOpKind) (e : CExpr) (k : Nat) :
    k + (moreText [.mk g1 op g2 e]).length = k + g1.text.length + (boolText op).length + g2.text.length + e.text.length := by
  simp [moreText]; omega

theorem moreAt_append (ign : Bool) (k : Nat) (a : CMore) (as : List CMore) :
    moreAt ign pos k (a :: as) = moreAt ign pos k [a] ++ moreAt ign pos (k + (moreText [a]).length) as := by
  obtain ⟨g1, op, g2, e⟩ := a
  rw [more_len]; simp [moreAt]
theorem moreExc_append (k : Nat) (a : CMore) (as : List CMore) :
    moreExc k (a :: as) = moreExc k [a] ++ moreExc (k + (moreText [a]).length) as := by
  obtain ⟨g1, op, g2, e⟩ := a
  rw [more_len]; simp [moreExc]

theorem mores_p (hp : PosFn pf pos D) {n : Nat} (ih : ∀ b, b.length < n → ExprPAt o pf pos D G.expression b)
    {b ws vs b' ws'} (h : StepsP o pf moreEx b ws vs b' ws') : ∀ k, b.length < n → k + b.length = D →
    ∃ as : List CMore, moreOk as ∧ b = moreText as ++ b' ∧ vs = (moreAt o.ignoreComments pos k as).map Val.expr ∧
      ws' = ws ++ wl o pos (moreExc k as) := by
  induction h with
  | nil => intro k _ _; exact ⟨[], trivial, rfl, rfl, by simp [moreExc, wl_nil]⟩
  | cons h1 _ ih2 =>
    intro k hb hk
    obtain ⟨a, a1, rfl, a3, rfl⟩ := more_p hp ih hb hk h1
    obtain ⟨as, s1, rfl, rfl, rfl⟩ := ih2 _ (by simp at hb; omega) (tok_k hk rfl)
    refine ⟨a :: as, (moreOk_append a as).2 ⟨a1, s1⟩, ?_, ?_, ?_⟩
    · rw [moreText_append a as, List.append_assoc]
    · rw [moreAt_append, List.map_append, ← a3]; rfl
    · simp only [moreExc_append k a as, wl_append, List.append_assoc]

/-- Soundness of the rule `condition`. -/
theorem condition_p (hp : PosFn pf pos D) {n : Nat} (ih : ∀ b, b.length < n → ExprPAt o pf pos D G.expression b)
    {b : Bytes} (hb : b.length < n) : CondPAt o pf pos D b := by
  rintro k ws v b' ws' hk ⟨f, h⟩
  simp (discharger := decide) only [G.condition, action_rp, seq_rp, rseq_cons, rseq_gw, rseq_nil, labeled_rp, ref_rp, tok_rp,
    runsP_ref, gram] at h
  obtain ⟨v0, ⟨vs, ⟨v2, b2, f2, w2, vs2, ⟨h1, rfl⟩, ⟨v4, b4, f4, w4, vs4, ⟨h2, rfl⟩,
    ⟨rfl, rfl, rfl, rfl⟩, rfl⟩, rfl⟩, rfl⟩, h3⟩ := h
  obtain ⟨e, x1, rfl, rfl, rfl⟩ := ih _ hb _ _ _ _ _ hk h1
  obtain ⟨vs, rfl, h4⟩ := star_steps h2
  obtain ⟨as, s1, rfl, rfl, rfl⟩ := mores_p hp ih h4 _ (by simp at hb; omega) (tok_k hk rfl)
  refine ⟨.mk e as, ⟨x1, s1⟩, by simp [CCond.text], ?_, ?_⟩
  · simp only [runAct, Frame.get, if_true, reduceCtorEq, if_false, toIfaceSlice] at h3
    rw [show ∀ (x : Expr) (l : List Expr), [Val.expr x] ++ l.map Val.expr = (x :: l).map Val.expr from fun _ _ => rfl,
        collectExprs_expr] at h3
    simp only at h3
    injection h3 with h3
    rw [← h3]; simp [CCond.astAt]
  · simp only [CCond.exc, wl_append, List.append_assoc]

theorem in_p (hp : PosFn pf pos D) (b : Bytes) : ExprPAt o pf pos D G.inExpression b := by
  rintro k ws v b' ws' hk ⟨f, h⟩
  simp (discharger := decide) only [G.inExpression, inOperator_eq, action_rp, seq_rp, rseq_cons, rseq_gw, rseq_nil, labeled_rp,
    ref_rp, tok_rp, close_rp, runsP_ref, gram] at h
  obtain ⟨v0, ⟨vs, ⟨v1, b1, f1, w1, vs1, ⟨h1, rfl⟩, ⟨v2, vs2, -, ⟨v3, b3, f3, w3, vs3, ⟨h2, rfl, rfl, rfl⟩,
    ⟨v4, vs4, -, ⟨v5, b5, f5, w5, vs5, ⟨h3, rfl⟩, ⟨rfl, rfl, rfl, rfl⟩, rfl⟩, rfl⟩, rfl⟩, rfl⟩, rfl⟩, rfl⟩, h4⟩ := h
  obtain ⟨l, l1, rfl, l3, l4, rfl⟩ := rvalue_p hp hk h1
  have hk1 := tok_k hk rfl
  have hk2 := gap_k hk1
  have hk3 := tok_k hk2 h2
  have hk4 := gap_k hk3
  rw [warnOf_wl hp hk1, warnOf_wl hp hk3] at h3
  obtain ⟨r, r1, r2, r3, r4, rfl⟩ := rvalue_p hp hk4 h3
  obtain ⟨e1, e2⟩ := gap_split h2 (by simp)
  obtain ⟨e3, e4⟩ := gap_split r2 r4
  refine ⟨.inE l _ _ r, ⟨l1, e1, e3, r1⟩, ?_, ?_, ?_⟩
  · conv => lhs; rw [e2, e4]
    simp [CExpr.text]
  · simp only [runAct, Frame.get, if_true, reduceCtorEq, if_false, l3, r3] at h4
    injection h4 with h4
    rw [← h4, hp _ _ hk]; rfl
  · simp only [CExpr.exc, wl_append, wl_cons2, List.append_assoc]; rfl

theorem notInOp_rp {b fr ws v b' fr' ws'} : RP o pf G.notInOperator b fr ws v b' fr' ws' ↔
    fr' = fr ∧ ∃ u, RunsP o pf (.seq [.lit b!"not ", G.gapS, G.warn, .lit b!"in"]) b ws u b' ws' ∧ v = u := by
  rw [G.notInOperator, choice_rp, choice_rp, choice_nil_rp, runsP_pushError]
  constructor
  · rintro (⟨h, rfl⟩ | ⟨_, ⟨h, _⟩ | ⟨_, h⟩⟩)
    · exact ⟨rfl, _, h, rfl⟩
    · exact h.elim
    · exact h.elim
  · rintro ⟨rfl, u, h, rfl⟩
    exact .inl ⟨h, rfl⟩

theorem notIn_p (hp : PosFn pf pos D) (b : Bytes) : ExprPAt o pf pos D G.notInExpression b := by
  rintro k ws v b' ws' hk ⟨f, h⟩
  simp (discharger := decide) only [G.notInExpression, notInOp_rp, action_rp, seq_rp, rseq_cons, rseq_gw, rseq_nil, labeled_rp,
    ref_rp, tok_rp, runsP_ref, gram] at h
  obtain ⟨v0, ⟨vs, ⟨v1, b1, f1, w1, vs1, ⟨h1, rfl⟩, ⟨v2, vs2, -, ⟨v3, b3, f3, w3, vs3,
    ⟨rfl, u, ⟨g2, h2⟩, rfl⟩,
    ⟨v4, vs4, -, ⟨v5, b5, f5, w5, vs5, ⟨h4, rfl⟩, ⟨rfl, rfl, rfl, rfl⟩, rfl⟩, rfl⟩, rfl⟩, rfl⟩, rfl⟩, rfl⟩, h5⟩ := h
  simp (discharger := decide) only [seq_rp, rseq_cons, rseq_gw, rseq_nil, tok_rp] at h2
  obtain ⟨us, ⟨u1, c1, q1, x1, us1, ⟨h2, rfl, rfl, rfl⟩, ⟨u2, us2, -, ⟨u3, c3, q3, x3, us3, ⟨h3, rfl, rfl, rfl⟩, ⟨rfl, rfl, rfl, rfl⟩, rfl⟩, rfl⟩, rfl⟩, rfl⟩ := h2
  obtain ⟨l, l1, rfl, l3, l4, rfl⟩ := rvalue_p (o := o) hp hk h1
  have hk1 := tok_k hk rfl
  have hk2 := gap_k hk1
  have hk3 := tok_k hk2 h2
  have hk4 := gap_k hk3
  have hk5 := tok_k hk4 h3
  have hk6 := gap_k hk5
  rw [warnOf_wl hp hk1, warnOf_wl hp hk3, warnOf_wl hp hk5] at h4
  obtain ⟨r, r1, r2, r3, r4, rfl⟩ := rvalue_p (o := o) hp hk6 h4
  obtain ⟨e1, e2⟩ := gap_split h2 (by simp)
  obtain ⟨e3, e4⟩ := gap_split h3 (by simp)
  obtain ⟨e5, e6⟩ := gap_split r2 r4
  refine ⟨.notIn l _ _ _ r, ⟨l1, e1, e3, e5, r1⟩, ?_, ?_, ?_⟩
  · conv => lhs; rw [e2, e4, e6]
    simp [CExpr.text]
  · simp only [runAct, Frame.get, if_true, reduceCtorEq, if_false, l3, r3] at h5
    injection h5 with h5
    rw [← h5, hp _ _ hk]; rfl
  · rw [CExpr.exc, wl_append, wl_append, wl_cons2, wl_cons2]; simp only [List.append_assoc]; rfl

theorem cmp_p (hp : PosFn pf pos D) (b : Bytes) : ExprPAt o pf pos D G.compareExpression b := by
  rintro k ws v b' ws' hk ⟨f, h⟩
  simp (discharger := decide) only [G.compareExpression, action_rp, seq_rp, rseq_cons, rseq_gw, rseq_nil, labeled_rp,
    ref_rp, tok_rp, close_rp, runsP_ref, gram] at h
  obtain ⟨v0, ⟨vs, ⟨v1, b1, f1, w1, vs1, ⟨h1, rfl⟩, ⟨v2, vs2, -, ⟨v3, b3, f3, w3, vs3, ⟨h2, rfl⟩,
    ⟨v4, vs4, -, ⟨v5, b5, f5, w5, vs5, ⟨h3, rfl⟩, ⟨rfl, rfl, rfl, rfl⟩, rfl⟩, rfl⟩, rfl⟩, rfl⟩, rfl⟩, rfl⟩, h4⟩ := h
  obtain ⟨l, l1, rfl, l3, l4, rfl⟩ := rvalue_p hp hk h1
  have hk1 := tok_k hk rfl
  have hk2 := gap_k hk1
  rw [warnOf_wl hp hk1] at h2
  obtain ⟨op, p1, p2, rfl, rfl⟩ := cmpOp_p hp hk2 h2
  have hk3 := tok_k hk2 p2
  have hk4 := gap_k hk3
  rw [warnOf_wl hp hk3] at h3
  obtain ⟨r, r1, r2, r3, r4, rfl⟩ := rvalue_p hp hk4 h3
  obtain ⟨e1, e2⟩ := gap_split p2 (cmpText_ne p1)
  obtain ⟨e3, e4⟩ := gap_split r2 r4
  refine ⟨.cmp l _ op _ r, ⟨l1, e1, p1, e3, r1⟩, ?_, ?_, ?_⟩
  · conv => lhs; rw [e2, e4]
    simp [CExpr.text]
  · simp only [runAct, Frame.get, if_true, reduceCtorEq, if_false, l3, r3] at h4
    injection h4 with h4
    rw [← h4, hp _ _ hk]; rfl
  · simp only [CExpr.exc, wl_append, wl_cons2, List.append_assoc]

theorem re_p (hp : PosFn pf pos D) (b : Bytes) : ExprPAt o pf pos D G.regexpExpression b := by
  rintro k ws v b' ws' hk ⟨f, h⟩
  simp (discharger := decide) only [G.regexpExpression, action_rp, seq_rp, rseq_cons, rseq_gw, rseq_nil, labeled_rp,
    ref_rp, tok_rp, close_rp, runsP_ref, gram] at h
  obtain ⟨v0, ⟨vs, ⟨v1, b1, f1, w1, vs1, ⟨h1, rfl⟩, ⟨v2, vs2, -, ⟨v3, b3, f3, w3, vs3, ⟨h2, rfl⟩,
    ⟨v4, vs4, -, ⟨v5, b5, f5, w5, vs5, ⟨h3, rfl⟩, ⟨rfl, rfl, rfl, rfl⟩, rfl⟩, rfl⟩, rfl⟩, rfl⟩, rfl⟩, rfl⟩, h4⟩ := h
  obtain ⟨l, l1, rfl, l3, l4, rfl⟩ := rvalue_p hp hk h1
  have hk1 := tok_k hk rfl
  have hk2 := gap_k hk1
  rw [warnOf_wl hp hk1] at h2
  obtain ⟨op, p1, p2, rfl, rfl⟩ := reOp_p hp hk2 h2
  have hk3 := tok_k hk2 p2
  have hk4 := gap_k hk3
  rw [warnOf_wl hp hk3] at h3
  obtain ⟨r, r1, r2, r3, r4, r5⟩ : ∃ r : CRval, r.Ok ∧ (gapOf b3).2 = r.text ++ b' ∧
      (∃ k', k' + (gapOf b3).2.length = D ∧ toStringOrRegexp v5 = some (r.astAt o.ignoreComments pos k')) ∧
      r.IsPattern ∧ ws' = ws ++ wl o pos (l.exc k) ++ wl o pos [(k + l.text.length, (gapOf b1).1)] ++
        wl o pos [(k + l.text.length + (gapOf b1).1.text.length + (reText op).length, (gapOf b3).1)] ∧
        ∀ k, r.exc k = [] := by
    rw [runsP_choice, runsP_choice, runsP_choice_nil] at h3
    rcases h3 with h | ⟨_, h | ⟨_, h⟩⟩
    · obtain ⟨s, s1, s2, rfl, rfl⟩ := stringValue_p hp hk4 h
      exact ⟨.str s, s1, s2, ⟨_, hk4, rfl⟩, trivial, rfl, fun _ => rfl⟩
    · obtain ⟨body, b1, b2, rfl, rfl⟩ := regexp_p hp hk4 h
      exact ⟨.re body, b1, by simpa [CRval.text] using b2, ⟨_, hk4, rfl⟩, trivial, rfl, fun _ => rfl⟩
    · cases h
  obtain ⟨k', hk', r3⟩ := r3
  obtain rfl := Nat.add_right_cancel (hk'.trans hk4.symm)
  obtain ⟨e1, e2⟩ := gap_split p2 (reText_ne p1)
  obtain ⟨e3, e4⟩ := gap_split r2 (rval_text_ne r1)
  refine ⟨.re l _ op _ r, ⟨l1, e1, p1, e3, r1, r4⟩, ?_, ?_, ?_⟩
  · conv => lhs; rw [e2, e4]
    simp [CExpr.text]
  · simp only [runAct, Frame.get, if_true, reduceCtorEq, if_false, l3, r3] at h4
    injection h4 with h4
    rw [← h4, hp _ _ hk]; rfl
  · simp only [CExpr.exc, wl_append, wl_cons2, List.append_assoc, r5.2, wl_nil, List.append_nil]
    rw [r5.1]; simp only [List.append_assoc]

theorem paren_p (hp : PosFn pf pos D) {n : Nat} (ih : ∀ b, b.length < n → CondPAt o pf pos D b) {b : Bytes} (hb : b.length ≤ n) :
    ExprPAt o pf pos D (.action (.conditionExpression .cond) (.seq [.lit b!"(", G.gapS, G.warn,
      .labeled .cond (.ref .condition), G.gapS, G.warn, .lit b!")"])) b := by
  rintro k ws v b' ws' hk ⟨f, h⟩
  simp (discharger := decide) only [action_rp, seq_rp, rseq_cons, rseq_gw, rseq_nil, labeled_rp,
    ref_rp, tok_rp, close_rp, runsP_ref, gram] at h
  obtain ⟨v0, ⟨vs, ⟨v1, b1, f1, w1, vs1, ⟨rfl, rfl, rfl, rfl⟩, ⟨v2, vs2, -, ⟨v3, b3, f3, w3, vs3, ⟨h2, rfl⟩,
    ⟨v4, vs4, -, ⟨v5, b5, f5, w5, vs5, ⟨h3, rfl, rfl, rfl⟩, ⟨rfl, rfl, rfl, rfl⟩, rfl⟩, rfl⟩, rfl⟩, rfl⟩, rfl⟩, rfl⟩, h4⟩ := h
  have hk1 := tok_k hk rfl
  have hk2 := gap_k hk1
  rw [warnOf_wl hp hk1] at h2
  obtain ⟨c, c1, c2, rfl, rfl⟩ := ih _ (by simp at hb hk2 hk; omega) _ _ _ _ _ hk2 h2
  have hk3 := tok_k hk2 c2
  have e5 := warnOf_wl (o := o) hp hk3
  obtain ⟨e1, e2⟩ := gap_split c2 (cond_text_ne c1)
  obtain ⟨e3, e4⟩ := gap_split h3 (by simp)
  refine ⟨.paren _ c _, ⟨e1, c1, e3⟩, ?_, ?_, ?_⟩
  · conv => lhs; rw [e2, e4]
    simp [CExpr.text]
  · simp only [runAct, Frame.get, if_true, reduceCtorEq, if_false] at h4
    injection h4 with h4
    rw [← h4, hp _ _ hk]; simp [CExpr.astAt]; rfl
  · rw [e5]; simp only [CExpr.exc, wl_append, wl_cons2, List.append_assoc]; rfl

theorem neg_p (hp : PosFn pf pos D) {n : Nat} (ih : ∀ b, b.length < n → CondPAt o pf pos D b) {b : Bytes} (hb : b.length ≤ n) :
    ExprPAt o pf pos D G.negativeExpression b := by
  intro k ws v b' ws' hk h
  rw [G.negativeExpression, runsP_choice, runsP_choice, runsP_choice_nil] at h
  rcases h with ⟨f, h⟩ | ⟨_, ⟨f, h⟩ | ⟨_, h⟩⟩
  · simp (discharger := decide) only [action_rp, seq_rp, rseq_cons, rseq_gw, rseq_nil, labeled_rp,
      ref_rp, tok_rp, close_rp, runsP_ref, gram] at h
    obtain ⟨v0, ⟨vs, ⟨v1, b1, f1, w1, vs1, ⟨rfl, rfl, rfl, rfl⟩, ⟨v2, vs2, -, ⟨vx, bx, fx, wx, vsx, ⟨h1, rfl, rfl, rfl⟩, ⟨vy, vsy, -,
      ⟨v3, b3, f3, w3, vs3, ⟨h2, rfl⟩,
      ⟨v4, vs4, -, ⟨v5, b5, f5, w5, vs5, ⟨h3, rfl, rfl, rfl⟩, ⟨rfl, rfl, rfl, rfl⟩, rfl⟩, rfl⟩, rfl⟩, rfl⟩, rfl⟩, rfl⟩, rfl⟩, rfl⟩, h4⟩ := h
    have hk1 := tok_k hk rfl
    have hk2 := gap_k hk1
    have hk3 := tok_k hk2 h1
    have hk4 := gap_k hk3
    rw [warnOf_wl hp hk1, warnOf_wl hp hk3] at h2
    obtain ⟨e5, e6⟩ := gap_split h1 (by simp)
    obtain ⟨c, c1, c2, rfl, rfl⟩ := ih _ (by simp at hb hk4 hk; omega) _ _ _ _ _ hk4 h2
    have hk5 := tok_k hk4 c2
    have e7 := warnOf_wl (o := o) hp hk5
    obtain ⟨e1, e2⟩ := gap_split c2 (cond_text_ne c1)
    obtain ⟨e3, e4⟩ := gap_split h3 (by simp)
    refine ⟨.notParen _ _ c _, ⟨e5, e1, c1, e3⟩, ?_, ?_, ?_⟩
    · conv => lhs; rw [e6, e2, e4]
      simp [CExpr.text]
    · simp only [runAct, Frame.get, if_true, reduceCtorEq, if_false] at h4
      injection h4 with h4
      rw [← h4, hp _ _ hk]; simp [CExpr.astAt]; rfl
    · rw [e7]; simp only [CExpr.exc, wl_append, wl_cons2, List.append_assoc]; rfl
  · simp (discharger := decide) only [action_rp, seq_rp, rseq_cons, rseq_gw, rseq_nil, labeled_rp,
      ref_rp, tok_rp, close_rp, runsP_ref, gram] at h
    obtain ⟨v0, ⟨vs, ⟨v1, b1, f1, w1, vs1, ⟨rfl, rfl, rfl, rfl⟩, ⟨v2, vs2, -,
      ⟨v3, b3, f3, w3, vs3, ⟨h2, rfl⟩, ⟨rfl, rfl, rfl, rfl⟩, rfl⟩, rfl⟩, rfl⟩, rfl⟩, h4⟩ := h
    have hk1 := tok_k hk rfl
    have hk2 := gap_k hk1
    rw [warnOf_wl hp hk1] at h2
    obtain ⟨names, n1, n2, rfl, rfl⟩ := selector_p hp hk2 h2
    obtain ⟨e1, e2⟩ := gap_split n2 (selText_ne n1)
    refine ⟨.notSel _ names, ⟨e1, n1⟩, ?_, ?_, ?_⟩
    · conv => lhs; rw [e2]
      simp [CExpr.text]
    · simp only [runAct, Frame.get, if_true, reduceCtorEq, if_false] at h4
      injection h4 with h4
      rw [← h4, hp _ _ hk]; rfl
    · rfl
  · cases h

/-- Soundness of the rule `expression`. -/
theorem expression_p (hp : PosFn pf pos D) (n : Nat) : ∀ b, b.length < n → ExprPAt o pf pos D G.expression b := by
  induction n with
  | zero => intro b hb; omega
  | succ n ih =>
    intro b hb k ws v b' ws' hk h
    have ihc : ∀ b, b.length < n → CondPAt o pf pos D b := fun b hb => condition_p hp ih hb
    have hb : b.length ≤ n := by omega
    rw [G.expression] at h
    simp only [runsP_choice, runsP_choice_nil, runsP_ref, gram, and_false, or_false] at h
    rcases h with h | ⟨_, h | ⟨_, h | ⟨_, h | ⟨_, h | ⟨_, h | ⟨_, h⟩⟩⟩⟩⟩⟩
    · exact paren_p hp ihc hb _ _ _ _ _ hk h
    · exact neg_p hp ihc hb _ _ _ _ _ hk h
    · exact in_p hp _ _ _ _ _ _ hk h
    · exact notIn_p hp _ _ _ _ _ _ hk h
    · exact cmp_p hp _ _ _ _ _ _ hk h
    · exact re_p hp _ _ _ _ _ _ hk h
    · obtain ⟨f, h⟩ := h
      simp only [action_rp, labeled_rp, runsP_ref, gram] at h
      obtain ⟨_, ⟨h1, rfl⟩, h2⟩ := h
      obtain ⟨r, r1, r2, r3, r4, rfl⟩ := rvalue_p hp hk h1
      refine ⟨.rval r, r1, r2, ?_, ?_⟩
      · simp only [runAct, Frame.get, if_true, reduceCtorEq, if_false, r3] at h2
        injection h2 with h2
        rw [← h2, hp _ _ hk]; rfl
      · simp only [CExpr.exc]

theorem condition_p' (hp : PosFn pf pos D) (b : Bytes) : CondPAt o pf pos D b :=
  condition_p hp (n := b.length + 1) (expression_p hp _) (Nat.lt_succ_self _)

end
end Verif
