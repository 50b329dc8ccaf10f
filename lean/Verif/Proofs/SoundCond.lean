import Verif.Proofs.Sound
/-
Soundness of the grammar, continued: conditions.
-/
namespace Verif
open Spec

section
variable {o : Opts}

theorem selLike_append {t r : Bytes} (h : SelLike t) : SelLike (t ++ r) := by
  obtain ⟨n, s, rfl, h1, h2⟩ := h
  exact ⟨n, s ++ r, by simp, h1, h2⟩

theorem array_sound' {b b' : Bytes} {v : Val} (h : Runs o G.array b v b') : ∃ as g, (CVal.arr as g).Ok ∧
    b = (CVal.arr as g).text ++ b' ∧ v = .attr ((CVal.arr as g).ast o.ignoreComments) :=
  array_sound (n := b.length) (value_sound _) (Nat.le_refl _) h

theorem plugin_sound' {b b' : Bytes} {v : Val}
    (h : Runs o G.plugin b v b') : ∃ p : CPlugin, p.Ok ∧ (gapOf b).1.Ok ∧ b = (gapOf b).1.text ++ (p.text ++ b') ∧
      (gapOf b).2 = p.text ++ b' ∧
      v = .plugin (p.ast o.ignoreComments ((gapOf b).1.block o.ignoreComments false false)) :=
  plugin_sound (n := b.length) (value_sound _) (Nat.le_refl _) h

/-- Soundness of the rule `rvalue`. -/
theorem rvalue_sound {b b' : Bytes} {v : Val} (h : Runs o G.rvalue b v b') : ∃ r : CRval, r.Ok ∧ b = r.text ++ b' ∧
    toRvalue v = some (r.ast o.ignoreComments) ∧ r.text ≠ [] := by
  obtain ⟨f, h⟩ := h
  rw [G.rvalue, run_choice] at h
  simp only [choiceR_cons_ok, choiceR_nil_ok, and_false, or_false, runs_ref, gram] at h
  rcases h with ⟨h, _⟩ | ⟨_, ⟨h, _⟩ | ⟨_, ⟨h, _⟩ | ⟨hs, ⟨h, _⟩ | ⟨_, ⟨h, _⟩ | ⟨_, ⟨f1, h⟩, _⟩⟩⟩⟩⟩
  · obtain ⟨s, s1, s2, rfl⟩ := runs_stringValue.1 h
    exact ⟨.str s, s1, s2, rfl, name_text_ne (.inr s1)⟩
  · obtain ⟨t, t1, t2, rfl⟩ := number_sound h
    refine ⟨.num t, t1, t2, rfl, ?_⟩
    obtain ⟨⟨s, d, f, rfl, _, hd, _⟩, _⟩ := t1
    simp [CRval.text, hd]
  · obtain ⟨names, n1, n2, _, rfl⟩ := runs_selector.1 h
    refine ⟨.sel names, n1, n2, rfl, ?_⟩
    obtain ⟨n1, _⟩ := n1
    cases names with
    | nil => exact absurd rfl n1
    | cons n ns => simp [CRval.text, selText]
  · obtain ⟨as, g, a1, a2, rfl⟩ := array_sound' h
    refine ⟨.arr as g, ⟨a1, fun hl => fails_selector.1 hs (a2 ▸ selLike_append hl)⟩, a2, rfl, ?_⟩
    simp [CRval.text, CVal.text]
  · obtain ⟨body, b1, b2, rfl⟩ := runs_regexp.1 h
    exact ⟨.re body, b1, by simpa [CRval.text] using b2, rfl, by simp [CRval.text]⟩
  · rw [run_pushError] at h; cases h

theorem selText_ne {names : List Bytes} (h : SelOk names) : selText names ≠ [] := by
  obtain ⟨n1, _⟩ := h
  cases names with
  | nil => exact absurd rfl n1
  | cons n ns => simp [selText]

theorem rval_text_ne {r : CRval} (h : r.Ok) : r.text ≠ [] := by
  cases r with
  | str s => exact name_text_ne (.inr h)
  | num t =>
    obtain ⟨⟨s, d, f, rfl, _, hd, _⟩, _⟩ := h
    simp [CRval.text, hd]
  | sel names => exact selText_ne h
  | arr e g => simp [CRval.text, CVal.text]
  | re b => simp [CRval.text]

theorem expr_text_ne {e : CExpr} (h : e.Ok) : e.text ≠ [] := by
  cases e with
  | paren | notParen => simp [CExpr.text]
  | notSel => simp [CExpr.text]
  | inE l g1 g2 r => have := rval_text_ne h.1; simp [CExpr.text, this]
  | notIn l g1 g2 r => have := rval_text_ne h.1; simp [CExpr.text, this]
  | cmp l g1 op g2 r => have := rval_text_ne h.1; simp [CExpr.text, this]
  | re l g1 op g2 r => have := rval_text_ne h.1; simp [CExpr.text, this]
  | rval r => exact rval_text_ne h

/-- Soundness of the rule `expression` on an input. -/
def ExprSound (o : Opts) (b : Bytes) : Prop :=
  ∀ v b', Runs o G.expression b v b' → ∃ e : CExpr, e.Ok ∧ b = e.text ++ b' ∧ v = .expr (e.ast o.ignoreComments .noOp)

/-- Soundness of the rule `condition` on an input. -/
def CondSound (o : Opts) (b : Bytes) : Prop :=
  ∀ v b', Runs o G.condition b v b' → ∃ c : CCond, c.Ok ∧ b = c.text ++ b' ∧ v = .cond (c.ast o.ignoreComments)

/-- The expression of a further operand. -/
abbrev moreEx : Ex := .action (.expression .bo .cond) (.seq [G.gapS, G.warn,
      .labeled .bo G.booleanOperator, G.gapS, G.warn, .labeled .cond (.ref .expression)])

theorem setBool_ast (ign : Bool) (e : CExpr) (op : BoolOpKind) :
    (e.ast ign .noOp).setBool ⟨op, Pos.zero⟩ = e.ast ign op := by
  cases e <;> rfl

theorem boolText_ne {op : BoolOpKind} (h : op ≠ .undefined ∧ op ≠ .noOp) : boolText op ≠ [] := by
  cases op <;> simp_all [boolText]

theorem more_sound {n : Nat} (ih : ∀ b, b.length < n → ExprSound o b) {b b' : Bytes} {v : Val} (hb : b.length < n)
    (h : Runs o moreEx b v b') : ∃ m : CMore, moreOk [m] ∧ b = moreText [m] ++ b' ∧
      [v] = (moreAst o.ignoreComments [m]).map Val.expr := by
  obtain ⟨f, h⟩ := h
  simp (discharger := decide) only [moreEx, action_ok, run_seq, seqR_cons_ok, seqR_nil_ok, labeled_ok, ref_ok, tok_ok, gapS_ok, warn_ok,
    runs_gap, runs_ref, gram] at h
  obtain ⟨v0, ⟨v1, b1, f1, ⟨rfl, rfl, rfl⟩, v2, b2, f2, ⟨rfl, rfl, rfl⟩, v3, b3, f3, ⟨h1, rfl⟩,
    v4, b4, f4, ⟨rfl, rfl, rfl⟩, v5, b5, f5, ⟨rfl, rfl, rfl⟩, v6, b6, f6, ⟨h2, rfl⟩, rfl, rfl, rfl⟩, h3⟩ := h
  obtain ⟨op, p1, p2, rfl⟩ := runs_boolOp.1 h1
  obtain ⟨e1, e2⟩ := gap_split p2 (boolText_ne p1)
  have hlen : (gapOf b3).2.length < n := by
    have l1 := gapOf_length b3
    have l2 := gapOf_length b
    have l3 := congrArg List.length p2
    rw [List.length_append] at l3; omega
  obtain ⟨e, x1, x2, rfl⟩ := ih _ hlen _ _ h2
  obtain ⟨e3, e4⟩ := gap_split x2 (expr_text_ne x1)
  refine ⟨.mk (gapOf b).1 op (gapOf b3).1 e, ⟨e1, p1, e3, x1, trivial⟩, ?_, ?_⟩
  · conv => lhs; rw [e2, e4]
    simp [moreText]
  · simp only [runAct, Frame.get, if_true, reduceCtorEq, if_false, setBool_ast] at h3
    injection h3 with h3
    rw [← h3]
    simp [moreAst]

theorem moreText_append (a : CMore) (as : List CMore) : moreText (a :: as) = moreText [a] ++ moreText as := by
  cases a; simp [moreText]
theorem moreAst_append (ign : Bool) (a : CMore) (as : List CMore) :
    moreAst ign (a :: as) = moreAst ign [a] ++ moreAst ign as := by
  cases a; simp [moreAst]
theorem moreOk_append (a : CMore) (as : List CMore) : moreOk (a :: as) ↔ moreOk [a] ∧ moreOk as := by
  cases a; simp [moreOk, and_assoc]

theorem mores_sound {n : Nat} (ih : ∀ b, b.length < n → ExprSound o b) {b b' : Bytes} {vs : List Val}
    (h : Steps o moreEx b vs b') (hb : b.length < n) : ∃ as : List CMore, moreOk as ∧
      b = moreText as ++ b' ∧ vs = (moreAst o.ignoreComments as).map Val.expr := by
  induction h with
  | nil => exact ⟨[], trivial, rfl, rfl⟩
  | cons h1 _ ih2 =>
    obtain ⟨a, a1, rfl, a3⟩ := more_sound ih hb h1
    obtain ⟨as, s1, rfl, rfl⟩ := ih2 (by simp at hb; omega)
    refine ⟨a :: as, (moreOk_append a as).2 ⟨a1, s1⟩, ?_, ?_⟩
    · rw [moreText_append a as, List.append_assoc]
    · rw [moreAst_append, List.map_append, ← a3]; rfl

theorem collectExprs_expr (l : List Expr) : collectExprs (l.map Val.expr) = some l := by
  induction l with
  | nil => rfl
  | cons a l ih => simp [collectExprs, ih]

/-- Soundness of the rule `condition`. -/
theorem condition_sound {n : Nat} (ih : ∀ b, b.length < n → ExprSound o b) {b : Bytes} (hb : b.length < n) :
    CondSound o b := by
  rintro v b' ⟨f, h⟩
  simp (discharger := decide) only [G.condition, action_ok, run_seq, seqR_cons_ok, seqR_nil_ok, labeled_ok, ref_ok, tok_ok, gapS_ok, warn_ok,
    runs_gap, runs_ref, gram] at h
  obtain ⟨v0, ⟨v1, b1, f1, ⟨h1, rfl⟩, v2, b2, f2, ⟨⟨f3, h2⟩, rfl⟩, rfl, rfl, rfl⟩, h3⟩ := h
  obtain ⟨e, x1, rfl, rfl⟩ := ih _ hb _ _ h1
  obtain ⟨rfl, vs, rfl, h4, _⟩ := star_ok.1 h2
  obtain ⟨as, s1, rfl, rfl⟩ := mores_sound ih h4 (by simp at hb; omega)
  refine ⟨.mk e as, ⟨x1, s1⟩, by simp [CCond.text], ?_⟩
  simp only [runAct, Frame.get, if_true, reduceCtorEq, if_false, toIfaceSlice] at h3
  rw [show ∀ (x : Expr) (l : List Expr), [Val.expr x] ++ l.map Val.expr = (x :: l).map Val.expr from fun _ _ => rfl,
      collectExprs_expr] at h3
  simp only at h3
  injection h3 with h3
  rw [← h3]; simp [CCond.ast]


theorem inOperator_eq : G.inOperator = G.close b!"in" (.pushError b!"expect in operator (in)") := rfl

theorem cmpText_ne {op : CmpKind} (h : op ≠ .undefined) : cmpText op ≠ [] := by
  cases op <;> simp_all [cmpText]
theorem reText_ne {op : ReKind} (h : op ≠ .undefined) : reText op ≠ [] := by
  cases op <;> simp_all [reText]

theorem in_sound {b b' : Bytes} {v : Val} (h : Runs o G.inExpression b v b') :
    ∃ e : CExpr, e.Ok ∧ b = e.text ++ b' ∧ v = .expr (e.ast o.ignoreComments .noOp) := by
  obtain ⟨f, h⟩ := h
  simp (discharger := decide) only [G.inExpression, inOperator_eq, action_ok, run_seq, seqR_cons_ok, seqR_nil_ok, labeled_ok, ref_ok, tok_ok, gapS_ok, warn_ok,
    runs_gap, runs_ref, close_ok, gram] at h
  obtain ⟨v0, ⟨v1, b1, f1, ⟨h1, rfl⟩, v2, b2, f2, ⟨rfl, rfl, rfl⟩, v3, b3, f3, ⟨rfl, rfl, rfl⟩, v4, b4, f4, ⟨h2, rfl, rfl⟩,
    v5, b5, f5, ⟨rfl, rfl, rfl⟩, v6, b6, f6, ⟨rfl, rfl, rfl⟩, v7, b7, f7, ⟨h3, rfl⟩, rfl, rfl, rfl⟩, h4⟩ := h
  obtain ⟨l, l1, rfl, l3, l4⟩ := rvalue_sound h1
  obtain ⟨r, r1, r2, r3, r4⟩ := rvalue_sound h3
  obtain ⟨e1, e2⟩ := gap_split h2 (by simp)
  obtain ⟨e3, e4⟩ := gap_split r2 r4
  refine ⟨.inE l _ _ r, ⟨l1, e1, e3, r1⟩, ?_, ?_⟩
  · conv => lhs; rw [e2, e4]
    simp [CExpr.text]
  · simp only [runAct, Frame.get, if_true, reduceCtorEq, if_false, l3, r3] at h4
    injection h4 with h4
    rw [← h4]; rfl

theorem notIn_sound {b b' : Bytes} {v : Val} (h : Runs o G.notInExpression b v b') :
    ∃ e : CExpr, e.Ok ∧ b = e.text ++ b' ∧ v = .expr (e.ast o.ignoreComments .noOp) := by
  obtain ⟨f, h⟩ := h
  simp (discharger := decide) only [G.notInExpression, G.notInOperator, action_ok, run_seq, seqR_cons_ok, seqR_nil_ok, labeled_ok, ref_ok, tok_ok, gapS_ok, warn_ok,
    run_choice, choiceR_cons_ok, choiceR_nil_ok, and_false, or_false, Runs, run_pushError, reduceCtorEq, exists_false, false_and] at h
  obtain ⟨v0, ⟨v1, b1, f1, ⟨⟨g1, h1⟩, rfl⟩, v2, b2, f2, ⟨rfl, rfl, rfl⟩, v3, b3, f3, ⟨rfl, rfl, rfl⟩, v4, b4, f4,
    ⟨⟨g2, w1, c1, g3, ⟨h2, rfl, rfl⟩, w2, c2, g4, ⟨rfl, rfl, rfl⟩, w3, c3, g5, ⟨rfl, rfl, rfl⟩, w4, c4, g6, ⟨h3, rfl, rfl⟩, rfl, rfl, rfl⟩, rfl⟩,
    v5, b5, f5, ⟨rfl, rfl, rfl⟩, v6, b6, f6, ⟨rfl, rfl, rfl⟩, v7, b7, f7, ⟨⟨g7, h4⟩, rfl⟩, rfl, rfl, rfl⟩, h5⟩ := h
  obtain ⟨l, l1, rfl, l3, l4⟩ := rvalue_sound (o := o) h1.1
  obtain ⟨r, r1, r2, r3, r4⟩ := rvalue_sound (o := o) h4.1
  obtain ⟨e1, e2⟩ := gap_split h2 (by simp)
  obtain ⟨e3, e4⟩ := gap_split h3 (by simp)
  obtain ⟨e5, e6⟩ := gap_split r2 r4
  refine ⟨.notIn l _ _ _ r, ⟨l1, e1, e3, e5, r1⟩, ?_, ?_⟩
  · conv => lhs; rw [e2, e4, e6]
    simp [CExpr.text]
  · simp only [runAct, Frame.get, if_true, reduceCtorEq, if_false, l3, r3] at h5
    injection h5 with h5
    rw [← h5]; rfl

theorem cmp_sound {b b' : Bytes} {v : Val} (h : Runs o G.compareExpression b v b') :
    ∃ e : CExpr, e.Ok ∧ b = e.text ++ b' ∧ v = .expr (e.ast o.ignoreComments .noOp) := by
  obtain ⟨f, h⟩ := h
  simp (discharger := decide) only [G.compareExpression, action_ok, run_seq, seqR_cons_ok, seqR_nil_ok, labeled_ok, ref_ok, tok_ok, gapS_ok, warn_ok,
    runs_gap, runs_ref, close_ok, gram] at h
  obtain ⟨v0, ⟨v1, b1, f1, ⟨h1, rfl⟩, v2, b2, f2, ⟨rfl, rfl, rfl⟩, v3, b3, f3, ⟨rfl, rfl, rfl⟩, v4, b4, f4, ⟨h2, rfl⟩,
    v5, b5, f5, ⟨rfl, rfl, rfl⟩, v6, b6, f6, ⟨rfl, rfl, rfl⟩, v7, b7, f7, ⟨h3, rfl⟩, rfl, rfl, rfl⟩, h4⟩ := h
  obtain ⟨l, l1, rfl, l3, l4⟩ := rvalue_sound h1
  obtain ⟨r, r1, r2, r3, r4⟩ := rvalue_sound h3
  obtain ⟨op, p1, p2, _, rfl⟩ := runs_cmpOp.1 h2
  obtain ⟨e1, e2⟩ := gap_split p2 (cmpText_ne p1)
  obtain ⟨e3, e4⟩ := gap_split r2 r4
  refine ⟨.cmp l _ op _ r, ⟨l1, e1, p1, e3, r1⟩, ?_, ?_⟩
  · conv => lhs; rw [e2, e4]
    simp [CExpr.text]
  · simp only [runAct, Frame.get, if_true, reduceCtorEq, if_false, l3, r3] at h4
    injection h4 with h4
    rw [← h4]; rfl

theorem re_sound {b b' : Bytes} {v : Val} (h : Runs o G.regexpExpression b v b') :
    ∃ e : CExpr, e.Ok ∧ b = e.text ++ b' ∧ v = .expr (e.ast o.ignoreComments .noOp) := by
  obtain ⟨f, h⟩ := h
  simp (discharger := decide) only [G.regexpExpression, action_ok, run_seq, seqR_cons_ok, seqR_nil_ok, labeled_ok, ref_ok, tok_ok, gapS_ok, warn_ok,
    runs_gap, runs_ref, close_ok, gram] at h
  obtain ⟨v0, ⟨v1, b1, f1, ⟨h1, rfl⟩, v2, b2, f2, ⟨rfl, rfl, rfl⟩, v3, b3, f3, ⟨rfl, rfl, rfl⟩, v4, b4, f4, ⟨h2, rfl⟩,
    v5, b5, f5, ⟨rfl, rfl, rfl⟩, v6, b6, f6, ⟨rfl, rfl, rfl⟩, v7, b7, f7, ⟨⟨f8, h3⟩, rfl⟩, rfl, rfl, rfl⟩, h4⟩ := h
  obtain ⟨l, l1, rfl, l3, l4⟩ := rvalue_sound h1
  obtain ⟨r, r1, r2, r3, r4⟩ : ∃ r : CRval, r.Ok ∧ (gapOf b4).2 = r.text ++ b' ∧ toStringOrRegexp v7 = some (r.ast o.ignoreComments) ∧
      r.IsPattern := by
    rw [run_choice] at h3
    simp only [choiceR_cons_ok, choiceR_nil_ok, and_false, or_false] at h3
    rcases h3 with ⟨h, _⟩ | ⟨_, h, _⟩
    · obtain ⟨s, s1, s2, rfl⟩ := runs_stringValue.1 h
      exact ⟨.str s, s1, s2, rfl, trivial⟩
    · obtain ⟨body, b1, b2, rfl⟩ := runs_regexp.1 h
      exact ⟨.re body, b1, by simpa [CRval.text] using b2, rfl, trivial⟩
  obtain ⟨op, p1, p2, rfl⟩ := runs_reOp.1 h2
  obtain ⟨e1, e2⟩ := gap_split p2 (reText_ne p1)
  obtain ⟨e3, e4⟩ := gap_split r2 (rval_text_ne r1)
  refine ⟨.re l _ op _ r, ⟨l1, e1, p1, e3, r1, r4⟩, ?_, ?_⟩
  · conv => lhs; rw [e2, e4]
    simp [CExpr.text]
  · simp only [runAct, Frame.get, if_true, reduceCtorEq, if_false, l3, r3] at h4
    injection h4 with h4
    rw [← h4]; rfl

theorem cond_text_ne {c : CCond} (h : c.Ok) : c.text ≠ [] := by
  obtain ⟨e, m⟩ := c
  have := expr_text_ne h.1
  simp [CCond.text, this]

theorem paren_sound {n : Nat} (ih : ∀ b, b.length < n → CondSound o b) {b b' : Bytes} {v : Val} (hb : b.length ≤ n)
    (h : Runs o (.action (.conditionExpression .cond) (.seq [.lit b!"(", G.gapS, G.warn,
      .labeled .cond (.ref .condition), G.gapS, G.warn, .lit b!")"])) b v b') :
    ∃ e : CExpr, e.Ok ∧ b = e.text ++ b' ∧ v = .expr (e.ast o.ignoreComments .noOp) := by
  obtain ⟨f, h⟩ := h
  simp (discharger := decide) only [action_ok, run_seq, seqR_cons_ok, seqR_nil_ok, labeled_ok, ref_ok, tok_ok, gapS_ok, warn_ok,
    runs_gap, runs_ref, close_ok, gram] at h
  obtain ⟨v0, ⟨v1, b1, f1, ⟨rfl, rfl, rfl⟩, v2, b2, f2, ⟨rfl, rfl, rfl⟩, v3, b3, f3, ⟨rfl, rfl, rfl⟩, v4, b4, f4, ⟨h2, rfl⟩,
    v5, b5, f5, ⟨rfl, rfl, rfl⟩, v6, b6, f6, ⟨rfl, rfl, rfl⟩, v7, b7, f7, ⟨h3, rfl, rfl⟩, rfl, rfl, rfl⟩, h4⟩ := h
  obtain ⟨c, c1, c2, rfl⟩ := ih _ (by have := gapOf_length b1; simp at hb; omega) _ _ h2
  obtain ⟨e1, e2⟩ := gap_split c2 (cond_text_ne c1)
  obtain ⟨e3, e4⟩ := gap_split h3 (by simp)
  refine ⟨.paren _ c _, ⟨e1, c1, e3⟩, ?_, ?_⟩
  · conv => lhs; rw [e2, e4]
    simp [CExpr.text]
  · simp only [runAct, Frame.get, if_true, reduceCtorEq, if_false] at h4
    injection h4 with h4
    rw [← h4]; simp [CExpr.ast]; rfl

theorem neg_sound {n : Nat} (ih : ∀ b, b.length < n → CondSound o b) {b b' : Bytes} {v : Val} (hb : b.length ≤ n)
    (h : Runs o G.negativeExpression b v b') :
    ∃ e : CExpr, e.Ok ∧ b = e.text ++ b' ∧ v = .expr (e.ast o.ignoreComments .noOp) := by
  obtain ⟨f, h⟩ := h
  rw [G.negativeExpression, run_choice] at h
  simp only [choiceR_cons_ok, choiceR_nil_ok, and_false, or_false] at h
  rcases h with ⟨⟨f, h⟩, _⟩ | ⟨_, ⟨f, h⟩, _⟩
  · simp (discharger := decide) only [action_ok, run_seq, seqR_cons_ok, seqR_nil_ok, labeled_ok, ref_ok, tok_ok, gapS_ok, warn_ok,
      runs_gap, runs_ref, close_ok, gram] at h
    obtain ⟨v0, ⟨v1, b1, f1, ⟨rfl, rfl, rfl⟩, v2, b2, f2, ⟨rfl, rfl, rfl⟩, v3, b3, f3, ⟨rfl, rfl, rfl⟩, v31, b31, f31, ⟨h1, rfl, rfl⟩,
      v32, b32, f32, ⟨rfl, rfl, rfl⟩, v33, b33, f33, ⟨rfl, rfl, rfl⟩, v4, b4, f4, ⟨h2, rfl⟩,
      v5, b5, f5, ⟨rfl, rfl, rfl⟩, v6, b6, f6, ⟨rfl, rfl, rfl⟩, v7, b7, f7, ⟨h3, rfl, rfl⟩, rfl, rfl, rfl⟩, h4⟩ := h
    obtain ⟨e5, e6⟩ := gap_split h1 (by simp)
    obtain ⟨c, c1, c2, rfl⟩ := ih _ (by
      have := gapOf_length b31
      have := gapOf_length b1
      have := congrArg List.length h1
      simp at hb this; omega) _ _ h2
    obtain ⟨e1, e2⟩ := gap_split c2 (cond_text_ne c1)
    obtain ⟨e3, e4⟩ := gap_split h3 (by simp)
    refine ⟨.notParen _ _ c _, ⟨e5, e1, c1, e3⟩, ?_, ?_⟩
    · conv => lhs; rw [e6, e2, e4]
      simp [CExpr.text]
    · simp only [runAct, Frame.get, if_true, reduceCtorEq, if_false] at h4
      injection h4 with h4
      rw [← h4]; simp [CExpr.ast]; rfl
  · simp (discharger := decide) only [action_ok, run_seq, seqR_cons_ok, seqR_nil_ok, labeled_ok, ref_ok, tok_ok, gapS_ok, warn_ok,
      runs_gap, runs_ref, close_ok, gram] at h
    obtain ⟨v0, ⟨v1, b1, f1, ⟨rfl, rfl, rfl⟩, v2, b2, f2, ⟨rfl, rfl, rfl⟩, v3, b3, f3, ⟨rfl, rfl, rfl⟩, v4, b4, f4, ⟨h2, rfl⟩,
      rfl, rfl, rfl⟩, h4⟩ := h
    obtain ⟨names, n1, n2, _, rfl⟩ := runs_selector.1 h2
    obtain ⟨e1, e2⟩ := gap_split n2 (selText_ne n1)
    refine ⟨.notSel _ names, ⟨e1, n1⟩, ?_, ?_⟩
    · conv => lhs; rw [e2]
      simp [CExpr.text]
    · simp only [runAct, Frame.get, if_true, reduceCtorEq, if_false] at h4
      injection h4 with h4
      rw [← h4]; rfl

/-- Soundness of the rule `expression`. -/
theorem expression_sound (n : Nat) : ∀ b, b.length < n → ExprSound o b := by
  induction n with
  | zero => intro b hb; omega
  | succ n ih =>
    intro b hb v b' h
    have ihc : ∀ b, b.length < n → CondSound o b := fun b hb => condition_sound ih hb
    have hb : b.length ≤ n := by omega
    obtain ⟨f, h⟩ := h
    rw [G.expression, run_choice] at h
    simp only [choiceR_cons_ok, choiceR_nil_ok, and_false, or_false, runs_ref, gram] at h
    rcases h with ⟨h, _⟩ | ⟨_, ⟨h, _⟩ | ⟨_, ⟨h, _⟩ | ⟨_, ⟨h, _⟩ | ⟨_, ⟨h, _⟩ | ⟨_, ⟨h, _⟩ | ⟨_, ⟨f1, h⟩, _⟩⟩⟩⟩⟩⟩
    · exact paren_sound ihc hb h
    · exact neg_sound ihc hb h
    · exact in_sound h
    · exact notIn_sound h
    · exact cmp_sound h
    · exact re_sound h
    · simp only [action_ok, labeled_ok, runs_ref, gram] at h
      obtain ⟨_, ⟨h1, rfl⟩, h2⟩ := h
      obtain ⟨r, r1, r2, r3, r4⟩ := rvalue_sound h1
      refine ⟨.rval r, r1, r2, ?_⟩
      simp only [runAct, Frame.get, if_true, reduceCtorEq, if_false, r3] at h2
      injection h2 with h2
      rw [← h2]; rfl

theorem condition_sound' {b b' : Bytes} {v : Val} (h : Runs o G.condition b v b') :
    ∃ c : CCond, c.Ok ∧ b = c.text ++ b' ∧ v = .cond (c.ast o.ignoreComments) :=
  condition_sound (n := b.length + 1) (expression_sound _) (Nat.lt_succ_self _) _ _ h

end
end Verif
