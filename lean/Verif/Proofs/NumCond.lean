import Verif.Proofs.CompleteCond
import Verif.Spec.Clear
/-
What the rule `condition` does with the rest of a plugin name: names like `if5` or `if1in2and3`.
-/
namespace Verif
open Spec

section
variable {o : Opts}

/-- An error is recorded. -/
def Aborts (o : Opts) (e : Ex) (b : Bytes) : Prop := run o e b [] = .abort
/-- An error. -/
def IsAbort (r : Res) : Prop := r = .abort

theorem seqAb {e : Ex} {es : List Ex} {b : Bytes} {fr : Frame} (h : run o e b fr = .abort) : SeqP o IsAbort (e :: es) b fr := by
  intro acc; rw [seqR, h]; rfl
theorem actAb {a : Act} {es : List Ex} {b : Bytes} (h : SeqP o IsAbort es b []) : Aborts o (.action a (.seq es)) b := by
  unfold Aborts; rw [run_action, run_seq, h []]
theorem labAb {l : Lbl} {e : Ex} {b : Bytes} {fr : Frame} (h : Aborts o e b) : run o (.labeled l e) b fr = .abort := by
  rw [run_labeled, h]
theorem refAb {r : Rule} {b : Bytes} (h : Aborts o (gram r) b) : Aborts o (.ref r) b := by
  unfold Aborts; rw [run_ref, h]
theorem choiceAb {e : Ex} {es : List Ex} {b : Bytes} {fr : Frame} (h : Aborts o e b) : choiceR (run o) (e :: es) b fr = .abort := by
  rw [choiceR, h]
theorem starAb {e : Ex} {b : Bytes} {fr : Frame} (h : Aborts o e b) : run o (.star e) b fr = .abort := by
  rw [run_star, h]
theorem starAb_cons {e : Ex} {b b1 : Bytes} {v : Val} (h : Runs o e b v b1) (h2 : Aborts o (.star e) b1) : Aborts o (.star e) b := by
  obtain ⟨f, h⟩ := h
  unfold Aborts at *
  rw [run_star, h]
  show (run o (.star e) b1 []).consV v = .abort
  rw [h2]; rfl

/-! ### Numbers -/

theorem number_abort {t b : Bytes} (h : NumTok t) (hp : parseFloat t = none) (hb : b.takeWhile isNumChar = []) :
    Aborts o G.number (t ++ b) := by
  obtain ⟨h1, h2⟩ := num_parts h hb
  obtain ⟨w, hw⟩ := number_seq (o := o) (t ++ b)
  unfold Aborts
  rw [G.number, run_action, hw, h1, h2]
  simp only [Bool.false_eq_true, if_false, actR, runAct, consumed_append, hp]

theorem numTok_head {t : Bytes} (h : NumTok t) : ∃ c r, t = c :: r ∧ (c = 45 ∨ Spec.isDigit c = true) := by
  obtain ⟨s, d, f, rfl, hs, hd, hd', hf⟩ := h
  cases d with
  | nil => exact absurd rfl hd
  | cons c d =>
    simp only [List.all_cons, Bool.and_eq_true] at hd'
    rcases hs with rfl | rfl
    · exact ⟨c, d ++ f, by simp, .inr hd'.1⟩
    · exact ⟨45, c :: d ++ f, by simp, .inl rfl⟩

theorem rvalue_abort {t b : Bytes} (h : NumTok t) (hp : parseFloat t = none) (hb : b.takeWhile isNumChar = []) :
    Aborts o G.rvalue (t ++ b) := by
  unfold Aborts; rw [G.rvalue, run_choice]
  refine choice2 ?_ (choiceAb (number_abort h hp hb))
  obtain ⟨c, r, rfl, h2⟩ := numTok_head h
  refine string_fail_head ?_
  rcases h2 with rfl | h2
  · decide
  · revert h2; clear h hp; revert c; decide +kernel

/-- The expression in the grammar. -/
def _root_.Verif.Spec.NumExpr.toC (e : NumExpr) : CExpr :=
  match e.r with
  | none => .rval (.num e.l)
  | some m => .inE (.num e.l) .empty .empty (.num m)

theorem toC_text (e : NumExpr) : e.toC.text = e.text := by
  obtain ⟨l, r⟩ := e
  cases r <;> simp [NumExpr.toC, NumExpr.text, CExpr.text, CRval.text, Gap.text, Gap.empty]

theorem toC_ok {e : NumExpr} (h : ∀ n ∈ e.nums, NumOk n) : e.toC.Ok := by
  obtain ⟨l, r⟩ := e
  cases r with
  | none => exact h l (by simp [NumExpr.nums])
  | some m => exact ⟨h l (by simp [NumExpr.nums]), gap_empty_ok, gap_empty_ok, h m (by simp [NumExpr.nums])⟩

/-- The further expressions in the grammar. -/
def toMore (ms : List (BoolOpKind × NumExpr)) : List CMore := ms.map fun m => .mk .empty m.1 .empty m.2.toC

theorem toMore_text (ms : List (BoolOpKind × NumExpr)) : moreText (toMore ms) = ms.flatMap fun m => boolText m.1 ++ m.2.text := by
  induction ms with
  | nil => rfl
  | cons m ms ih => 
    rw [List.flatMap_cons, ← ih, ← toC_text]
    simp [toMore, moreText, Gap.text, Gap.empty]

theorem toMore_ok {ms : List (BoolOpKind × NumExpr)} (h : ∀ n ∈ ms.flatMap fun m => m.2.nums, NumOk n)
    (h2 : ∀ m ∈ ms, m.1 ≠ .undefined ∧ m.1 ≠ .noOp) : moreOk (toMore ms) := by
  induction ms with
  | nil => trivial
  | cons m ms ih =>
    simp only [List.flatMap_cons, List.mem_append, List.mem_cons] at h h2
    exact ⟨gap_empty_ok, h2 m (.inl rfl), gap_empty_ok, toC_ok fun n hn => h n (.inl hn),
      ih (fun n hn => h n (.inr hn)) fun m hm => h2 m (.inr hm)⟩

/-- The condition in the grammar. -/
def _root_.Verif.Spec.NumCond.toC (c : NumCond) : CCond := .mk c.first.toC (toMore c.more)

theorem cond_toC_text (c : NumCond) : c.toC.text = c.text := by
  rw [NumCond.toC, CCond.text, toC_text, toMore_text]; rfl

theorem cond_toC_ok {c : NumCond} (h : c.Ok) (h2 : ∀ n ∈ c.nums, parseFloat n ≠ none) : c.toC.Ok := by
  have hn : ∀ n ∈ c.nums, NumOk n := fun n hn => ⟨h.1 n hn, Option.isSome_iff_ne_none.2 (h2 n hn)⟩
  exact ⟨toC_ok fun n h3 => hn n (List.mem_append_left _ h3), toMore_ok (fun n h3 => hn n (List.mem_append_right _ h3)) h.2⟩

/-! ### A number out of range is an error -/

theorem neg_fail_num {t b : Bytes} (h : NumTok t) : Fails o (.action (.conditionExpression .cond) (.seq [.lit b!"(", G.gapS, G.warn,
      .labeled .cond (.ref .condition), G.gapS, G.warn, .lit b!")"])) (t ++ b) ∧ Fails o G.negativeExpression (t ++ b) := by
  obtain ⟨c, r, rfl, h2⟩ := numTok_head h
  have : c ≠ 40 ∧ c ≠ 33 := by
    rcases h2 with rfl | h2
    · decide
    · revert h2; clear h; revert c; decide +kernel
  exact ⟨actF (seqF (tokF (by decide) (by simpa using this.1))), neg_fail (by simpa using this.2)⟩

theorem expr_abort {e : NumExpr} (h : ∀ n ∈ e.nums, NumTok n) (h2 : ∃ n ∈ e.nums, parseFloat n = none) {X : Bytes} (hX : X.takeWhile isNumChar = []) :
    Aborts o G.expression (e.text ++ X) := by
  obtain ⟨l, r⟩ := e
  have hl : NumTok l := h l (by simp [NumExpr.nums])
  unfold Aborts
  rw [G.expression, run_choice]
  cases r with
  | none =>
    obtain ⟨n, hn, hp⟩ := h2
    simp only [NumExpr.nums, Option.toList_none, List.mem_cons, List.not_mem_nil, or_false] at hn
    subst hn
    simp only [NumExpr.text, List.append_nil]
    have := neg_fail_num (o := o) (b := X) hl
    exact choice2 this.1 (choice2 (refF this.2) (choiceAb (refAb (actAb (seqAb (labAb (refAb (rvalue_abort hl hp hX))))))))
  | some m =>
    have hm : NumTok m := h m (by simp [NumExpr.nums])
    simp only [NumExpr.text, List.append_assoc]
    have := neg_fail_num (o := o) (b := b!"in" ++ (m ++ X)) hl
    refine choice2 this.1 (choice2 (refF this.2) (choiceAb (refAb ?_)))
    cases hp : parseFloat l with
    | none => exact actAb (seqAb (labAb (refAb (rvalue_abort hl hp rfl))))
    | some f =>
      have hm2 : parseFloat m = none := by
        obtain ⟨n, hn, hp'⟩ := h2
        simp only [NumExpr.nums, Option.toList_some, List.mem_cons, List.not_mem_nil, or_false] at hn
        rcases hn with rfl | rfl
        · rw [hp] at hp'; cases hp'
        · exact hp'
      have hok : (CRval.num l).Ok := ⟨hl, by rw [hp]; rfl⟩
      obtain ⟨v, -, h1⟩ := opA (o := o) (e := G.inOperator) (es := [G.gapS, G.warn, .labeled .rv (.ref .rvalue)]) hok gap_empty_ok
        (T := b!"in" ++ (m ++ X)) (stop_cons (by decide)) (rvFollow_cons (by decide))
      refine actAb (h1 _ (seqA ((close_ok (by decide) (by simp)).2 ⟨rfl, rfl, rfl⟩) ?_))
      refine gapSW (g := .empty) (X := m ++ X) gap_empty_ok ?_ (seqAb (labAb (refAb (rvalue_abort hm hm2 hX))))
      obtain ⟨c, r, rfl, h3⟩ := numTok_head hm
      refine stop_cons ?_
      rcases h3 with rfl | h3
      · decide
      · revert h3; clear hm2 hm h h2 this h1; revert c; decide +kernel

theorem numExpr_stop {e : NumExpr} (h : ∀ n ∈ e.nums, NumTok n) (X : Bytes) : Stop (e.text ++ X) := by
  obtain ⟨c, r, h1, h3⟩ := numTok_head (h e.l (by simp [NumExpr.nums]))
  rw [NumExpr.text, h1]
  refine stop_cons ?_
  rcases h3 with rfl | h3
  · decide
  · revert h3; clear h1; revert c; decide +kernel

theorem moreEl_abort {op : BoolOpKind} {e : NumExpr} (hop : op ≠ .undefined ∧ op ≠ .noOp) (h : ∀ n ∈ e.nums, NumTok n)
    (h2 : ∃ n ∈ e.nums, parseFloat n = none) {X : Bytes} (hX : X.takeWhile isNumChar = []) :
    Aborts o moreEx (boolText op ++ (e.text ++ X)) :=
  actAb (gapSW (g := .empty) gap_empty_ok (boolOp_stop hop _) (seqA (labA (runs_boolOp.2 ⟨op, hop, rfl, rfl⟩))
    (gapSW (g := .empty) gap_empty_ok (numExpr_stop h X) (seqAb (labAb (refAb (expr_abort h h2 hX)))))))

theorem follow_more {ms : List (BoolOpKind × NumExpr)} (hne : ms ≠ []) (hop : ∀ m ∈ ms, m.1 ≠ .undefined ∧ m.1 ≠ .noOp) (X : Bytes) :
    ExprFollow ((ms.flatMap fun m => boolText m.1 ++ m.2.text) ++ X) := by
  cases ms with
  | nil => exact absurd rfl hne
  | cons m ms =>
    simp only [List.flatMap_cons, List.append_assoc]
    exact ⟨.empty, _, gap_empty_ok, rfl, .inr ⟨m.1, _, hop m (by simp), rfl⟩⟩

theorem more_abort (ms : List (BoolOpKind × NumExpr)) (hop : ∀ m ∈ ms, m.1 ≠ .undefined ∧ m.1 ≠ .noOp)
    (h : ∀ n ∈ ms.flatMap fun m => m.2.nums, NumTok n) (h2 : ∃ n ∈ ms.flatMap fun m => m.2.nums, parseFloat n = none)
    {X : Bytes} (hX : X.takeWhile isNumChar = []) : Aborts o (.star moreEx) ((ms.flatMap fun m => boolText m.1 ++ m.2.text) ++ X) := by
  induction ms with
  | nil => obtain ⟨n, hn, _⟩ := h2; cases hn
  | cons m ms ih =>
    have hop' : ∀ m ∈ ms, m.1 ≠ .undefined ∧ m.1 ≠ .noOp := fun x hx => hop x (by simp [hx])
    simp only [List.flatMap_cons, List.mem_append] at h h2 ⊢
    by_cases hm : ∃ n ∈ m.2.nums, parseFloat n = none
    · simp only [List.append_assoc]
      refine starAb (moreEl_abort (hop m (by simp)) (fun n hn => h n (.inl hn)) hm ?_)
      cases ms with
      | nil => exact hX
      | cons => exact (follow_more (by simp) hop' X).rv.num
    · have hms : ∃ n ∈ ms.flatMap fun m => m.2.nums, parseFloat n = none := by
        obtain ⟨n, hn | hn, h3⟩ := h2
        · exact absurd ⟨n, hn, h3⟩ hm
        · exact ⟨n, hn, h3⟩
      have hne : ms ≠ [] := by rintro rfl; obtain ⟨_, h, _⟩ := hms; cases h
      have hok : m.2.toC.Ok := toC_ok fun n hn => ⟨h n (.inl hn), Option.isSome_iff_ne_none.2 fun h3 => hm ⟨n, hn, h3⟩⟩
      have h3 := more_complete (o := o) (g1 := .empty) (g2 := .empty) (op := m.1) (e := m.2.toC)
        (X := (ms.flatMap fun m => boolText m.1 ++ m.2.text) ++ X) ⟨gap_empty_ok, hop m (by simp), gap_empty_ok, hok, trivial⟩
        (expression_complete o _ hok _ (follow_more hne hop' X))
      have e1 : moreText [.mk .empty m.1 .empty m.2.toC] = boolText m.1 ++ m.2.text := by
        simp [moreText, toC_text, Gap.text, Gap.empty]
      rw [e1] at h3
      rw [List.append_assoc]
      exact starAb_cons h3 (ih hop' (fun n hn => h n (.inr hn)) hms)

theorem condition_abort {c : NumCond} (h : c.Ok) (h2 : ∃ n ∈ c.nums, parseFloat n = none) {X : Bytes} (hX : X.takeWhile isNumChar = []) :
    Aborts o G.condition (c.text ++ X) := by
  obtain ⟨e, ms⟩ := c
  obtain ⟨h1, hop⟩ := h
  simp only [NumCond.nums, List.mem_append] at h1 h2 hop
  simp only [NumCond.text, List.append_assoc]
  by_cases hm : ∃ n ∈ e.nums, parseFloat n = none
  · refine actAb (seqAb (labAb (refAb (expr_abort (fun n hn => h1 n (.inl hn)) hm ?_))))
    cases ms with
    | nil => exact hX
    | cons => exact (follow_more (by simp) hop X).rv.num
  · have hms : ∃ n ∈ ms.flatMap fun m => m.2.nums, parseFloat n = none := by
      obtain ⟨n, hn | hn, h3⟩ := h2
      · exact absurd ⟨n, hn, h3⟩ hm
      · exact ⟨n, hn, h3⟩
    have hne : ms ≠ [] := by rintro rfl; obtain ⟨_, h, _⟩ := hms; cases h
    have hok : e.toC.Ok := toC_ok fun n hn => ⟨h1 n (.inl hn), Option.isSome_iff_ne_none.2 fun h3 => hm ⟨n, hn, h3⟩⟩
    have h3 := expression_complete o _ hok _ (follow_more hne hop X)
    rw [toC_text] at h3
    exact actAb (seqA (labA (refA h3)) (seqAb (labAb (more_abort ms hop (fun n hn => h1 n (.inr hn)) hms hX))))

end
end Verif
