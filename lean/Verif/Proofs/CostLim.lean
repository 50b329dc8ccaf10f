import Verif.Proofs.CostCap
import Verif.Proofs.Parse
/-
With a limit the counter stops right behind it.
-/
namespace Verif

/-- The counter has not passed the limit, or it has passed it by one and the evaluation was stopped. -/
def Under (m : Nat) : Out → Prop
  | .ok _ t => t.cnt ≤ m
  | .fail t => t.cnt ≤ m
  | .panic x t => (x = maxExprMsg ∧ t.cnt = m + 1) ∨ (x ≠ maxExprMsg ∧ t.cnt ≤ m)
  | .timeout => True

section
variable {m : Nat} {ev : Ex → St → Out}

theorem seqLoop_under (h : ∀ e s, s.cnt ≤ m → Under m (ev e s)) (s0 : St) (es : List Ex) (acc : List Val) (s : St)
    (hs : s.cnt ≤ m) : Under m (seqLoop ev s0 es acc s) := by
  induction es generalizing acc s with
  | nil => exact hs
  | cons e es ih =>
    have he := h e s hs
    simp only [seqLoop]
    cases hr : ev e s with
    | ok v t => rw [hr] at he; exact ih _ t he
    | fail t => rw [hr] at he; exact he
    | panic x t => rw [hr] at he; exact he
    | timeout => trivial

theorem choiceLoop_under (h : ∀ e s, s.cnt ≤ m → Under m (ev e s)) (es : List Ex) (s : St)
    (hs : s.cnt ≤ m) : Under m (choiceLoop ev es s) := by
  induction es generalizing s with
  | nil => exact hs
  | cons e es ih =>
    have he := h e { s with frame := [] } hs
    simp only [choiceLoop]
    cases hr : ev e { s with frame := [] } with
    | ok v t => rw [hr] at he; exact he
    | fail t => rw [hr] at he; exact ih _ he
    | panic x t => rw [hr] at he; exact he
    | timeout => trivial

theorem starLoop_under (h : ∀ e s, s.cnt ≤ m → Under m (ev e s)) (e : Ex) (n : Nat) (acc : List Val) (s : St)
    (hs : s.cnt ≤ m) : Under m (starLoop (ev e) n acc s) := by
  induction n generalizing acc s with
  | zero => trivial
  | succ n ih =>
    have he := h e { s with frame := [] } hs
    simp only [starLoop]
    cases hr : ev e { s with frame := [] } with
    | ok v t => rw [hr] at he; exact ih _ { t with frame := s.frame } he
    | fail t => rw [hr] at he; exact he
    | panic x t => rw [hr] at he; exact he
    | timeout => trivial

theorem litLoop_under (o : Opts) (want : Bytes) (start : Pt) (cs : Bytes) (s : St) (hs : s.cnt ≤ m) :
    Under m (litLoop o want start cs s) := by
  have := litLoop_cost (o := o) want start cs s
  cases h : litLoop o want start cs s with
  | ok v t => rw [h] at this; simp only [Under]; omega
  | fail t => rw [h] at this; simp only [Under]; omega
  | panic x t => rw [h] at this; exact this.elim
  | timeout => trivial

theorem step_under (o : Opts) (h : ∀ e s, s.cnt ≤ m → Under m (ev e s)) (G : Gram) (n : Nat) (e : Ex) (s : St)
    (hs : s.cnt ≤ m) : Under m (step o G ev n e s) := by
  cases e with
  | action a e =>
    have he := h e s hs
    simp only [step]
    cases hr : ev e s with
    | ok v t =>
      rw [hr] at he
      simp only
      split
      · exact he
      · exact he
      · rename_i x hx
        have := (runAct_msgs _ _ _ _ _ _).2 x hx
        subst this
        exact .inr ⟨by decide, he⟩
    | fail t => rw [hr] at he; exact he
    | panic x t => rw [hr] at he; exact he
    | timeout => trivial
  | andCode c =>
    cases c with
    | initParser => exact hs
    | pushError x => exact hs
    | fatalError x =>
      refine .inr ⟨fun hx => ?_, hs⟩
      have := congrArg List.head? hx
      simp [ffHeader, maxExprMsg] at this
  | any =>
    simp only [step]
    split
    · simp only [Under, failAt_cnt]; exact hs
    · simp only [Under, failAt_cnt, read_cnt]; exact hs
  | cls v i c r =>
    simp only [step]
    split
    · simp only [Under, failAt_cnt]; exact hs
    · split
      · simp only [Under, failAt_cnt, read_cnt]; exact hs
      · simp only [Under, failAt_cnt]; exact hs
  | choice es => exact choiceLoop_under h es s hs
  | labeled l e =>
    have he := h e { s with frame := [] } hs
    simp only [step]
    cases hr : ev e { s with frame := [] } with
    | ok v t => rw [hr] at he; exact he
    | fail t => rw [hr] at he; exact he
    | panic x t => rw [hr] at he; exact he
    | timeout => trivial
  | lit v => exact litLoop_under o _ _ _ s hs
  | not e =>
    have he := h e { s with frame := [], mfInv := !s.mfInv } hs
    simp only [step]
    cases hr : ev e { s with frame := [], mfInv := !s.mfInv } with
    | ok v t => rw [hr] at he; exact he
    | fail t => rw [hr] at he; exact he
    | panic x t => rw [hr] at he; exact he
    | timeout => trivial
  | plus e =>
    have he := h e { s with frame := [] } hs
    simp only [step]
    cases hr : ev e { s with frame := [] } with
    | ok v t => rw [hr] at he; exact starLoop_under h e n _ { t with frame := s.frame } he
    | fail t => rw [hr] at he; exact he
    | panic x t => rw [hr] at he; exact he
    | timeout => trivial
  | ref r =>
    have he := h (G r) { s with rstack := r :: s.rstack, frame := [] } hs
    simp only [step, evalRule]
    cases hr : ev (G r) { s with rstack := r :: s.rstack, frame := [] } with
    | ok v t => rw [hr] at he; exact he
    | fail t => rw [hr] at he; exact he
    | panic x t => rw [hr] at he; exact he
    | timeout => trivial
  | seq es => exact seqLoop_under h s es [] s hs
  | state c =>
    cases c with
    | initState => exact hs
    | warnComment => simp only [step, runState]; split <;> exact hs
  | star e => exact starLoop_under h e n [] s hs
  | opt e =>
    have he := h e { s with frame := [] } hs
    simp only [step]
    cases hr : ev e { s with frame := [] } with
    | ok v t => rw [hr] at he; exact he
    | fail t => rw [hr] at he; exact he
    | panic x t => rw [hr] at he; exact he
    | timeout => trivial

end

theorem eval_under (o : Opts) (m : Nat) (hm : o.maxExpr = some m) (G : Gram) (n : Nat) (e : Ex) (s : St)
    (hs : s.cnt ≤ m) : Under m (eval o G n e s) := by
  induction n generalizing e s with
  | zero => trivial
  | succ n ih =>
    simp only [eval, tooMany, hm]
    by_cases h : s.cnt + 1 > m
    · rw [if_pos (by simpa using h)]
      exact .inl ⟨rfl, by simp only; omega⟩
    · rw [if_neg (by simpa using h)]
      exact step_under o ih G n e { s with cnt := s.cnt + 1 } (by simp only; omega)

end Verif
