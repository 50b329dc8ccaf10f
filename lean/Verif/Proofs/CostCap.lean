import Verif.Proofs.Cost
/-
A limit on the number of evaluated expressions that is not reached has no effect.
-/
namespace Verif

/-- More than `k` expressions have been evaluated when the outcome is reached. -/
def Out.over (k : Nat) : Out → Prop
  | .ok _ t => k < t.cnt
  | .fail t => k < t.cnt
  | .panic _ t => k < t.cnt
  | .timeout => True

/-- The outcome with the limit `m` and the one without. -/
def Cap (m c : Nat) (r1 r2 : Out) : Prop := (∀ k < c, r2.over k) ∧ (r1 = r2 ∨ r2.over m)

section
variable {m : Nat} {ev1 ev2 : Ex → St → Out}

theorem seqLoop_cap (h : ∀ e s, Cap m s.cnt (ev1 e s) (ev2 e s)) (s0 : St) (es : List Ex) (acc : List Val) (s : St) :
    Cap m s.cnt (seqLoop ev1 s0 es acc s) (seqLoop ev2 s0 es acc s) := by
  induction es generalizing acc s with
  | nil => exact ⟨fun k hk => hk, .inl rfl⟩
  | cons e es ih =>
    simp only [seqLoop]
    obtain ⟨h1, h2⟩ := h e s
    constructor
    · intro k hk
      have h1 := h1 k hk
      cases hr : ev2 e s with
      | ok v t => rw [hr] at h1; exact (ih _ t).1 k h1
      | fail t => rw [hr] at h1; exact h1
      | panic x t => rw [hr] at h1; exact h1
      | timeout => trivial
    · rcases h2 with h2 | h2
      · rw [h2]
        cases hr : ev2 e s with
        | ok v t => exact (ih _ t).2
        | _ => exact .inl rfl
      · right
        cases hr : ev2 e s with
        | ok v t => rw [hr] at h2; exact (ih _ t).1 m h2
        | fail t => rw [hr] at h2; exact h2
        | panic x t => rw [hr] at h2; exact h2
        | timeout => trivial

theorem choiceLoop_cap (h : ∀ e s, Cap m s.cnt (ev1 e s) (ev2 e s)) (es : List Ex) (s : St) :
    Cap m s.cnt (choiceLoop ev1 es s) (choiceLoop ev2 es s) := by
  induction es generalizing s with
  | nil => exact ⟨fun k hk => hk, .inl rfl⟩
  | cons e es ih =>
    simp only [choiceLoop]
    obtain ⟨h1, h2⟩ := h e { s with frame := [] }
    constructor
    · intro k hk
      have h1 := h1 k hk
      cases hr : ev2 e { s with frame := [] } with
      | ok v t => rw [hr] at h1; exact h1
      | fail t => rw [hr] at h1; exact (ih { t with frame := s.frame, warns := s.warns }).1 k h1
      | panic x t => rw [hr] at h1; exact h1
      | timeout => trivial
    · rcases h2 with h2 | h2
      · rw [h2]
        cases hr : ev2 e { s with frame := [] } with
        | fail t => exact (ih { t with frame := s.frame, warns := s.warns }).2
        | _ => exact .inl rfl
      · right
        cases hr : ev2 e { s with frame := [] } with
        | ok v t => rw [hr] at h2; exact h2
        | fail t => rw [hr] at h2; exact (ih { t with frame := s.frame, warns := s.warns }).1 m h2
        | panic x t => rw [hr] at h2; exact h2
        | timeout => trivial

theorem starLoop_cap (h : ∀ e s, Cap m s.cnt (ev1 e s) (ev2 e s)) (e : Ex) (n : Nat) (acc : List Val) (s : St) :
    Cap m s.cnt (starLoop (ev1 e) n acc s) (starLoop (ev2 e) n acc s) := by
  induction n generalizing acc s with
  | zero => exact ⟨fun k hk => trivial, .inl rfl⟩
  | succ n ih =>
    simp only [starLoop]
    obtain ⟨h1, h2⟩ := h e { s with frame := [] }
    constructor
    · intro k hk
      have h1 := h1 k hk
      cases hr : ev2 e { s with frame := [] } with
      | ok v t => rw [hr] at h1; exact (ih _ { t with frame := s.frame }).1 k h1
      | fail t => rw [hr] at h1; exact h1
      | panic x t => rw [hr] at h1; exact h1
      | timeout => trivial
    · rcases h2 with h2 | h2
      · rw [h2]
        cases hr : ev2 e { s with frame := [] } with
        | ok v t => exact (ih _ { t with frame := s.frame }).2
        | _ => exact .inl rfl
      · right
        cases hr : ev2 e { s with frame := [] } with
        | ok v t => rw [hr] at h2; exact (ih _ { t with frame := s.frame }).1 m h2
        | fail t => rw [hr] at h2; exact h2
        | panic x t => rw [hr] at h2; exact h2
        | timeout => trivial

theorem litLoop_over (o : Opts) (want : Bytes) (start : Pt) (cs : Bytes) (s : St) :
    ∀ k < s.cnt, (litLoop o want start cs s).over k := by
  intro k hk
  have := litLoop_cost (o := o) want start cs s
  cases h : litLoop o want start cs s with
  | ok v t => rw [h] at this; simp only [Out.over]; omega
  | fail t => rw [h] at this; simp only [Out.over]; omega
  | panic m t => rw [h] at this; exact this.elim
  | timeout => trivial

/-- A wrapper that keeps the count. -/
theorem Cap.map {c : Nat} {r1 r2 : Out} (f : Out → Out) (hf : ∀ k r, r.over k → (f r).over k) (h : Cap m c r1 r2) :
    Cap m c (f r1) (f r2) := by
  refine ⟨fun k hk => hf _ _ (h.1 k hk), ?_⟩
  rcases h.2 with h2 | h2
  · exact .inl (by rw [h2])
  · exact .inr (hf _ _ h2)

theorem step_cap (o : Opts) (h : ∀ e s, Cap m s.cnt (ev1 e s) (ev2 e s)) (G : Gram) (n : Nat) (e : Ex) (s : St) :
    Cap m s.cnt (step { o with maxExpr := some m } G ev1 n e s) (step { o with maxExpr := none } G ev2 n e s) := by
  unfold step
  cases e with
  | action a e =>
    simp only
    refine (h e s).map (fun r => match r with
      | .ok _ s' =>
        match runAct { o with maxExpr := none } a s'.frame s.pt.pos (sliceFrom s.pt s'.pt) s'.warns with
        | .val v => .ok v { s' with curPos := s.pt.pos, curText := sliceFrom s.pt s'.pt }
        | .err v msg => .ok v (({ s' with curPos := s.pt.pos, curText := sliceFrom s.pt s'.pt } : St).addErrAt msg s.pt.pos)
        | .panic m => .panic m { s' with curPos := s.pt.pos, curText := sliceFrom s.pt s'.pt }
      | r => r) ?_
    intro k r hr
    cases r with
    | ok v t =>
      simp only
      cases runAct { o with maxExpr := none } a t.frame s.pt.pos (sliceFrom s.pt t.pt) t.warns <;> exact hr
    | _ => exact hr
  | andCode c => cases c <;> exact ⟨fun k hk => hk, .inl rfl⟩
  | any =>
    simp only
    refine ⟨fun k hk => ?_, .inl rfl⟩
    split
    · simp only [Out.over, failAt_cnt]; exact hk
    · simp only [Out.over, failAt_cnt, read_cnt]; exact hk
  | cls val inv chars ranges =>
    simp only
    refine ⟨fun k hk => ?_, .inl rfl⟩
    split
    · simp only [Out.over, failAt_cnt]; exact hk
    · split
      · simp only [Out.over, failAt_cnt, read_cnt]; exact hk
      · simp only [Out.over, failAt_cnt]; exact hk
  | choice alts => exact choiceLoop_cap h alts s
  | labeled l e =>
    refine (h e { s with frame := [] }).map (fun r => match r with
      | .ok v s' => .ok v { s' with frame := (l, v) :: s.frame }
      | .fail s' => .fail { s' with frame := s.frame }
      | r => r) ?_
    intro k r hr
    cases r <;> exact hr
  | lit v =>
    refine ⟨litLoop_over _ _ _ _ _, .inl ?_⟩
    simp only
    generalize s.pt = st
    have : ∀ (cs : Bytes) (s : St), litLoop { o with maxExpr := some m } (litWant v) st cs s =
        litLoop { o with maxExpr := none } (litWant v) st cs s := by
      intro cs
      induction cs with
      | nil => intro s; rfl
      | cons c cs ih =>
        intro s
        simp only [litLoop]
        rw [ih]
        rfl
    exact this v s
  | not e =>
    refine (h e { s with frame := [], mfInv := !s.mfInv }).map (fun r => match r with
      | .ok _ s' => .fail { s' with frame := s.frame, warns := s.warns, pt := s.pt, mfInv := s.mfInv }
      | .fail s' => .ok .nil { s' with frame := s.frame, warns := s.warns, pt := s.pt, mfInv := s.mfInv }
      | r => r) ?_
    intro k r hr
    cases r <;> exact hr
  | plus e =>
    simp only
    obtain ⟨h1, h2⟩ := h e { s with frame := [] }
    constructor
    · intro k hk
      have h1 := h1 k hk
      cases hr : ev2 e { s with frame := [] } with
      | ok v t => rw [hr] at h1; exact (starLoop_cap h e n _ { t with frame := s.frame }).1 k h1
      | fail t => rw [hr] at h1; exact h1
      | panic x t => rw [hr] at h1; exact h1
      | timeout => trivial
    · rcases h2 with h2 | h2
      · rw [h2]
        cases hr : ev2 e { s with frame := [] } with
        | ok v t => exact (starLoop_cap h e n _ { t with frame := s.frame }).2
        | _ => exact .inl rfl
      · right
        cases hr : ev2 e { s with frame := [] } with
        | ok v t => rw [hr] at h2; exact (starLoop_cap h e n _ { t with frame := s.frame }).1 m h2
        | fail t => rw [hr] at h2; exact h2
        | panic x t => rw [hr] at h2; exact h2
        | timeout => trivial
  | ref r =>
    refine (h (G r) { s with rstack := r :: s.rstack, frame := [] }).map (fun r => match r with
      | .ok v s' => .ok v { s' with rstack := s.rstack, frame := s.frame }
      | .fail s' => .fail { s' with rstack := s.rstack, frame := s.frame }
      | .panic m s' => .panic m s'
      | .timeout => .timeout) ?_
    intro k r hr
    cases r <;> exact hr
  | seq es => exact seqLoop_cap h s es [] s
  | state c =>
    refine ⟨fun k hk => ?_, .inl rfl⟩
    have : (runState { o with maxExpr := none } c s).cnt = s.cnt := by
      cases c <;> simp only [runState] <;> first | (split <;> simp) | simp
    simp only [Out.over, this]; exact hk
  | star e => exact starLoop_cap h e n [] s
  | opt e =>
    refine (h e { s with frame := [] }).map (fun r => match r with
      | .ok v s' => .ok v { s' with frame := s.frame }
      | .fail s' => .ok .nil { s' with frame := s.frame }
      | r => r) ?_
    intro k r hr
    cases r <;> exact hr

end

theorem eval_cap (o : Opts) (m : Nat) (G : Gram) (n : Nat) (e : Ex) (s : St) :
    Cap m s.cnt (eval { o with maxExpr := some m } G n e s) (eval { o with maxExpr := none } G n e s) := by
  induction n generalizing e s with
  | zero => exact ⟨fun k hk => trivial, .inl rfl⟩
  | succ n ih =>
    have h := step_cap (m := m) o ih G n e { s with cnt := s.cnt + 1 }
    simp only [eval, tooMany, Bool.false_eq_true, if_false]
    refine ⟨fun k hk => h.1 k (by simp only; omega), ?_⟩
    by_cases hm : s.cnt + 1 > m
    · exact .inr (h.1 m hm)
    · simp only [hm, decide_false, Bool.false_eq_true, if_false]
      exact h.2

/-- If the evaluation takes at most `m` expressions, the limit `m` changes nothing. -/
theorem evalInit_cap (fuel : Nat) (o : Opts) (data : Bytes) (ff : List FF) (m : Nat)
    (h : ¬ (evalInit fuel { o with maxExpr := none } data ff).over m) :
    evalInit fuel { o with maxExpr := some m } data ff = evalInit fuel { o with maxExpr := none } data ff := by
  have h1 : initSt { o with maxExpr := none } data ff = initSt o data ff := rfl
  have h2 : initSt { o with maxExpr := some m } data ff = initSt o data ff := rfl
  rw [evalInit_eq, h1] at h
  rw [evalInit_eq, evalInit_eq, h1, h2]
  rcases (eval_cap o m gram fuel G.init (initSt o data ff)).2 with h3 | h3
  · rw [h3]
  · exfalso
    apply h
    cases hr : eval { o with maxExpr := none } gram fuel G.init (initSt o data ff) with
    | timeout => trivial
    | _ => rw [hr] at h3; exact h3

end Verif
