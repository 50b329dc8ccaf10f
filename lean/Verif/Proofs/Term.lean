import Verif.Proofs.Engine
/-
Termination of the engine on the grammar of the project: the fuel `parse` supplies is
never exhausted, and more fuel makes no difference.
-/
namespace Verif

/-! ### More fuel changes nothing -/

theorem seqLoop_mono {ev1 ev2 : Ex → St → Out} (h : ∀ e s, ev1 e s ≠ .timeout → ev2 e s = ev1 e s)
    (s0 : St) (es : List Ex) (acc : List Val) (s : St) (hn : seqLoop ev1 s0 es acc s ≠ .timeout) :
    seqLoop ev2 s0 es acc s = seqLoop ev1 s0 es acc s := by
  induction es generalizing acc s with
  | nil => rfl
  | cons e es ih =>
    simp only [seqLoop] at hn ⊢
    cases h1 : ev1 e s with
    | timeout => rw [h1] at hn; exact absurd rfl hn
    | ok v t => rw [h1] at hn; rw [h e s (by simp [h1]), h1]; exact ih _ _ hn
    | _ => rw [h e s (by simp [h1]), h1]

theorem choiceLoop_mono {ev1 ev2 : Ex → St → Out} (h : ∀ e s, ev1 e s ≠ .timeout → ev2 e s = ev1 e s)
    (es : List Ex) (s : St) (hn : choiceLoop ev1 es s ≠ .timeout) :
    choiceLoop ev2 es s = choiceLoop ev1 es s := by
  induction es generalizing s with
  | nil => rfl
  | cons e es ih =>
    simp only [choiceLoop] at hn ⊢
    cases h1 : ev1 e { s with frame := [] } with
    | timeout => rw [h1] at hn; exact absurd rfl hn
    | fail t => rw [h1] at hn; rw [h e _ (by simp [h1]), h1]; exact ih _ hn
    | _ => rw [h e _ (by simp [h1]), h1]

theorem starLoop_mono {ev1 ev2 : St → Out} (h : ∀ s, ev1 s ≠ .timeout → ev2 s = ev1 s)
    (n m : Nat) (hm : n ≤ m) (acc : List Val) (s : St) (hn : starLoop ev1 n acc s ≠ .timeout) :
    starLoop ev2 m acc s = starLoop ev1 n acc s := by
  induction n generalizing acc s m with
  | zero => exact absurd rfl hn
  | succ n ih =>
    obtain ⟨m, rfl⟩ : ∃ k, m = k + 1 := ⟨m - 1, by omega⟩
    simp only [starLoop] at hn ⊢
    cases h1 : ev1 { s with frame := [] } with
    | timeout => rw [h1] at hn; exact absurd rfl hn
    | ok v t => rw [h1] at hn; rw [h _ (by simp [h1]), h1]; exact ih _ (by omega) _ _ hn
    | _ => rw [h _ (by simp [h1]), h1]

/-- More fuel does not change an evaluation that has enough. -/
theorem eval_mono (o : Opts) (G : Gram) (n m : Nat) (hm : n ≤ m) (e : Ex) (s : St)
    (hn : eval o G n e s ≠ .timeout) : eval o G m e s = eval o G n e s := by
  induction n generalizing e s m with
  | zero => exact absurd rfl hn
  | succ n ih =>
    obtain ⟨m, rfl⟩ : ∃ k, m = k + 1 := ⟨m - 1, by omega⟩
    simp only [eval] at hn ⊢
    split
    · rfl
    · rename_i hc
      rw [if_neg hc] at hn
      generalize ({ s with cnt := s.cnt + 1 } : St) = s at hn ⊢
      have ih' : ∀ e s, eval o G n e s ≠ .timeout → eval o G m e s = eval o G n e s :=
        fun e s h => ih m (by omega) e s h
      unfold step at hn ⊢
      cases e with
      | action a e =>
        simp only at hn ⊢
        cases h1 : eval o G n e s with
        | timeout => rw [h1] at hn; exact absurd rfl hn
        | _ => rw [ih' e s (by simp [h1]), h1]
      | andCode c => rfl
      | any => rfl
      | cls val inv chars ranges => rfl
      | choice alts => exact choiceLoop_mono ih' alts s hn
      | labeled l e =>
        simp only at hn ⊢
        cases h1 : eval o G n e { s with frame := [] } with
        | timeout => rw [h1] at hn; exact absurd rfl hn
        | _ => rw [ih' e _ (by simp [h1]), h1]
      | lit v => rfl
      | not e =>
        simp only at hn ⊢
        cases h1 : eval o G n e { s with frame := [], mfInv := !s.mfInv } with
        | timeout => rw [h1] at hn; exact absurd rfl hn
        | _ => rw [ih' e _ (by simp [h1]), h1]
      | plus e =>
        simp only at hn ⊢
        cases h1 : eval o G n e { s with frame := [] } with
        | timeout => rw [h1] at hn; exact absurd rfl hn
        | ok v t =>
          rw [h1] at hn
          rw [ih' e _ (by simp [h1]), h1]
          exact starLoop_mono (ih' e) n m (by omega) _ _ hn
        | _ => rw [ih' e _ (by simp [h1]), h1]
      | ref r =>
        simp only [evalRule] at hn ⊢
        cases h1 : eval o G n (G r) { s with rstack := r :: s.rstack, frame := [] } with
        | timeout => rw [h1] at hn; exact absurd rfl hn
        | _ => rw [ih' _ _ (by simp [h1]), h1]
      | seq es => exact seqLoop_mono ih' s es [] s hn
      | state c => rfl
      | star e => exact starLoop_mono (ih' e) n m (by omega) _ _ hn
      | opt e =>
        simp only at hn ⊢
        cases h1 : eval o G n e { s with frame := [] } with
        | timeout => rw [h1] at hn; exact absurd rfl hn
        | _ => rw [ih' e _ (by simp [h1]), h1]

/-! ### Which expressions consume input -/

section
variable (nr : Rule → Bool)

mutual
/-- Can the expression succeed without consuming input (conservatively)? -/
def Ex.nullable : Ex → Bool
  | .action _ e => e.nullable
  | .andCode c => decide (c = .initParser)
  | .any => false
  | .cls _ _ _ _ => false
  | .choice l => nullableAny l
  | .labeled _ e => e.nullable
  | .lit v => v.isEmpty
  | .not _ => true
  | .plus e => e.nullable
  | .ref r => nr r
  | .seq l => nullableAll l
  | .state _ => true
  | .star _ => true
  | .opt _ => true
def nullableAny : List Ex → Bool
  | [] => false
  | e :: l => e.nullable || nullableAny l
def nullableAll : List Ex → Bool
  | [] => true
  | e :: l => e.nullable && nullableAll l
end

/-- The outcome has consumed input if it is a success and `b` is set. -/
def Cons (b : Bool) (s : St) : Out → Prop
  | .ok _ t => b = true → t.pt.rest.length < s.pt.rest.length
  | _ => True

theorem read_length (o : Opts) (s : St) (h : s.pt.rest ≠ []) :
    (s.read o).pt.rest.length < s.pt.rest.length := by
  rw [(read_fields o s).1]; exact Pt.next_length _ h

theorem litLoop_cons (o : Opts) (want : Bytes) (start : Pt) (cs : Bytes) (s : St) :
    Cons (!cs.isEmpty) s (litLoop o want start cs s) := by
  induction cs generalizing s with
  | nil => simp [litLoop, Cons]
  | cons c cs ih =>
    simp only [litLoop]
    split
    · rename_i hc
      have h1 := read_length o s (Pt.rest_ne_of_rn hc)
      have h2 := ih (s.read o)
      have h3 : ∀ v t, litLoop o want start cs (s.read o) = .ok v t →
          t.pt.rest.length ≤ (s.read o).pt.rest.length := by
        intro v t h
        cases cs with
        | nil =>
          simp only [litLoop] at h
          injection h with _ h
          rw [← h, (failAt_fields _ _ _ _).1]; exact Nat.le_refl _
        | cons c' cs' =>
          rw [h] at h2
          exact Nat.le_of_lt (h2 rfl)
      cases h : litLoop o want start cs (s.read o) with
      | ok v t => exact fun _ => Nat.lt_of_le_of_lt (h3 v t h) h1
      | _ => trivial
    · trivial

theorem Good.length_le {o : Opts} {s t : St} {v : Val} (h : Good o s (.ok v t)) :
    t.pt.rest.length ≤ s.pt.rest.length := h.2.1.length_le

theorem seqLoop_cons {o : Opts} {ev : Ex → St → Out} (hg : ∀ e s, Good o s (ev e s))
    (hev : ∀ e s, Cons (!e.nullable nr) s (ev e s)) (s0 : St) (es : List Ex) (acc : List Val) (s : St) :
    Cons (!nullableAll nr es) s (seqLoop ev s0 es acc s) ∧
      (∀ v t, seqLoop ev s0 es acc s = .ok v t → t.pt.rest.length ≤ s.pt.rest.length) := by
  induction es generalizing acc s with
  | nil =>
    refine ⟨by simp [seqLoop, Cons, nullableAll], fun v t h => ?_⟩
    injection h with _ h; rw [h]; exact Nat.le_refl _
  | cons e es ih =>
    have h1 := hev e s
    have h2 := hg e s
    simp only [seqLoop]
    cases h : ev e s with
    | ok v t =>
      rw [h] at h1 h2
      have hl := h2.length_le
      obtain ⟨i1, i2⟩ := ih (acc ++ [v]) t
      refine ⟨?_, fun w u hu => Nat.le_trans (i2 w u hu) hl⟩
      simp only
      cases hs : seqLoop ev s0 es (acc ++ [v]) t with
      | ok w u =>
        intro hn
        simp only [nullableAll, Bool.not_and, Bool.or_eq_true] at hn
        rw [hs] at i1
        rcases hn with hn | hn
        · exact Nat.lt_of_le_of_lt (i2 w u hs) (h1 hn)
        · exact Nat.lt_of_lt_of_le (i1 hn) hl
      | _ => trivial
    | _ => exact ⟨trivial, by simp⟩

theorem choiceLoop_cons {o : Opts} {ev : Ex → St → Out} (hg : ∀ e s, Good o s (ev e s))
    (hev : ∀ e s, Cons (!e.nullable nr) s (ev e s)) (es : List Ex) (s : St) :
    Cons (!nullableAny nr es) s (choiceLoop ev es s) := by
  induction es generalizing s with
  | nil => trivial
  | cons e es ih =>
    have h1 := hev e { s with frame := [] }
    have h2 := hg e { s with frame := [] }
    simp only [choiceLoop]
    cases h : ev e { s with frame := [] } with
    | ok v t =>
      rw [h] at h1
      intro hn
      simp only [nullableAny, Bool.not_or, Bool.and_eq_true] at hn
      exact h1 hn.1
    | fail t =>
      rw [h] at h2
      have := ih { t with frame := s.frame, warns := s.warns }
      simp only
      cases hc : choiceLoop ev es { t with frame := s.frame, warns := s.warns } with
      | ok w u =>
        rw [hc] at this
        intro hn
        simp only [nullableAny, Bool.not_or, Bool.and_eq_true] at hn
        have h3 := this hn.2
        simp only [h2.2.1] at h3
        exact h3
      | _ => trivial
    | _ => trivial

/-- A successful evaluation of an expression that is not nullable consumes input. -/
theorem eval_cons (o : Opts) (G : Gram) (hG : ∀ r, (G r).nullable nr = true → nr r = true) (n : Nat)
    (e : Ex) (s : St) : Cons (!e.nullable nr) s (eval o G n e s) := by
  induction n generalizing e s with
  | zero => trivial
  | succ n ih =>
    simp only [eval]
    split
    · trivial
    · have key : ∀ s : St, Cons (!e.nullable nr) s (step o G (eval o G n) n e s) := by
        intro s
        have hg := eval_good o G n
        unfold step
        cases e with
        | action a e =>
          simp only
          have h1 := ih e s
          cases h : eval o G n e s with
          | ok v t =>
            rw [h] at h1
            simp only
            split
            · exact h1
            · exact h1
            · trivial
          | _ => trivial
        | andCode c => cases c <;> simp [runCode, Cons, Ex.nullable]
        | any =>
          simp only
          split
          · trivial
          · rename_i hn
            intro _
            rw [(failAt_fields _ _ _ _).1]
            exact read_length o s (Pt.rest_ne_of_not_atEof hn)
        | cls val inv chars ranges =>
          simp only
          split
          · trivial
          · rename_i hn
            split
            · intro _
              rw [(failAt_fields _ _ _ _).1]
              exact read_length o s (Pt.rest_ne_of_not_atEof hn)
            · trivial
        | choice alts => exact choiceLoop_cons nr hg ih alts s
        | labeled l e =>
          simp only
          have h1 := ih e { s with frame := [] }
          cases h : eval o G n e { s with frame := [] } with
          | ok v t => rw [h] at h1; exact h1
          | _ => trivial
        | lit v => exact litLoop_cons o _ _ _ _
        | not e =>
          simp only
          cases eval o G n e { s with frame := [], mfInv := !s.mfInv } <;> simp [Cons, Ex.nullable]
        | plus e =>
          simp only
          have h1 := ih e { s with frame := [] }
          cases h : eval o G n e { s with frame := [] } with
          | ok v t =>
            rw [h] at h1
            have h2 := (starLoop_good o (eval o G n e) (fun s => hg e s) n [v] { t with frame := s.frame }).1
            simp only
            cases hs : starLoop (eval o G n e) n [v] { t with frame := s.frame } with
            | ok w u =>
              rw [hs] at h2
              exact fun hn => Nat.lt_of_le_of_lt h2.length_le (h1 hn)
            | _ => trivial
          | _ => trivial
        | ref r =>
          simp only [evalRule]
          have h1 := ih (G r) { s with rstack := r :: s.rstack, frame := [] }
          cases h : eval o G n (G r) { s with rstack := r :: s.rstack, frame := [] } with
          | ok v t =>
            rw [h] at h1
            intro hn
            apply h1
            simp only [Ex.nullable, Bool.not_eq_true'] at hn ⊢
            exact Bool.eq_false_iff.2 fun hh => by rw [hG r hh] at hn; cases hn
          | _ => trivial
        | seq es => exact (seqLoop_cons nr hg ih s es [] s).1
        | state c => simp [Cons, Ex.nullable]
        | star e =>
          simp only
          cases starLoop (eval o G n e) n [] s <;> simp [Cons, Ex.nullable]
        | opt e =>
          simp only
          cases eval o G n e { s with frame := [] } <;> simp [Cons, Ex.nullable]
      have := key { s with cnt := s.cnt + 1 }
      cases h : step o G (eval o G n) n e { s with cnt := s.cnt + 1 } with
      | ok v t => rw [h] at this; exact this
      | _ => trivial

/-! ### How much fuel is needed -/

variable (c : Rule → Nat)

mutual
/-- Fuel needed by an expression before it consumes anything; `c` bounds the rules. -/
def Ex.need : Ex → Nat
  | .action _ e => e.need + 1
  | .andCode _ => 1
  | .any => 1
  | .cls _ _ _ _ => 1
  | .choice l => needMax l + 1
  | .labeled _ e => e.need + 1
  | .lit _ => 1
  | .not e => e.need + 1
  | .plus e => e.need + 2
  | .ref r => c r + 1
  | .seq l => needSeq l + 1
  | .state _ => 1
  | .star e => e.need + 2
  | .opt e => e.need + 1
def needMax : List Ex → Nat
  | [] => 0
  | e :: l => max e.need (needMax l)
/-- The elements up to the first one that consumes. -/
def needSeq : List Ex → Nat
  | [] => 0
  | e :: l => if e.nullable nr then max e.need (needSeq l) else e.need
end

mutual
/-- All sub-expressions need at most `K`, and repetitions only repeat consuming expressions. -/
def Ex.wf (K : Nat) : Ex → Bool
  | .action _ e => e.wf K && decide (e.need nr c + 1 ≤ K)
  | .andCode _ => decide (1 ≤ K)
  | .any => decide (1 ≤ K)
  | .cls _ _ _ _ => decide (1 ≤ K)
  | .choice l => wfAll K l && decide (needMax nr c l + 1 ≤ K)
  | .labeled _ e => e.wf K && decide (e.need nr c + 1 ≤ K)
  | .lit _ => decide (1 ≤ K)
  | .not e => e.wf K && decide (e.need nr c + 1 ≤ K)
  | .plus e => e.wf K && !e.nullable nr && decide (e.need nr c + 2 ≤ K)
  | .ref r => decide (c r + 1 ≤ K)
  | .seq l => wfAll K l && decide (needSeq nr c l + 1 ≤ K)
  | .state _ => decide (1 ≤ K)
  | .star e => e.wf K && !e.nullable nr && decide (e.need nr c + 2 ≤ K)
  | .opt e => e.wf K && decide (e.need nr c + 1 ≤ K)
def wfAll (K : Nat) : List Ex → Bool
  | [] => true
  | e :: l => e.wf K && wfAll K l
end

variable {nr c}

theorem Ex.wf_need {K : Nat} {e : Ex} (h : e.wf nr c K = true) : e.need nr c ≤ K := by
  cases e <;> simp only [Ex.wf, Ex.need, Bool.and_eq_true, decide_eq_true_eq] at h ⊢ <;> first
    | exact h
    | exact h.2

theorem wfAll_needSeq {K : Nat} {es : List Ex} (h : wfAll nr c K es = true) :
    needSeq nr c es ≤ K := by
  induction es with
  | nil => exact Nat.zero_le _
  | cons e es ih =>
    simp only [wfAll, Bool.and_eq_true] at h
    simp only [needSeq]
    split
    · exact Nat.max_le.2 ⟨Ex.wf_need h.1, ih h.2⟩
    · exact Ex.wf_need h.1

theorem Ex.need_pos (e : Ex) : 1 ≤ e.need nr c := by
  cases e <;> simp only [Ex.need] <;> omega

section
variable {o : Opts} {G : Gram} {K n : Nat}

theorem seqLoop_term {ev : Ex → St → Out} (hg : ∀ e s, Good o s (ev e s))
    (hc : ∀ e s, Cons (!e.nullable nr) s (ev e s))
    (hev : ∀ e s, e.wf nr c K = true → K * s.pt.rest.length + e.need nr c ≤ n → ev e s ≠ .timeout)
    (s0 : St) (es : List Ex) (acc : List Val) (s : St) (hw : wfAll nr c K es = true)
    (h : K * s.pt.rest.length + needSeq nr c es ≤ n) : seqLoop ev s0 es acc s ≠ .timeout := by
  induction es generalizing acc s with
  | nil => simp [seqLoop]
  | cons e es ih =>
    simp only [wfAll, Bool.and_eq_true] at hw
    simp only [needSeq] at h
    have hne : K * s.pt.rest.length + e.need nr c ≤ n := by
      split at h
      · have := Nat.le_max_left (e.need nr c) (needSeq nr c es); omega
      · exact h
    have h1 := hev e s hw.1 hne
    have h2 := hc e s
    have h3 := hg e s
    simp only [seqLoop]
    cases hr : ev e s with
    | timeout => exact absurd hr h1
    | ok v t =>
      rw [hr] at h2 h3
      have hl := h3.length_le
      apply ih _ t hw.2
      by_cases hlt : t.pt.rest.length < s.pt.rest.length
      · have hn := wfAll_needSeq hw.2
        have : K * (t.pt.rest.length + 1) ≤ K * s.pt.rest.length := Nat.mul_le_mul_left _ hlt
        rw [Nat.mul_add] at this
        have := Ex.need_pos (nr := nr) (c := c) e
        omega
      · have heq : t.pt.rest.length = s.pt.rest.length := by omega
        split at h
        · rw [heq]
          have := Nat.le_max_right (e.need nr c) (needSeq nr c es); omega
        · rename_i hnn
          exact absurd (h2 (by simp [hnn])) hlt
    | fail t => simp
    | panic m t => simp

theorem choiceLoop_term {ev : Ex → St → Out} (hg : ∀ e s, Good o s (ev e s))
    (hev : ∀ e s, e.wf nr c K = true → K * s.pt.rest.length + e.need nr c ≤ n → ev e s ≠ .timeout)
    (es : List Ex) (s : St) (hw : wfAll nr c K es = true)
    (h : K * s.pt.rest.length + needMax nr c es ≤ n) : choiceLoop ev es s ≠ .timeout := by
  induction es generalizing s with
  | nil => simp [choiceLoop]
  | cons e es ih =>
    simp only [wfAll, Bool.and_eq_true] at hw
    simp only [needMax] at h
    have hm1 := Nat.le_max_left (e.need nr c) (needMax nr c es)
    have hm2 := Nat.le_max_right (e.need nr c) (needMax nr c es)
    have h1 := hev e { s with frame := [] } hw.1 (by simp only; omega)
    have h3 := hg e { s with frame := [] }
    simp only [choiceLoop]
    cases hr : ev e { s with frame := [] } with
    | timeout => exact absurd hr h1
    | ok v t => simp
    | fail t =>
      rw [hr] at h3
      apply ih _ hw.2
      have : ({ t with frame := s.frame, warns := s.warns } : St).pt = s.pt := h3.2.1
      rw [this]; omega
    | panic m t => simp

theorem starLoop_term {ev : St → Out}
    (hc : ∀ s, Cons true s (ev s)) (a : Nat)
    (hev : ∀ s, K * s.pt.rest.length + a ≤ n → ev s ≠ .timeout)
    (m : Nat) (acc : List Val) (s : St) (hm : s.pt.rest.length < m)
    (h : K * s.pt.rest.length + a ≤ n) : starLoop ev m acc s ≠ .timeout := by
  induction m generalizing acc s with
  | zero => omega
  | succ m ih =>
    have h1 := hev { s with frame := [] } h
    have h2 := hc { s with frame := [] }
    simp only [starLoop]
    cases hr : ev { s with frame := [] } with
    | timeout => exact absurd hr h1
    | ok v t =>
      rw [hr] at h2
      have hl : t.pt.rest.length < s.pt.rest.length := h2 rfl
      refine ih _ { t with frame := s.frame } (by simp only; omega) ?_
      have : K * t.pt.rest.length ≤ K * s.pt.rest.length := Nat.mul_le_mul_left _ (Nat.le_of_lt hl)
      simp only; omega
    | fail t => simp
    | panic m t => simp

/-- Enough fuel, no timeout. -/
theorem eval_term (hG : ∀ r, (G r).nullable nr = true → nr r = true)
    (hC : ∀ r, (G r).need nr c ≤ c r) (hW : ∀ r, (G r).wf nr c K = true) (hK : 1 ≤ K) (n : Nat)
    (e : Ex) (s : St) (he : e.wf nr c K = true)
    (h : K * s.pt.rest.length + e.need nr c ≤ n) : eval o G n e s ≠ .timeout := by
  induction n generalizing e s with
  | zero =>
    have := Ex.need_pos (nr := nr) (c := c) e
    omega
  | succ n ih =>
    simp only [eval]
    split
    · simp
    · have hs : s.pt.rest.length = ({ s with cnt := s.cnt + 1 } : St).pt.rest.length := rfl
      rw [hs] at h
      generalize ({ s with cnt := s.cnt + 1 } : St) = s at h
      have hg := eval_good o G n
      have hc := eval_cons nr o G hG n
      have hiter : s.pt.rest.length ≤ K * s.pt.rest.length := Nat.le_mul_of_pos_left _ hK
      unfold step
      cases e with
      | action a e =>
        simp only [Ex.wf, Ex.need, Bool.and_eq_true, decide_eq_true_eq] at h he ⊢
        have h1 := ih e s he.1 (by omega)
        cases hr : eval o G n e s with
        | timeout => exact absurd hr h1
        | ok v t => simp only; split <;> simp
        | _ => simp
      | andCode c => cases c <;> simp [runCode]
      | any => simp only; split <;> simp
      | cls val inv chars ranges => simp only; split <;> (try split) <;> simp
      | choice alts =>
        simp only [Ex.wf, Ex.need, Bool.and_eq_true, decide_eq_true_eq] at h he ⊢
        exact choiceLoop_term (n := n) hg ih alts s he.1 (by omega)
      | labeled l e =>
        simp only [Ex.wf, Ex.need, Bool.and_eq_true, decide_eq_true_eq] at h he ⊢
        have h1 := ih e { s with frame := [] } he.1 (by simp only; omega)
        cases hr : eval o G n e { s with frame := [] } with
        | timeout => exact absurd hr h1
        | _ => simp
      | lit v =>
        simp only
        generalize litWant v = w
        generalize hp : s.pt = p
        clear hp h hs hiter
        induction v generalizing s with
        | nil => simp [litLoop]
        | cons c cs ihv =>
          simp only [litLoop]
          split
          · exact ihv _ (by simp [Ex.wf] at he ⊢; exact he)
          · simp
      | not e =>
        simp only [Ex.wf, Ex.need, Bool.and_eq_true, decide_eq_true_eq] at h he ⊢
        have h1 := ih e { s with frame := [], mfInv := !s.mfInv } he.1 (by simp only; omega)
        cases hr : eval o G n e { s with frame := [], mfInv := !s.mfInv } with
        | timeout => exact absurd hr h1
        | _ => simp
      | plus e =>
        simp only [Ex.wf, Ex.need, Bool.and_eq_true, decide_eq_true_eq] at h he ⊢
        have h1 := ih e { s with frame := [] } he.1.1 (by simp only; omega)
        have h2 := hc e { s with frame := [] }
        cases hr : eval o G n e { s with frame := [] } with
        | timeout => exact absurd hr h1
        | ok v t =>
          rw [hr] at h2
          rw [he.1.2] at h2
          have hl : t.pt.rest.length < s.pt.rest.length := h2 rfl
          have : K * t.pt.rest.length ≤ K * s.pt.rest.length := Nat.mul_le_mul_left _ (Nat.le_of_lt hl)
          refine starLoop_term (n := n) (K := K) (fun s => ?_) (e.need nr c)
            (fun s hs => ih e s he.1.1 hs) n [v] _ ?_ ?_
          · have := hc e s; rw [he.1.2] at this; exact this
          · simp only; omega
          · simp only; omega
        | _ => simp
      | ref r =>
        simp only [Ex.wf, Ex.need, Bool.and_eq_true, decide_eq_true_eq, evalRule] at h he ⊢
        have := hC r
        have h1 := ih (G r) { s with rstack := r :: s.rstack, frame := [] } (hW r) (by simp only; omega)
        cases hr : eval o G n (G r) { s with rstack := r :: s.rstack, frame := [] } with
        | timeout => exact absurd hr h1
        | _ => simp
      | seq es =>
        simp only [Ex.wf, Ex.need, Bool.and_eq_true, decide_eq_true_eq] at h he ⊢
        exact seqLoop_term (n := n) hg hc ih s es [] s he.1 (by omega)
      | state c => simp
      | star e =>
        simp only [Ex.wf, Ex.need, Bool.and_eq_true, decide_eq_true_eq] at h he ⊢
        refine starLoop_term (n := n) (K := K) (fun s => ?_) (e.need nr c)
            (fun s hs => ih e s he.1.1 hs) n [] s ?_ ?_
        · have := hc e s; rw [he.1.2] at this; exact this
        · omega
        · omega
      | opt e =>
        simp only [Ex.wf, Ex.need, Bool.and_eq_true, decide_eq_true_eq] at h he ⊢
        have h1 := ih e { s with frame := [] } he.1 (by simp only; omega)
        cases hr : eval o G n e { s with frame := [] } with
        | timeout => exact absurd hr h1
        | _ => simp

end
end

/-- No rule of the grammar but `init` can succeed without consuming input. -/
def ruleNullable : Rule → Bool
  | .init => true
  | _ => false

/-- Fuel each rule needs before it consumes anything. -/
def ruleNeed : Rule → Nat
  | .init => 34
  | .config => 25
  | .pluginSection => 20
  | .branchOrPlugin => 24
  | .plugin => 18
  | .attribute => 14
  | .value => 34
  | .array => 14
  | .hash => 30
  | .hashentries => 25
  | .hashentry => 20
  | .branch => 20
  | .ifCond => 14
  | .elseIf => 14
  | .elseCond => 14
  | .condition => 34
  | .expression => 30
  | .negativeExpression => 20
  | .inExpression => 25
  | .notInExpression => 25
  | .rvalue => 20
  | .compareExpression => 25
  | .regexpExpression => 25

theorem gram_nullable (r : Rule) (h : (gram r).nullable ruleNullable = true) : ruleNullable r = true := by
  cases r <;> first | rfl | (exact absurd h (by decide))

theorem gram_need (r : Rule) : (gram r).need ruleNullable ruleNeed ≤ ruleNeed r := by
  cases r <;> decide

theorem gram_wf (r : Rule) : (gram r).wf ruleNullable ruleNeed 60 = true := by
  cases r <;> decide

/-- The evaluation of a rule with enough fuel terminates. -/
theorem eval_gram_term (o : Opts) (n : Nat) (r : Rule) (s : St)
    (h : 60 * s.pt.rest.length + 60 ≤ n) : eval o gram n (gram r) s ≠ .timeout := by
  apply eval_term (nr := ruleNullable) (c := ruleNeed) (K := 60) gram_nullable gram_need gram_wf
    (by decide) n _ s (gram_wf r)
  have := Ex.wf_need (gram_wf r)
  omega

theorem firstRead_fields (o : Opts) (s : St) :
    (s.firstRead o).pt = s.pt.moveTo 0 s.pt.rest ∧ (s.firstRead o).warns = s.warns ∧
    (s.firstRead o).frame = s.frame ∧ (s.firstRead o).rstack = s.rstack ∧
    (s.firstRead o).ff = s.ff ∧ (s.firstRead o).cnt = s.cnt ∧ (s.firstRead o).mfInv = s.mfInv ∧
    (s.firstRead o).mfPos = s.mfPos ∧ (s.firstRead o).mfExp = s.mfExp ∧
    (s.firstRead o).curPos = s.curPos ∧ (s.firstRead o).curText = s.curText := by
  unfold St.firstRead
  simp only
  split <;> simp [St.addErr, St.addErrAt]

theorem Pt.moveTo_rest (p : Pt) (w : Nat) (r : Bytes) : (p.moveTo w r).rest = r := by
  unfold Pt.moveTo; split <;> rfl

theorem firstRead_rest (o : Opts) (s : St) : (s.firstRead o).pt.rest = s.pt.rest := by
  rw [(firstRead_fields o s).1, Pt.moveTo_rest]

/-- The state in which the rule `init` is evaluated. -/
def initSt (o : Opts) (data : Bytes) (ff : List FF) : St :=
  { (St.start data ff).firstRead o with rstack := [.init], frame := [] }

/-- `evalInit` in terms of the evaluation of the expression of `init`. -/
theorem evalInit_eq (fuel : Nat) (o : Opts) (data : Bytes) (ff : List FF) :
    evalInit fuel o data ff = match eval o gram fuel G.init (initSt o data ff) with
    | .ok v s => .ok v { s with rstack := [], frame := [] }
    | .fail s => .fail { s with rstack := [], frame := [] }
    | .panic m s => .panic m s
    | .timeout => .timeout := by
  have h1 : ((St.start data ff).firstRead o).rstack = [] := (firstRead_fields o _).2.2.2.1
  have h2 : ((St.start data ff).firstRead o).frame = [] := (firstRead_fields o _).2.2.1
  unfold evalInit initSt evalRule
  simp only [h1, h2]
  rfl

theorem initSt_rest (o : Opts) (data : Bytes) (ff : List FF) : (initSt o data ff).pt.rest = data :=
  firstRead_rest o _

theorem evalInit_term (fuel : Nat) (o : Opts) (data : Bytes) (ff : List FF)
    (h : parseFuel data ≤ fuel) : evalInit fuel o data ff ≠ .timeout := by
  have : eval o gram fuel G.init (initSt o data ff) ≠ .timeout := by
    refine eval_gram_term o fuel .init _ ?_
    rw [initSt_rest]
    unfold parseFuel at h
    omega
  rw [evalInit_eq]
  cases he : eval o gram fuel G.init (initSt o data ff) with
  | timeout => exact absurd he this
  | _ => simp

theorem evalInit_mono (n m : Nat) (h : n ≤ m) (o : Opts) (data : Bytes) (ff : List FF)
    (hn : evalInit n o data ff ≠ .timeout) : evalInit m o data ff = evalInit n o data ff := by
  rw [evalInit_eq] at hn ⊢
  rw [evalInit_eq]
  rw [eval_mono o gram n m h _ _ (by intro hh; rw [hh] at hn; exact hn rfl)]

end Verif
