import Verif.Proofs.Depth
import Verif.Proofs.Cost
/-
The depth of the recursion under `MaxExpressions`: every nested call of `parseExpr` counts.
-/
namespace Verif

/-- The counter is at least `c` afterwards. -/
def Up (c : Nat) : Out → Prop
  | .ok _ t => c ≤ t.cnt
  | .fail t => c ≤ t.cnt
  | _ => True

theorem Up.le {a b : Nat} (h : a ≤ b) {r : Out} (hr : Up b r) : Up a r := by
  cases r <;> first | exact Nat.le_trans h hr | trivial

section
variable {ev : Ex → St → Out}

theorem seqLoop_up (h : ∀ e s, Up s.cnt (ev e s)) (s0 : St) (es : List Ex) (acc : List Val) (s : St) :
    Up s.cnt (seqLoop ev s0 es acc s) := by
  induction es generalizing acc s with
  | nil => exact Nat.le_refl _
  | cons e es ih =>
    have he := h e s
    simp only [seqLoop]
    cases hr : ev e s with
    | ok v t => rw [hr] at he; exact (ih _ t).le he
    | fail t => rw [hr] at he; exact he
    | _ => trivial

theorem choiceLoop_up (h : ∀ e s, Up s.cnt (ev e s)) (es : List Ex) (s : St) : Up s.cnt (choiceLoop ev es s) := by
  induction es generalizing s with
  | nil => exact Nat.le_refl _
  | cons e es ih =>
    have he := h e { s with frame := [] }
    simp only [choiceLoop]
    cases hr : ev e { s with frame := [] } with
    | ok v t => rw [hr] at he; exact he
    | fail t =>
      rw [hr] at he
      have := ih ({ t with frame := s.frame, warns := s.warns } : St)
      exact this.le he
    | _ => trivial

theorem starLoop_up (h : ∀ e s, Up s.cnt (ev e s)) (e : Ex) (n : Nat) (acc : List Val) (s : St) :
    Up s.cnt (starLoop (ev e) n acc s) := by
  induction n generalizing acc s with
  | zero => trivial
  | succ n ih =>
    have he := h e { s with frame := [] }
    simp only [starLoop]
    cases hr : ev e { s with frame := [] } with
    | ok v t =>
      rw [hr] at he
      have := ih (acc ++ [v]) ({ t with frame := s.frame } : St)
      exact this.le he
    | fail t => rw [hr] at he; exact he
    | _ => trivial

theorem step_up (o : Opts) (G : Gram) (h : ∀ e s, Up s.cnt (ev e s)) (n : Nat) (e : Ex) (s : St) :
    Up s.cnt (step o G ev n e s) := by
  unfold step
  cases e with
  | action a e =>
    simp only
    have he := h e s
    cases hr : ev e s with
    | ok v t => rw [hr] at he; simp only; split <;> first | exact he | trivial
    | fail t => rw [hr] at he; exact he
    | _ => trivial
  | andCode c => cases c <;> simp [runCode, Up]
  | any =>
    simp only
    split <;> simp only [Up, failAt_cnt, read_cnt] <;> exact Nat.le_refl _
  | cls val inv chars ranges =>
    simp only
    split
    · simp only [Up, failAt_cnt]; exact Nat.le_refl _
    · split <;> simp only [Up, failAt_cnt, read_cnt] <;> exact Nat.le_refl _
  | choice alts => exact choiceLoop_up h alts s
  | labeled l e =>
    simp only
    have he := h e { s with frame := [] }
    cases hr : ev e { s with frame := [] } <;> rw [hr] at he <;> first | exact he | trivial
  | lit v =>
    have := litLoop_cost (o := o) (litWant v) s.pt v s
    simp only
    cases hr : litLoop o (litWant v) s.pt v s with
    | ok w t => rw [hr] at this; exact Nat.le_of_eq this.2.symm
    | fail t => rw [hr] at this; exact Nat.le_of_eq this.2.symm
    | _ => trivial
  | not e =>
    simp only
    have he := h e { s with frame := [], mfInv := !s.mfInv }
    cases hr : ev e { s with frame := [], mfInv := !s.mfInv } <;> rw [hr] at he <;> first | exact he | trivial
  | plus e =>
    simp only
    have he := h e { s with frame := [] }
    cases hr : ev e { s with frame := [] } with
    | ok v t => rw [hr] at he; exact (starLoop_up h e n [v] { t with frame := s.frame }).le he
    | fail t => rw [hr] at he; exact he
    | _ => trivial
  | ref r =>
    simp only [evalRule]
    have he := h (G r) { s with rstack := r :: s.rstack, frame := [] }
    cases hr : ev (G r) { s with rstack := r :: s.rstack, frame := [] } <;> rw [hr] at he <;> first | exact he | trivial
  | seq es => exact seqLoop_up h s es [] s
  | state c =>
    have : (runState o c s).cnt = s.cnt := by
      cases c <;> simp only [runState] <;> first | (split <;> simp) | simp
    simp only [Up, this]
    exact Nat.le_refl _
  | star e => exact starLoop_up h e n [] s
  | opt e =>
    simp only
    have he := h e { s with frame := [] }
    cases hr : ev e { s with frame := [] } <;> rw [hr] at he <;> first | exact he | trivial

end

theorem evalDepth_up (o : Opts) (G : Gram) (L d : Nat) (e : Ex) (s : St) : Up s.cnt (evalDepth o G L d e s) := by
  induction d generalizing e s with
  | zero => trivial
  | succ d ih =>
    simp only [evalDepth]
    split
    · trivial
    · exact (step_up o G ih L e { s with cnt := s.cnt + 1 }).le (Nat.le_succ _)

/-! ### Enough room for the limit -/

section
variable {nr : Rule → Bool} {c : Rule → Nat} {K L b : Nat} {o : Opts} {G : Gram} {ev : Ex → St → Out}

/-- Sub-expressions evaluated with a counter of at least `b` and less than `L` bytes left end. -/
def Ends (nr : Rule → Bool) (c : Rule → Nat) (K L b : Nat) (ev : Ex → St → Out) : Prop :=
  ∀ e s, e.wf nr c K = true → s.pt.rest.length < L → b ≤ s.cnt → ev e s ≠ .timeout

theorem seqLoop_ends (hg : ∀ e s, Good o s (ev e s)) (hu : ∀ e s, Up s.cnt (ev e s)) (hev : Ends nr c K L b ev)
    (s0 : St) (es : List Ex) (acc : List Val) (s : St) (hw : wfAll nr c K es = true) (hL : s.pt.rest.length < L)
    (hb : b ≤ s.cnt) : seqLoop ev s0 es acc s ≠ .timeout := by
  induction es generalizing acc s with
  | nil => simp [seqLoop]
  | cons e es ih =>
    simp only [wfAll, Bool.and_eq_true] at hw
    have h1 := hev e s hw.1 hL hb
    have h2 := hu e s
    have h3 := hg e s
    simp only [seqLoop]
    cases hr : ev e s with
    | timeout => exact absurd hr h1
    | ok v t =>
      rw [hr] at h2 h3
      exact ih _ t hw.2 (Nat.lt_of_le_of_lt h3.length_le hL) (Nat.le_trans hb h2)
    | fail t => simp
    | panic m t => simp

theorem choiceLoop_ends (hg : ∀ e s, Good o s (ev e s)) (hu : ∀ e s, Up s.cnt (ev e s)) (hev : Ends nr c K L b ev)
    (es : List Ex) (s : St) (hw : wfAll nr c K es = true) (hL : s.pt.rest.length < L)
    (hb : b ≤ s.cnt) : choiceLoop ev es s ≠ .timeout := by
  induction es generalizing s with
  | nil => simp [choiceLoop]
  | cons e es ih =>
    simp only [wfAll, Bool.and_eq_true] at hw
    have h1 := hev e { s with frame := [] } hw.1 hL hb
    have h2 := hu e { s with frame := [] }
    have h3 := hg e { s with frame := [] }
    simp only [choiceLoop]
    cases hr : ev e { s with frame := [] } with
    | timeout => exact absurd hr h1
    | ok v t => simp
    | fail t =>
      rw [hr] at h2 h3
      have hp : ({ t with frame := s.frame, warns := s.warns } : St).pt = s.pt := h3.2.1
      apply ih _ hw.2
      · rw [hp]; exact hL
      · exact Nat.le_trans hb h2
    | panic m t => simp

theorem starLoop_ends (hg : ∀ e s, Good o s (ev e s)) (hu : ∀ e s, Up s.cnt (ev e s)) (hev : Ends nr c K L b ev)
    (hc : ∀ e s, Cons (!e.nullable nr) s (ev e s)) (e : Ex) (he : e.wf nr c K = true) (hn : e.nullable nr = false)
    (m : Nat) (acc : List Val) (s : St) (hm : s.pt.rest.length < m) (hL : s.pt.rest.length < L) (hb : b ≤ s.cnt) :
    starLoop (ev e) m acc s ≠ .timeout := by
  induction m generalizing acc s with
  | zero => omega
  | succ m ih =>
    have h1 := hev e { s with frame := [] } he hL hb
    have h2 := hu e { s with frame := [] }
    have h3 := hg e { s with frame := [] }
    have h4 := hc e { s with frame := [] }
    simp only [starLoop]
    cases hr : ev e { s with frame := [] } with
    | timeout => exact absurd hr h1
    | ok v t =>
      rw [hr] at h2 h3 h4
      have hl : t.pt.rest.length < s.pt.rest.length := h4 (by simp [hn])
      exact ih _ { t with frame := s.frame } (by simp only; omega) (by simp only; omega) (Nat.le_trans hb h2)
    | fail t => simp
    | panic m t => simp

theorem step_ends (hg : ∀ e s, Good o s (ev e s)) (hu : ∀ e s, Up s.cnt (ev e s))
    (hc : ∀ e s, Cons (!e.nullable nr) s (ev e s)) (hW : ∀ r, (G r).wf nr c K = true) (hev : Ends nr c K L b ev)
    (e : Ex) (s : St) (he : e.wf nr c K = true) (hL : s.pt.rest.length < L) (hb : b ≤ s.cnt) :
    step o G ev L e s ≠ .timeout := by
  unfold step
  cases e with
  | action a e =>
    simp only [Ex.wf, Bool.and_eq_true] at he ⊢
    have h1 := hev e s he.1 hL hb
    cases hr : ev e s with
    | timeout => exact absurd hr h1
    | ok v t => simp only; split <;> simp
    | _ => simp
  | andCode c => cases c <;> simp [runCode]
  | any => simp only; split <;> simp
  | cls val inv chars ranges => simp only; split <;> (try split) <;> simp
  | choice alts =>
    simp only [Ex.wf, Bool.and_eq_true] at he ⊢
    exact choiceLoop_ends hg hu hev alts s he.1 hL hb
  | labeled l e =>
    simp only [Ex.wf, Bool.and_eq_true] at he ⊢
    have h1 := hev e { s with frame := [] } he.1 hL hb
    cases hr : ev e { s with frame := [] } with
    | timeout => exact absurd hr h1
    | _ => simp
  | lit v =>
    have := litLoop_cost (o := o) (litWant v) s.pt v s
    simp only
    intro hh
    rw [hh] at this
    exact this
  | not e =>
    simp only [Ex.wf, Bool.and_eq_true] at he ⊢
    have h1 := hev e { s with frame := [], mfInv := !s.mfInv } he.1 hL hb
    cases hr : ev e { s with frame := [], mfInv := !s.mfInv } with
    | timeout => exact absurd hr h1
    | _ => simp
  | plus e =>
    simp only [Ex.wf, Bool.and_eq_true, Bool.not_eq_true'] at he ⊢
    have h1 := hev e { s with frame := [] } he.1.1 hL hb
    have h2 := hu e { s with frame := [] }
    have h3 := hg e { s with frame := [] }
    cases hr : ev e { s with frame := [] } with
    | timeout => exact absurd hr h1
    | ok v t =>
      rw [hr] at h2 h3
      have hl : t.pt.rest.length < L := Nat.lt_of_le_of_lt h3.length_le hL
      exact starLoop_ends hg hu hev hc e he.1.1 he.1.2 L [v] { t with frame := s.frame } hl hl (Nat.le_trans hb h2)
    | _ => simp
  | ref r =>
    simp only [evalRule]
    have h1 := hev (G r) { s with rstack := r :: s.rstack, frame := [] } (hW r) hL hb
    cases hr : ev (G r) { s with rstack := r :: s.rstack, frame := [] } with
    | timeout => exact absurd hr h1
    | _ => simp
  | seq es =>
    simp only [Ex.wf, Bool.and_eq_true] at he ⊢
    exact seqLoop_ends hg hu hev s es [] s he.1 hL hb
  | state c => simp
  | star e =>
    simp only [Ex.wf, Bool.and_eq_true, Bool.not_eq_true'] at he ⊢
    exact starLoop_ends hg hu hev hc e he.1.1 he.1.2 L [] s hL hL hb
  | opt e =>
    simp only [Ex.wf, Bool.and_eq_true] at he ⊢
    have h1 := hev e { s with frame := [] } he.1 hL hb
    cases hr : ev e { s with frame := [] } with
    | timeout => exact absurd hr h1
    | _ => simp

theorem evalDepth_ends {m : Nat} (ho : o.maxExpr = some m) (hG : ∀ r, (G r).nullable nr = true → nr r = true)
    (hW : ∀ r, (G r).wf nr c K = true) (d : Nat) (e : Ex) (s : St) (he : e.wf nr c K = true)
    (hL : s.pt.rest.length < L) (hd : 1 ≤ d) (h : m + 1 ≤ d + s.cnt) : evalDepth o G L d e s ≠ .timeout := by
  induction d generalizing e s with
  | zero => omega
  | succ d ih =>
    simp only [evalDepth]
    split
    · simp
    · rename_i hx
      simp only [tooMany, ho, decide_eq_true_eq, Nat.not_lt] at hx
      refine step_ends (b := s.cnt + 1) (evalDepth_good o G L d) (evalDepth_up o G L d) (evalDepth_cons nr o G hG L d) hW ?_
        e { s with cnt := s.cnt + 1 } he hL (Nat.le_refl _)
      intro e t h1 h2 h3
      exact ih e t h1 h2 (by omega) (by omega)

end

theorem parseDepth_limited {o : Opts} {m : Nat} (ho : o.maxExpr = some m) (filename data : Bytes) (ff : List FF) :
    parseDepth (m + 1) o filename data ff = some (parse o filename data ff) := by
  apply parseDepth_some
  refine evalDepth_ends (nr := ruleNullable) (c := ruleNeed) (K := 60) ho gram_nullable gram_wf _ G.init _ (gram_wf .init) ?_
    (by omega) (by omega)
  rw [initSt_rest]
  omega

end Verif
