import Verif.Model.Depth
import Verif.Spec.Depth
import Verif.Proofs.RunIff
import Verif.Proofs.RunLex
/-
The depth of the recursion of the parser: one step of the engine for an arbitrary evaluation of sub-expressions, and the
depth-bounded evaluation against the one of the model.
-/
namespace Verif
open Spec

theorem step_mono {o : Opts} {G : Gram} {ev1 ev2 : Ex → St → Out} (h : ∀ e s, ev1 e s ≠ .timeout → ev2 e s = ev1 e s)
    {n m : Nat} (hm : n ≤ m) (e : Ex) (s : St) (hn : step o G ev1 n e s ≠ .timeout) :
    step o G ev2 m e s = step o G ev1 n e s := by
  unfold step at hn ⊢
  cases e with
  | action a e =>
    simp only at hn ⊢
    cases h1 : ev1 e s with
    | timeout => rw [h1] at hn; exact absurd rfl hn
    | _ => rw [h e s (by simp [h1]), h1]
  | andCode c => rfl
  | any => rfl
  | cls val inv chars ranges => rfl
  | choice alts => exact choiceLoop_mono h alts s hn
  | labeled l e =>
    simp only at hn ⊢
    cases h1 : ev1 e { s with frame := [] } with
    | timeout => rw [h1] at hn; exact absurd rfl hn
    | _ => rw [h e _ (by simp [h1]), h1]
  | lit v => rfl
  | not e =>
    simp only at hn ⊢
    cases h1 : ev1 e { s with frame := [], mfInv := !s.mfInv } with
    | timeout => rw [h1] at hn; exact absurd rfl hn
    | _ => rw [h e _ (by simp [h1]), h1]
  | plus e =>
    simp only at hn ⊢
    cases h1 : ev1 e { s with frame := [] } with
    | timeout => rw [h1] at hn; exact absurd rfl hn
    | ok v t =>
      rw [h1] at hn
      rw [h e _ (by simp [h1]), h1]
      exact starLoop_mono (h e) n m hm _ _ hn
    | _ => rw [h e _ (by simp [h1]), h1]
  | ref r =>
    simp only [evalRule] at hn ⊢
    cases h1 : ev1 (G r) { s with rstack := r :: s.rstack, frame := [] } with
    | timeout => rw [h1] at hn; exact absurd rfl hn
    | _ => rw [h _ _ (by simp [h1]), h1]
  | seq es => exact seqLoop_mono h s es [] s hn
  | state c => rfl
  | star e => exact starLoop_mono (h e) n m hm _ _ hn
  | opt e =>
    simp only at hn ⊢
    cases h1 : ev1 e { s with frame := [] } with
    | timeout => rw [h1] at hn; exact absurd rfl hn
    | _ => rw [h e _ (by simp [h1]), h1]

theorem step_cons (nr : Rule → Bool) {o : Opts} {G : Gram} (hG : ∀ r, (G r).nullable nr = true → nr r = true)
    {ev : Ex → St → Out} (hg : ∀ e s, Good o s (ev e s)) (ih : ∀ e s, Cons (!e.nullable nr) s (ev e s)) (n : Nat)
    (e : Ex) (s : St) : Cons (!e.nullable nr) s (step o G ev n e s) := by
  unfold step
  cases e with
  | action a e =>
    simp only
    have h1 := ih e s
    cases h : ev e s with
    | ok v t =>
      rw [h] at h1
      simp only
      split
      · exact h1
      · exact h1
      · trivial
    | _ => trivial
  | andCode c => cases c <;> simp [runCode, Cons, Ex.nullable]
  | any =>
    simp only
    split
    · trivial
    · rename_i hn
      intro _
      rw [(failAt_fields _ _ _ _).1]
      exact read_length o s (Pt.rest_ne_of_not_atEof hn)
  | cls val inv chars ranges =>
    simp only
    split
    · trivial
    · rename_i hn
      split
      · intro _
        rw [(failAt_fields _ _ _ _).1]
        exact read_length o s (Pt.rest_ne_of_not_atEof hn)
      · trivial
  | choice alts => exact choiceLoop_cons nr hg ih alts s
  | labeled l e =>
    simp only
    have h1 := ih e { s with frame := [] }
    cases h : ev e { s with frame := [] } with
    | ok v t => rw [h] at h1; exact h1
    | _ => trivial
  | lit v => exact litLoop_cons o _ _ _ _
  | not e =>
    simp only
    cases ev e { s with frame := [], mfInv := !s.mfInv } <;> simp [Cons, Ex.nullable]
  | plus e =>
    simp only
    have h1 := ih e { s with frame := [] }
    cases h : ev e { s with frame := [] } with
    | ok v t =>
      rw [h] at h1
      have h2 := (starLoop_good o (ev e) (fun s => hg e s) n [v] { t with frame := s.frame }).1
      simp only
      cases hs : starLoop (ev e) n [v] { t with frame := s.frame } with
      | ok w u =>
        rw [hs] at h2
        exact fun hn => Nat.lt_of_le_of_lt h2.length_le (h1 hn)
      | _ => trivial
    | _ => trivial
  | ref r =>
    simp only [evalRule]
    have h1 := ih (G r) { s with rstack := r :: s.rstack, frame := [] }
    cases h : ev (G r) { s with rstack := r :: s.rstack, frame := [] } with
    | ok v t =>
      rw [h] at h1
      intro hn
      apply h1
      simp only [Ex.nullable, Bool.not_eq_true'] at hn ⊢
      exact Bool.eq_false_iff.2 fun hh => by rw [hG r hh] at hn; cases hn
    | _ => trivial
  | seq es => exact (seqLoop_cons nr hg ih s es [] s).1
  | state c => simp [Cons, Ex.nullable]
  | star e =>
    simp only
    cases starLoop (ev e) n [] s <;> simp [Cons, Ex.nullable]
  | opt e =>
    simp only
    cases ev e { s with frame := [] } <;> simp [Cons, Ex.nullable]

/-- One step of the engine, projected. -/
theorem step_proj {o : Opts} {G : Gram} {ev1 : Ex → St → Out} {ev2 : Ex → Bytes → Frame → Res}
    (hg : ∀ e s, Good o s (ev1 e s))
    (hb : ∀ e s, s.errs ≠ [] → ev1 e s ≠ .timeout → proj (ev1 e s) = .abort)
    (ih : Agree o ev1 ev2) (n : Nat) (e : Ex) (s : St) (he : s.errs = []) (hv : Fine o s.pt.rest)
    (hn : step o G ev1 n e s ≠ .timeout) : proj (step o G ev1 n e s) = stepR o G ev2 n e s.pt.rest (erF s.frame) := by
  have key : ∀ e (t : St), t.errs = s.errs → t.pt = s.pt → t.frame = [] →
      ev1 e t ≠ .timeout → proj (ev1 e t) = ev2 e s.pt.rest [] := by
    intro e t h1 h2 h3 h4
    have := ih e t (by rw [h1, he]) (by rw [h2]; exact hv) h4
    rw [h2, h3] at this
    exact this
  unfold step at hn ⊢
  unfold stepR
  cases e with
  | action a e =>
    simp only at hn ⊢
    have h1 := ih e s he hv
    have h2 := hg e s
    cases hr : ev1 e s with
    | timeout => rw [hr] at hn; exact absurd rfl hn
    | fail t =>
      rw [hr] at h1
      rw [← h1 (by simp)]
      by_cases ht : t.errs = [] <;> simp [proj, ht]
    | panic m t => rw [hr] at h1; rw [← h1 (by simp)]; rfl
    | ok v t =>
      rw [hr] at h1 h2
      rw [← h1 (by simp)]
      simp only
      by_cases ht : t.errs = []
      · simp only [proj, ht, if_true, actR]
        rw [runAct_er o a t.frame s.pt.pos (consumed s.pt.rest t.pt.rest) t.warns,
          ← slice_consumed h2.2.1]
        cases runAct o a t.frame s.pt.pos (sliceFrom s.pt t.pt) t.warns with
        | val v => simp [ht, VMap.act, er, valVMap]
        | err v m => simp [VMap.act, St.addErrAt]
        | panic m => simp [VMap.act]
      · simp only [proj, ht, if_false]
        cases runAct o a t.frame s.pt.pos (sliceFrom s.pt t.pt) t.warns with
        | val v => simp [ht]
        | err v m => simp [St.addErrAt]
        | panic m => rfl
  | andCode c =>
    cases c with
    | initParser => simp [runCode, proj, he]; rfl
    | pushError m => simp [runCode, proj, he]
    | fatalError m => simp [runCode, proj]
  | any =>
    simp only
    by_cases hx : s.pt.rest = []
    · rw [if_pos hx, if_pos ((Pt.atEof_iff _).2 hx)]
      obtain ⟨f1, f2, -⟩ := failAt_fields s false s.pt.pos b!"."
      simp [proj, f2, he]
    · rw [if_neg hx, if_neg (fun h => hx ((Pt.atEof_iff _).1 h))]
      obtain ⟨f1, f2, -, f4, -⟩ := failAt_fields (s.read o) true s.pt.pos b!"."
      obtain ⟨r1, -, r3, -⟩ := read_fields o s
      simp only [proj, f1, f2, f4, r1, r3, hv.read_errs hx, he, if_true,
        slice_consumed (Adv.one hx), er, valMap, Pt.next_rest]
      rfl
  | cls val inv chars ranges =>
    simp only
    by_cases hx : s.pt.rest = []
    · rw [if_pos hx, if_pos ((Pt.atEof_iff _).2 hx)]
      obtain ⟨f1, f2, -⟩ := failAt_fields s false s.pt.pos val
      simp [proj, f2, he]
    · rw [if_neg hx, if_neg (fun h => hx ((Pt.atEof_iff _).1 h))]
      have hrn : s.pt.rn = (decodeRune s.pt.rest).1 := rfl
      rw [hrn]
      split
      · obtain ⟨f1, f2, -, f4, -⟩ := failAt_fields (s.read o) true s.pt.pos val
        obtain ⟨r1, -, r3, -⟩ := read_fields o s
        simp only [proj, f1, f2, f4, r1, r3, hv.read_errs hx, he, if_true,
          slice_consumed (Adv.one hx), er, valMap, Pt.next_rest]
        rfl
      · obtain ⟨f1, f2, -⟩ := failAt_fields s false s.pt.pos val
        simp [proj, f2, he]
  | choice alts => exact choiceLoop_proj hg hb ih alts s he hv hn
  | labeled l e =>
    simp only at hn ⊢
    have h1 := key e { s with frame := [] } rfl rfl rfl
    cases hr : ev1 e { s with frame := [] } with
    | timeout => rw [hr] at hn; exact absurd rfl hn
    | ok v t =>
      rw [hr] at h1; rw [← h1 (by simp)]
      by_cases ht : t.errs = [] <;> simp [proj, ht, erF_cons]
    | fail t =>
      rw [hr] at h1; rw [← h1 (by simp)]
      by_cases ht : t.errs = [] <;> simp [proj, ht]
    | panic m t => rw [hr] at h1; rw [← h1 (by simp)]; rfl
  | lit v => exact litLoop_proj o (litWant v) s.pt v s he hv (.refl _)
  | not e =>
    simp only at hn ⊢
    have h1 := key e { s with frame := [], mfInv := !s.mfInv } rfl rfl rfl
    cases hr : ev1 e { s with frame := [], mfInv := !s.mfInv } with
    | timeout => rw [hr] at hn; exact absurd rfl hn
    | ok v t =>
      rw [hr] at h1; rw [← h1 (by simp)]
      by_cases ht : t.errs = [] <;> simp [proj, ht]
    | fail t =>
      rw [hr] at h1; rw [← h1 (by simp)]
      by_cases ht : t.errs = [] <;> simp [proj, ht]
      rfl
    | panic m t => rw [hr] at h1; rw [← h1 (by simp)]; rfl
  | plus e =>
    simp only at hn ⊢
    have h1 := key e { s with frame := [] } rfl rfl rfl
    have h2 := hg e { s with frame := [] }
    cases hr : ev1 e { s with frame := [] } with
    | timeout => rw [hr] at hn; exact absurd rfl hn
    | ok v t =>
      rw [hr] at h1 h2 hn; rw [← h1 (by simp)]
      simp only at hn ⊢
      by_cases ht : t.errs = []
      · rw [proj_ok1 ht]
        have := starLoop_proj hg hb ih e n [v] { t with frame := s.frame } ht (hv.adv h2.2.1) hn
        simpa using this
      · rw [proj_ok_abort.2 ht]
        exact starLoop_bad (hb e) n _ _ ht hn
    | fail t =>
      rw [hr] at h1; rw [← h1 (by simp)]
      by_cases ht : t.errs = [] <;> simp [proj, ht]
    | panic m t => rw [hr] at h1; rw [← h1 (by simp)]; rfl
  | ref r =>
    simp only [evalRule] at hn ⊢
    have h1 := key (G r) { s with rstack := r :: s.rstack, frame := [] } rfl rfl rfl
    cases hr : ev1 (G r) { s with rstack := r :: s.rstack, frame := [] } with
    | timeout => rw [hr] at hn; exact absurd rfl hn
    | ok v t =>
      rw [hr] at h1; rw [← h1 (by simp)]
      by_cases ht : t.errs = [] <;> simp [proj, ht]
    | fail t =>
      rw [hr] at h1; rw [← h1 (by simp)]
      by_cases ht : t.errs = [] <;> simp [proj, ht]
    | panic m t => rw [hr] at h1; rw [← h1 (by simp)]; rfl
  | seq es => exact seqLoop_proj hg hb ih s es [] s he hv hn
  | state c =>
    obtain ⟨h1, h2, h3⟩ : (runState o c s).pt = s.pt ∧ (runState o c s).errs = s.errs ∧
        (runState o c s).frame = s.frame := by
      cases c <;> simp only [runState] <;> first | (split <;> simp) | simp
    simp [proj, h1, h2, h3, he]; rfl
  | star e => exact starLoop_proj hg hb ih e n [] s he hv hn
  | opt e =>
    simp only at hn ⊢
    have h1 := key e { s with frame := [] } rfl rfl rfl
    have h2 := hg e { s with frame := [] }
    cases hr : ev1 e { s with frame := [] } with
    | timeout => rw [hr] at hn; exact absurd rfl hn
    | ok v t =>
      rw [hr] at h1; rw [← h1 (by simp)]
      by_cases ht : t.errs = [] <;> simp [proj, ht]
    | fail t =>
      rw [hr] at h1 h2; rw [← h1 (by simp)]
      have hp : t.pt = s.pt := h2.2.1
      by_cases ht : t.errs = [] <;> simp [proj, ht, hp]
      rfl
    | panic m t => rw [hr] at h1; rw [← h1 (by simp)]; rfl


/-! ### The depth-bounded evaluation -/

theorem evalDepth_good (o : Opts) (G : Gram) (L d : Nat) (e : Ex) (s : St) : Good o s (evalDepth o G L d e s) := by
  induction d generalizing e s with
  | zero => trivial
  | succ d ih =>
    rw [evalDepth]
    split
    · exact ⟨[], by simp⟩
    · exact (step_good o G _ ih L e _).cnt

theorem evalDepth_mono (o : Opts) (G : Gram) (L d d' : Nat) (h : d ≤ d') (e : Ex) (s : St)
    (hn : evalDepth o G L d e s ≠ .timeout) : evalDepth o G L d' e s = evalDepth o G L d e s := by
  induction d generalizing e s d' with
  | zero => exact absurd rfl hn
  | succ d ih =>
    obtain ⟨d', rfl⟩ : ∃ k, d' = k + 1 := ⟨d' - 1, by omega⟩
    simp only [evalDepth] at hn ⊢
    split
    · rfl
    · rename_i hc
      rw [if_neg hc] at hn
      exact step_mono (fun e s h => ih d' (by omega) e s h) (Nat.le_refl _) e _ hn

/-- Within the bounds the evaluation is that of the model. -/
theorem evalDepth_eval (o : Opts) (G : Gram) (L d n : Nat) (h : L + d ≤ n) (e : Ex) (s : St)
    (hn : evalDepth o G L d e s ≠ .timeout) : eval o G n e s = evalDepth o G L d e s := by
  induction d generalizing e s n with
  | zero => exact absurd rfl hn
  | succ d ih =>
    obtain ⟨n, rfl⟩ : ∃ k, n = k + 1 := ⟨n - 1, by omega⟩
    simp only [evalDepth, eval] at hn ⊢
    split
    · rfl
    · rename_i hc
      rw [if_neg hc] at hn
      exact step_mono (fun e s h => ih n (by omega) e s h) (by omega) e _ hn

theorem evalDepth_cons (nr : Rule → Bool) (o : Opts) (G : Gram) (hG : ∀ r, (G r).nullable nr = true → nr r = true)
    (L d : Nat) (e : Ex) (s : St) : Cons (!e.nullable nr) s (evalDepth o G L d e s) := by
  induction d generalizing e s with
  | zero => trivial
  | succ d ih =>
    simp only [evalDepth]
    split
    · trivial
    · have := step_cons nr hG (evalDepth_good o G L d) ih L e { s with cnt := s.cnt + 1 }
      cases h : step o G (evalDepth o G L d) L e { s with cnt := s.cnt + 1 } with
      | ok v t => rw [h] at this; exact this
      | _ => trivial

/-! ### Which expressions consume an opening bracket -/

theorem openers_suffix {a b : Bytes} (h : a <:+ b) : openers a ≤ openers b := by
  obtain ⟨c, rfl⟩ := h
  simp [openers]

theorem Adv.openers_le {f : Bool} {p q : Pt} (h : Adv f p q) : openers q.rest ≤ openers p.rest := by
  obtain ⟨h1, h2, h3⟩ := h.offset_le
  rw [h3]
  exact openers_suffix (List.drop_suffix _ _)

theorem Good.openers_le {o : Opts} {s t : St} {v : Val} (h : Good o s (.ok v t)) :
    openers t.pt.rest ≤ openers s.pt.rest := h.2.1.openers_le

section
variable (nr : Rule → Bool)

mutual
/-- Can the expression succeed without consuming an opening bracket (conservatively)? -/
def Ex.shut : Ex → Bool
  | .action _ e => e.shut
  | .choice l => shutAny l
  | .labeled _ e => e.shut
  | .lit v => decide (openers v = 0)
  | .plus e => e.shut
  | .ref r => nr r
  | .seq l => shutAll l
  | _ => true
def shutAny : List Ex → Bool
  | [] => false
  | e :: l => e.shut || shutAny l
def shutAll : List Ex → Bool
  | [] => true
  | e :: l => e.shut && shutAll l
end

/-- The outcome has consumed an opening bracket if it is a success and `b` is set. -/
def Opens (b : Bool) (s : St) : Out → Prop
  | .ok _ t => b = true → openers t.pt.rest < openers s.pt.rest
  | _ => True


theorem rune_byte {b : Bytes} {c : UInt8} (hc : c < 128) (h : (decodeRune b).1 = c.toNat) : ∃ r, b = c :: r ∧ nextB b = r := by
  cases b with
  | nil =>
    exfalso
    have : c.toNat < 128 := hc
    rw [← h] at this
    exact absurd this (by decide)
  | cons d t =>
    obtain ⟨x, y, h1, h2, h3, h4, ⟨hd, -, -, hr⟩ | ⟨-, hr⟩⟩ := rune_step d t
    · rw [hr] at h
      have : d = c := UInt8.toNat_inj.1 h
      subst this
      exact ⟨t, rfl, nextB_ascii hc⟩
    · rw [h] at hr
      have : c.toNat < 128 := hc
      omega

theorem litLoop_opens (o : Opts) (want : Bytes) (start : Pt) (cs : Bytes) (s : St) :
    (∀ v t, litLoop o want start cs s = .ok v t → openers t.pt.rest + openers cs ≤ openers s.pt.rest) := by
  induction cs generalizing s with
  | nil =>
    intro v t h
    simp only [litLoop] at h
    injection h with _ h
    rw [← h, (failAt_fields _ _ _ _).1]; exact Nat.le_refl _
  | cons c cs ih =>
    intro v t h
    simp only [litLoop] at h
    split at h
    · rename_i hc
      have h2 := ih (s.read o) v t h
      rw [(read_fields o s).1] at h2
      have hn : openers s.pt.next.rest + openers [c] ≤ openers s.pt.rest := by
        by_cases ho : openers [c] = 0
        · rw [ho, Pt.next_rest]
          exact openers_suffix (List.drop_suffix _ _)
        · have hc128 : c < 128 := by
            simp only [openers, List.countP_singleton] at ho
            have : c = 123 ∨ c = 91 ∨ c = 40 := by
              false_or_by_contra
              rename_i hx
              simp [hx] at ho
            rcases this with rfl | rfl | rfl <;> decide
          obtain ⟨r, h3, h4⟩ := rune_byte hc128 hc
          have h5 : s.pt.next.rest = r := by rw [Pt.next_rest]; exact h4
          rw [h5, h3, show c :: r = [c] ++ r from rfl]
          unfold openers
          rw [List.countP_append]
          omega
      have : openers (c :: cs) = openers [c] + openers cs := by
        rw [show c :: cs = [c] ++ cs from rfl]; unfold openers; rw [List.countP_append]
      omega
    · cases h

theorem seqLoop_opens {o : Opts} {ev : Ex → St → Out} (hg : ∀ e s, Good o s (ev e s))
    (hev : ∀ e s, Opens (!e.shut nr) s (ev e s)) (s0 : St) (es : List Ex) (acc : List Val) (s : St) :
    Opens (!shutAll nr es) s (seqLoop ev s0 es acc s) ∧
      (∀ v t, seqLoop ev s0 es acc s = .ok v t → openers t.pt.rest ≤ openers s.pt.rest) := by
  induction es generalizing acc s with
  | nil =>
    refine ⟨by simp [seqLoop, Opens, shutAll], fun v t h => ?_⟩
    injection h with _ h; rw [h]; exact Nat.le_refl _
  | cons e es ih =>
    have h1 := hev e s
    have h2 := hg e s
    simp only [seqLoop]
    cases h : ev e s with
    | ok v t =>
      rw [h] at h1 h2
      have hl := h2.openers_le
      obtain ⟨i1, i2⟩ := ih (acc ++ [v]) t
      refine ⟨?_, fun w u hu => Nat.le_trans (i2 w u hu) hl⟩
      simp only
      cases hs : seqLoop ev s0 es (acc ++ [v]) t with
      | ok w u =>
        intro hn
        simp only [shutAll, Bool.not_and, Bool.or_eq_true] at hn
        rw [hs] at i1
        rcases hn with hn | hn
        · exact Nat.lt_of_le_of_lt (i2 w u hs) (h1 hn)
        · exact Nat.lt_of_lt_of_le (i1 hn) hl
      | _ => trivial
    | _ => exact ⟨trivial, by simp⟩

theorem choiceLoop_opens {o : Opts} {ev : Ex → St → Out} (hg : ∀ e s, Good o s (ev e s))
    (hev : ∀ e s, Opens (!e.shut nr) s (ev e s)) (es : List Ex) (s : St) :
    Opens (!shutAny nr es) s (choiceLoop ev es s) := by
  induction es generalizing s with
  | nil => trivial
  | cons e es ih =>
    have h1 := hev e { s with frame := [] }
    have h2 := hg e { s with frame := [] }
    simp only [choiceLoop]
    cases h : ev e { s with frame := [] } with
    | ok v t =>
      rw [h] at h1
      intro hn
      simp only [shutAny, Bool.not_or, Bool.and_eq_true] at hn
      exact h1 hn.1
    | fail t =>
      rw [h] at h2
      have := ih { t with frame := s.frame, warns := s.warns }
      simp only
      cases hc : choiceLoop ev es { t with frame := s.frame, warns := s.warns } with
      | ok w u =>
        rw [hc] at this
        intro hn
        simp only [shutAny, Bool.not_or, Bool.and_eq_true] at hn
        have h3 := this hn.2
        simp only [h2.2.1] at h3
        exact h3
      | _ => trivial
    | _ => trivial

theorem step_opens (nr : Rule → Bool) {o : Opts} {G : Gram} (hG : ∀ r, (G r).shut nr = true → nr r = true)
    {ev : Ex → St → Out} (hg : ∀ e s, Good o s (ev e s)) (ih : ∀ e s, Opens (!e.shut nr) s (ev e s)) (n : Nat)
    (e : Ex) (s : St) : Opens (!e.shut nr) s (step o G ev n e s) := by
  unfold step
  cases e with
  | action a e =>
    simp only
    have h1 := ih e s
    cases h : ev e s with
    | ok v t =>
      rw [h] at h1
      simp only
      split
      · exact h1
      · exact h1
      · trivial
    | _ => trivial
  | andCode c => cases c <;> simp [runCode, Opens, Ex.shut]
  | any =>
    simp only
    split
    · trivial
    · intro h; cases h
  | cls val inv chars ranges =>
    simp only
    split
    · trivial
    · split
      · intro h; cases h
      · trivial
  | choice alts => exact choiceLoop_opens nr hg ih alts s
  | labeled l e =>
    simp only
    have h1 := ih e { s with frame := [] }
    cases h : ev e { s with frame := [] } with
    | ok v t => rw [h] at h1; exact h1
    | _ => trivial
  | lit v =>
    simp only
    have := litLoop_opens o (litWant v) s.pt v s
    cases h : litLoop o (litWant v) s.pt v s with
    | ok w t =>
      intro hv
      have := this w t h
      simp only [Ex.shut, Bool.not_eq_true', decide_eq_false_iff_not] at hv
      omega
    | _ => trivial
  | not e =>
    simp only
    cases ev e { s with frame := [], mfInv := !s.mfInv } <;> simp [Opens, Ex.shut]
  | plus e =>
    simp only
    have h1 := ih e { s with frame := [] }
    cases h : ev e { s with frame := [] } with
    | ok v t =>
      rw [h] at h1
      have h2 := (starLoop_good o (ev e) (fun s => hg e s) n [v] { t with frame := s.frame }).1
      simp only
      cases hs : starLoop (ev e) n [v] { t with frame := s.frame } with
      | ok w u =>
        rw [hs] at h2
        exact fun hn => Nat.lt_of_le_of_lt h2.openers_le (h1 hn)
      | _ => trivial
    | _ => trivial
  | ref r =>
    simp only [evalRule]
    have h1 := ih (G r) { s with rstack := r :: s.rstack, frame := [] }
    cases h : ev (G r) { s with rstack := r :: s.rstack, frame := [] } with
    | ok v t =>
      rw [h] at h1
      intro hn
      apply h1
      simp only [Ex.shut, Bool.not_eq_true'] at hn ⊢
      exact Bool.eq_false_iff.2 fun hh => by rw [hG r hh] at hn; cases hn
    | _ => trivial
  | seq es => exact (seqLoop_opens nr hg ih s es [] s).1
  | state c => simp [Opens, Ex.shut]
  | star e =>
    simp only
    cases starLoop (ev e) n [] s <;> simp [Opens, Ex.shut]
  | opt e =>
    simp only
    cases ev e { s with frame := [] } <;> simp [Opens, Ex.shut]


theorem evalDepth_opens (o : Opts) (G : Gram) (hG : ∀ r, (G r).shut nr = true → nr r = true)
    (L d : Nat) (e : Ex) (s : St) : Opens (!e.shut nr) s (evalDepth o G L d e s) := by
  induction d generalizing e s with
  | zero => trivial
  | succ d ih =>
    simp only [evalDepth]
    split
    · trivial
    · have := step_opens nr hG (evalDepth_good o G L d) ih L e { s with cnt := s.cnt + 1 }
      cases h : step o G (evalDepth o G L d) L e { s with cnt := s.cnt + 1 } with
      | ok v t => rw [h] at this; exact this
      | _ => trivial

variable (nz : Rule → Bool) (c : Rule → Nat)

mutual
/-- Fuel needed by an expression before it consumes anything; `c` bounds the rules. -/
def Ex.deep : Ex → Nat
  | .action _ e => e.deep + 1
  | .andCode _ => 1
  | .any => 1
  | .cls _ _ _ _ => 1
  | .choice l => deepMax l + 1
  | .labeled _ e => e.deep + 1
  | .lit _ => 1
  | .not e => e.deep + 1
  | .plus e => e.deep + 2
  | .ref r => c r + 1
  | .seq l => deepSeq l + 1
  | .state _ => 1
  | .star e => e.deep + 2
  | .opt e => e.deep + 1
def deepMax : List Ex → Nat
  | [] => 0
  | e :: l => max e.deep (deepMax l)
/-- The elements up to the first one that consumes. -/
def deepSeq : List Ex → Nat
  | [] => 0
  | e :: l => if e.shut nr then max e.deep (deepSeq l) else e.deep
end

mutual
/-- All sub-expressions deep at most `K`, and repetitions only repeat consuming expressions. -/
def Ex.wd (K : Nat) : Ex → Bool
  | .action _ e => e.wd K && decide (e.deep nr c + 1 ≤ K)
  | .andCode _ => decide (1 ≤ K)
  | .any => decide (1 ≤ K)
  | .cls _ _ _ _ => decide (1 ≤ K)
  | .choice l => wdAll K l && decide (deepMax nr c l + 1 ≤ K)
  | .labeled _ e => e.wd K && decide (e.deep nr c + 1 ≤ K)
  | .lit _ => decide (1 ≤ K)
  | .not e => e.wd K && decide (e.deep nr c + 1 ≤ K)
  | .plus e => e.wd K && !e.nullable nz && decide (e.deep nr c + 2 ≤ K)
  | .ref r => decide (c r + 1 ≤ K)
  | .seq l => wdAll K l && decide (deepSeq nr c l + 1 ≤ K)
  | .state _ => decide (1 ≤ K)
  | .star e => e.wd K && !e.nullable nz && decide (e.deep nr c + 2 ≤ K)
  | .opt e => e.wd K && decide (e.deep nr c + 1 ≤ K)
def wdAll (K : Nat) : List Ex → Bool
  | [] => true
  | e :: l => e.wd K && wdAll K l
end

variable {nr nz c}

theorem Ex.wd_deep {K : Nat} {e : Ex} (h : e.wd nr nz c K = true) : e.deep nr c ≤ K := by
  cases e <;> simp only [Ex.wd, Ex.deep, Bool.and_eq_true, decide_eq_true_eq] at h ⊢ <;> first
    | exact h
    | exact h.2

theorem wdAll_deepSeq {K : Nat} {es : List Ex} (h : wdAll nr nz c K es = true) :
    deepSeq nr c es ≤ K := by
  induction es with
  | nil => exact Nat.zero_le _
  | cons e es ih =>
    simp only [wdAll, Bool.and_eq_true] at h
    simp only [deepSeq]
    split
    · exact Nat.max_le.2 ⟨Ex.wd_deep h.1, ih h.2⟩
    · exact Ex.wd_deep h.1

theorem Ex.deep_pos (e : Ex) : 1 ≤ e.deep nr c := by
  cases e <;> simp only [Ex.deep] <;> omega

section
variable {o : Opts} {G : Gram} {K n L : Nat}

theorem seqLoop_depth {ev : Ex → St → Out} (hg : ∀ e s, Good o s (ev e s))
    (hc : ∀ e s, Opens (!e.shut nr) s (ev e s))
    (hev : ∀ e s, e.wd nr nz c K = true → K * openers s.pt.rest + e.deep nr c ≤ n → s.pt.rest.length < L → ev e s ≠ .timeout)
    (s0 : St) (es : List Ex) (acc : List Val) (s : St) (hw : wdAll nr nz c K es = true)
    (hL : s.pt.rest.length < L) (h : K * openers s.pt.rest + deepSeq nr c es ≤ n) : seqLoop ev s0 es acc s ≠ .timeout := by
  induction es generalizing acc s with
  | nil => simp [seqLoop]
  | cons e es ih =>
    simp only [wdAll, Bool.and_eq_true] at hw
    simp only [deepSeq] at h
    have hne : K * openers s.pt.rest + e.deep nr c ≤ n := by
      split at h
      · have := Nat.le_max_left (e.deep nr c) (deepSeq nr c es); omega
      · exact h
    have h1 := hev e s hw.1 hne hL
    have h2 := hc e s
    have h3 := hg e s
    simp only [seqLoop]
    cases hr : ev e s with
    | timeout => exact absurd hr h1
    | ok v t =>
      rw [hr] at h2 h3
      have hl := h3.openers_le
      apply ih _ t hw.2 (Nat.lt_of_le_of_lt h3.length_le hL)
      by_cases hlt : openers t.pt.rest < openers s.pt.rest
      · have hn := wdAll_deepSeq hw.2
        have : K * (openers t.pt.rest + 1) ≤ K * openers s.pt.rest := Nat.mul_le_mul_left _ hlt
        rw [Nat.mul_add] at this
        have := Ex.deep_pos (nr := nr) (c := c) e
        omega
      · have heq : openers t.pt.rest = openers s.pt.rest := by omega
        split at h
        · rw [heq]
          have := Nat.le_max_right (e.deep nr c) (deepSeq nr c es); omega
        · rename_i hnn
          exact absurd (h2 (by simp [hnn])) hlt
    | fail t => simp
    | panic m t => simp

theorem choiceLoop_depth {ev : Ex → St → Out} (hg : ∀ e s, Good o s (ev e s))
    (hev : ∀ e s, e.wd nr nz c K = true → K * openers s.pt.rest + e.deep nr c ≤ n → s.pt.rest.length < L → ev e s ≠ .timeout)
    (es : List Ex) (s : St) (hw : wdAll nr nz c K es = true)
    (hL : s.pt.rest.length < L) (h : K * openers s.pt.rest + deepMax nr c es ≤ n) : choiceLoop ev es s ≠ .timeout := by
  induction es generalizing s with
  | nil => simp [choiceLoop]
  | cons e es ih =>
    simp only [wdAll, Bool.and_eq_true] at hw
    simp only [deepMax] at h
    have hm1 := Nat.le_max_left (e.deep nr c) (deepMax nr c es)
    have hm2 := Nat.le_max_right (e.deep nr c) (deepMax nr c es)
    have h1 := hev e { s with frame := [] } hw.1 (by simp only; omega) hL
    have h3 := hg e { s with frame := [] }
    simp only [choiceLoop]
    cases hr : ev e { s with frame := [] } with
    | timeout => exact absurd hr h1
    | ok v t => simp
    | fail t =>
      rw [hr] at h3
      have : ({ t with frame := s.frame, warns := s.warns } : St).pt = s.pt := h3.2.1
      apply ih _ hw.2
      · rw [this]; exact hL
      · rw [this]; omega
    | panic m t => simp

theorem starLoop_depth {ev : St → Out} (hg : ∀ s, Good o s (ev s))
    (hc : ∀ s, Cons true s (ev s)) (a : Nat)
    (hev : ∀ s, K * openers s.pt.rest + a ≤ n → s.pt.rest.length < L → ev s ≠ .timeout)
    (m : Nat) (acc : List Val) (s : St) (hm : s.pt.rest.length < m) (hL : s.pt.rest.length < L)
    (h : K * openers s.pt.rest + a ≤ n) : starLoop ev m acc s ≠ .timeout := by
  induction m generalizing acc s with
  | zero => omega
  | succ m ih =>
    have h1 := hev { s with frame := [] } h hL
    have h2 := hc { s with frame := [] }
    have h3 := hg { s with frame := [] }
    simp only [starLoop]
    cases hr : ev { s with frame := [] } with
    | timeout => exact absurd hr h1
    | ok v t =>
      rw [hr] at h2 h3
      have hl : t.pt.rest.length < s.pt.rest.length := h2 rfl
      refine ih _ { t with frame := s.frame } (by simp only; omega) (by simp only; omega) ?_
      have : K * openers t.pt.rest ≤ K * openers s.pt.rest := Nat.mul_le_mul_left _ h3.openers_le
      simp only; omega
    | fail t => simp
    | panic m t => simp

/-- Enough room, no timeout. -/
theorem evalDepth_term (hG : ∀ r, (G r).nullable nz = true → nz r = true) (hS : ∀ r, (G r).shut nr = true → nr r = true)
    (hC : ∀ r, (G r).deep nr c ≤ c r) (hW : ∀ r, (G r).wd nr nz c K = true) (d : Nat)
    (e : Ex) (s : St) (he : e.wd nr nz c K = true) (hL : s.pt.rest.length < L)
    (h : K * openers s.pt.rest + e.deep nr c ≤ d) : evalDepth o G L d e s ≠ .timeout := by
  induction d generalizing e s with
  | zero =>
    have := Ex.deep_pos (nr := nr) (c := c) e
    omega
  | succ n ih =>
    simp only [evalDepth]
    split
    · simp
    · have hs : s.pt = ({ s with cnt := s.cnt + 1 } : St).pt := rfl
      rw [hs] at h hL
      generalize ({ s with cnt := s.cnt + 1 } : St) = s at h hL
      clear hs
      have hg := evalDepth_good o G L n
      have hc := evalDepth_cons nz o G hG L n
      have ho := evalDepth_opens nr o G hS L n
      have ih' : ∀ e s, e.wd nr nz c K = true → K * openers s.pt.rest + e.deep nr c ≤ n → s.pt.rest.length < L →
        evalDepth o G L n e s ≠ .timeout := fun e s h1 h2 h3 => ih e s h1 h3 h2
      unfold step
      cases e with
      | action a e =>
        simp only [Ex.wd, Ex.deep, Bool.and_eq_true, decide_eq_true_eq] at h he ⊢
        have h1 := ih' e s he.1 (by omega) hL
        cases hr : evalDepth o G L n e s with
        | timeout => exact absurd hr h1
        | ok v t => simp only; split <;> simp
        | _ => simp
      | andCode c => cases c <;> simp [runCode]
      | any => simp only; split <;> simp
      | cls val inv chars ranges => simp only; split <;> (try split) <;> simp
      | choice alts =>
        simp only [Ex.wd, Ex.deep, Bool.and_eq_true, decide_eq_true_eq] at h he ⊢
        exact choiceLoop_depth (n := n) hg ih' alts s he.1 hL (by omega)
      | labeled l e =>
        simp only [Ex.wd, Ex.deep, Bool.and_eq_true, decide_eq_true_eq] at h he ⊢
        have h1 := ih' e { s with frame := [] } he.1 (by simp only; omega) hL
        cases hr : evalDepth o G L n e { s with frame := [] } with
        | timeout => exact absurd hr h1
        | _ => simp
      | lit v =>
        simp only
        generalize litWant v = w
        generalize hp : s.pt = p
        clear hp h hL
        induction v generalizing s with
        | nil => simp [litLoop]
        | cons c cs ihv =>
          simp only [litLoop]
          split
          · exact ihv _ (by simp [Ex.wd] at he ⊢; exact he)
          · simp
      | not e =>
        simp only [Ex.wd, Ex.deep, Bool.and_eq_true, decide_eq_true_eq] at h he ⊢
        have h1 := ih' e { s with frame := [], mfInv := !s.mfInv } he.1 (by simp only; omega) hL
        cases hr : evalDepth o G L n e { s with frame := [], mfInv := !s.mfInv } with
        | timeout => exact absurd hr h1
        | _ => simp
      | plus e =>
        simp only [Ex.wd, Ex.deep, Bool.and_eq_true, decide_eq_true_eq] at h he ⊢
        have h1 := ih' e { s with frame := [] } he.1.1 (by simp only; omega) hL
        have h2 := hg e { s with frame := [] }
        cases hr : evalDepth o G L n e { s with frame := [] } with
        | timeout => exact absurd hr h1
        | ok v t =>
          rw [hr] at h2
          have hl : t.pt.rest.length ≤ s.pt.rest.length := h2.length_le
          have : K * openers t.pt.rest ≤ K * openers s.pt.rest := Nat.mul_le_mul_left _ h2.openers_le
          refine starLoop_depth (n := n) (K := K) (L := L) (hg e) (fun s => ?_) (e.deep nr c)
            (fun s hs hl => ih' e s he.1.1 hs hl) L [v] _ ?_ ?_ ?_
          · have := hc e s; rw [he.1.2] at this; exact this
          · simp only; omega
          · simp only; omega
          · simp only; omega
        | _ => simp
      | ref r =>
        simp only [Ex.wd, Ex.deep, Bool.and_eq_true, decide_eq_true_eq, evalRule] at h he ⊢
        have := hC r
        have h1 := ih' (G r) { s with rstack := r :: s.rstack, frame := [] } (hW r) (by simp only; omega) hL
        cases hr : evalDepth o G L n (G r) { s with rstack := r :: s.rstack, frame := [] } with
        | timeout => exact absurd hr h1
        | _ => simp
      | seq es =>
        simp only [Ex.wd, Ex.deep, Bool.and_eq_true, decide_eq_true_eq] at h he ⊢
        exact seqLoop_depth (n := n) hg ho ih' s es [] s he.1 hL (by omega)
      | state c => simp
      | star e =>
        simp only [Ex.wd, Ex.deep, Bool.and_eq_true, decide_eq_true_eq] at h he ⊢
        refine starLoop_depth (n := n) (K := K) (L := L) (hg e) (fun s => ?_) (e.deep nr c)
            (fun s hs hl => ih' e s he.1.1 hs hl) L [] s hL hL ?_
        · have := hc e s; rw [he.1.2] at this; exact this
        · omega
      | opt e =>
        simp only [Ex.wd, Ex.deep, Bool.and_eq_true, decide_eq_true_eq] at h he ⊢
        have h1 := ih' e { s with frame := [] } he.1 (by simp only; omega) hL
        cases hr : evalDepth o G L n e { s with frame := [] } with
        | timeout => exact absurd hr h1
        | _ => simp

end
end

/-! ### The grammar -/

/-- No rule but these can succeed without consuming an opening bracket. -/
def ruleShut : Rule → Bool
  | .init | .attribute | .value | .hashentry | .hashentries | .condition | .expression | .negativeExpression
  | .inExpression | .notInExpression | .rvalue | .compareExpression | .regexpExpression => true
  | _ => false

theorem gram_shut (r : Rule) (h : (gram r).shut ruleShut = true) : ruleShut r = true := by
  cases r <;> first | rfl | (exact absurd h (by decide))

/-- Calls needed by the rules before an opening bracket is consumed. -/
def ruleDeep : Rule → Nat
  | .init => 27
  | .config => 19
  | .pluginSection => 15
  | .branchOrPlugin => 39
  | .plugin => 19
  | .attribute => 25
  | .value => 21
  | .array => 3
  | .hash => 3
  | .hashentries => 34
  | .hashentry => 25
  | .branch => 37
  | .ifCond => 33
  | .elseIf => 33
  | .elseCond => 15
  | .condition => 29
  | .expression => 20
  | .negativeExpression => 16
  | .inExpression => 18
  | .notInExpression => 18
  | .rvalue => 14
  | .compareExpression => 18
  | .regexpExpression => 18

theorem gram_deep (r : Rule) : (gram r).deep ruleShut ruleDeep ≤ ruleDeep r := by
  cases r <;> decide

theorem gram_wd (r : Rule) : (gram r).wd ruleShut ruleNullable ruleDeep 46 = true := by
  cases r <;> decide

theorem evalDepth_gram (o : Opts) (L d : Nat) (r : Rule) (s : St) (hL : s.pt.rest.length < L)
    (h : 46 * openers s.pt.rest + ruleDeep r ≤ d) : evalDepth o gram L d (gram r) s ≠ .timeout := by
  refine evalDepth_term (nr := ruleShut) (nz := ruleNullable) (c := ruleDeep) (K := 46) gram_nullable gram_shut gram_deep
    gram_wd d (gram r) s (gram_wd r) hL ?_
  have := gram_deep r
  omega

/-! ### The whole parse -/

theorem parseDepth_eq (d : Nat) (o : Opts) (filename data : Bytes) (ff : List FF) :
    parseDepth d o filename data ff = match evalDepth o gram (data.length + 1) d G.init (initSt o data ff) with
    | .ok v s => some (finish filename (.ok v { s with rstack := [], frame := [] }))
    | .fail s => some (finish filename (.fail { s with rstack := [], frame := [] }))
    | .panic m s => some (finish filename (.panic m s))
    | .timeout => none := by
  have h1 : ((St.start data ff).firstRead o).rstack = [] := (firstRead_fields o _).2.2.2.1
  have h2 : ((St.start data ff).firstRead o).frame = [] := (firstRead_fields o _).2.2.1
  unfold parseDepth initSt evalRule
  simp only [h1, h2]
  rw [show G.init = gram .init from rfl]
  cases hx : evalDepth o gram (data.length + 1) d (gram .init)
    { ((St.start data ff).firstRead o) with rstack := [.init], frame := [] } <;> simp only [hx] <;> rfl

/-- When the depth is enough, the result is that of the model. -/
theorem parseDepth_some {d : Nat} {o : Opts} {filename data : Bytes} {ff : List FF}
    (h : evalDepth o gram (data.length + 1) d G.init (initSt o data ff) ≠ .timeout) :
    parseDepth d o filename data ff = some (parse o filename data ff) := by
  rw [parseDepth_eq, parse_finish]
  have h1 := evalDepth_eval o gram (data.length + 1) d (data.length + 1 + d + parseFuel data) (by omega) _ _ h
  have h2 := evalInit_mono (parseFuel data) (data.length + 1 + d + parseFuel data) (by omega) o data ff
    (evalInit_term _ o data ff (Nat.le_refl _))
  rw [← h2, evalInit_eq, h1]
  cases hr : evalDepth o gram (data.length + 1) d G.init (initSt o data ff) with
  | timeout => exact absurd hr h
  | _ => rfl

theorem parseDepth_enough (d : Nat) (o : Opts) (filename data : Bytes) (ff : List FF)
    (h : 46 * openers data + 27 ≤ d) : parseDepth d o filename data ff = some (parse o filename data ff) := by
  apply parseDepth_some
  apply evalDepth_gram o _ d .init
  · rw [initSt_rest]; omega
  · rw [initSt_rest]; exact h

theorem parseDepth_mono {d d' : Nat} (h : d ≤ d') {o : Opts} {filename data : Bytes} {ff : List FF}
    {r : ParseRes × List FF} (hr : parseDepth d o filename data ff = some r) :
    parseDepth d' o filename data ff = some r := by
  have hn : evalDepth o gram (data.length + 1) d G.init (initSt o data ff) ≠ .timeout := by
    intro hh
    rw [parseDepth_eq, hh] at hr
    cases hr
  rw [parseDepth_some hn] at hr
  rw [parseDepth_some (by rw [evalDepth_mono o gram _ d d' h _ _ hn]; exact hn)]
  exact hr

end Verif
