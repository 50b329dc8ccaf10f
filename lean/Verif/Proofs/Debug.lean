import Verif.Spec.Trace
import Verif.Proofs.Attempts
/-
`Debug` and `InitState`: they change nothing, and what is printed.
-/
namespace Verif
open Spec Debug

/-! ### They change nothing else -/

section
variable {υ : Type} {E : Env υ}

theorem enter_st (name : Bytes) (m : DSt υ) : (m.enter E name).st = m.st := by unfold DSt.enter; split <;> rfl
theorem leave_st (name : Bytes) (m : DSt υ) : (m.leave E name).st = m.st := by unfold DSt.leave; split <;> rfl
theorem matched_st (p : Pt) (m : DSt υ) : (m.matched E p).st = m.st := by unfold DSt.matched; split <;> rfl
theorem cloned_st (m : DSt υ) : (m.cloned E).st = m.st := by rw [DSt.cloned, leave_st, enter_st]

theorem enter_s (name : Bytes) (m : DSt υ) : (m.enter E name).s = m.s := by unfold DSt.enter; split <;> rfl
theorem enter_dict (name : Bytes) (m : DSt υ) : (m.enter E name).dict = m.dict := by unfold DSt.enter; split <;> rfl
theorem leave_s (name : Bytes) (m : DSt υ) : (m.leave E name).s = m.s := by unfold DSt.leave; split <;> rfl
theorem leave_dict (name : Bytes) (m : DSt υ) : (m.leave E name).dict = m.dict := by unfold DSt.leave; split <;> rfl
theorem cloned_s (m : DSt υ) : (m.cloned E).s = m.s := by rw [DSt.cloned, leave_s, enter_s]
theorem cloned_dict (m : DSt υ) : (m.cloned E).dict = m.dict := by rw [DSt.cloned, leave_dict, enter_dict]

theorem copy_warns (f : υ → υ) (d : Dict υ) : (d.copy f).warns = d.warns := by
  unfold Dict.warns Dict.copy
  cases d warnKey with
  | none => rfl
  | some x => cases x <;> rfl

theorem restore_st (p : Pt) (m : DSt υ) : (m.restore E p).st = { m.st with pt := p } := by
  simp only [DSt.restore, leave_st]
  simp only [DSt.st, enter_s, enter_dict]

theorem restoreState_st (d : Dict υ) (m : DSt υ) : (m.restoreState E d).st = { m.st with warns := d.warns } := by
  simp only [DSt.restoreState, leave_st]
  simp only [DSt.st, enter_s]

theorem vars_st (f : Frame) (m : DSt υ) : (m.vars f).st = { m.st with frame := f } := rfl

theorem block_proj (name : Bytes) {f : DSt υ → DOut υ} {g : St → Out} (h : ∀ m, (f m).out = g m.st) (m : DSt υ) :
    (block E name f m).out = g m.st := by
  unfold block
  have h1 := h (m.enter E name)
  rw [enter_st] at h1
  rw [← h1]
  cases f (m.enter E name) <;> simp only [DOut.out, leave_st]

theorem warns_failAt (s : St) (x : List Bytes) (f : Bool) (p : Pos) (w : Bytes) :
    ({ s with warns := x }).failAt f p w = { s.failAt f p w with warns := x } := by
  unfold St.failAt
  by_cases h1 : (f == s.mfInv) = true
  · by_cases h2 : p.offset < s.mfPos.offset
    · simp only [h1, h2, if_true]
    · by_cases h3 : p.offset > s.mfPos.offset
      · simp only [h1, h2, h3, if_true, if_false]
      · simp only [h1, h2, h3, if_true, if_false]
  · simp only [if_neg h1]

theorem warns_read (s : St) (x : List Bytes) (o : Opts) : ({ s with warns := x }).read o = { s.read o with warns := x } := by
  unfold St.read
  by_cases h1 : (s.pt.next.invalid && !o.allowInvalid) = true
  · simp only [h1, if_true]; rfl
  · simp only [if_neg h1]

theorem st_failAt (m : DSt υ) (f : Bool) (p : Pos) (w : Bytes) :
    ({ m with s := m.s.failAt f p w } : DSt υ).st = m.st.failAt f p w := (warns_failAt m.s m.dict.warns f p w).symm

theorem st_read (m : DSt υ) (o : Opts) : ({ m with s := m.s.read o } : DSt υ).st = m.st.read o :=
  (warns_read m.s m.dict.warns o).symm

theorem litLoopD_proj (want : Bytes) (start : Pt) (cs : Bytes) (m : DSt υ) :
    (litLoopD E want start cs m).out = litLoop E.o want start cs m.st := by
  induction cs generalizing m with
  | nil =>
    simp only [litLoopD, litLoop, DOut.out, st_failAt]
    rw [← st_failAt]; rfl
  | cons c cs ih =>
    simp only [litLoopD, litLoop]
    by_cases h : m.s.pt.rn = c.toNat
    · have h' : m.st.pt.rn = c.toNat := h
      rw [if_pos h, if_pos h', ih, st_read]
    · have h' : ¬ m.st.pt.rn = c.toNat := h
      rw [if_neg h, if_neg h']
      simp only [DOut.out, restore_st, st_failAt]

theorem seqLoopD_proj {ev : Ex → DSt υ → DOut υ} {ev' : Ex → St → Out} (h : ∀ e m, (ev e m).out = ev' e m.st)
    (s0 : St) (d : Dict υ) (hd : d.warns = s0.warns) (es : List Ex) (acc : List Val) (m : DSt υ) :
    (seqLoopD E ev s0.pt d es acc m).out = seqLoop ev' s0 es acc m.st := by
  induction es generalizing acc m with
  | nil => rfl
  | cons e es ih =>
    simp only [seqLoopD, seqLoop]
    have h1 := h e m
    rw [← h1]
    cases ev e m with
    | ok v t => exact ih (acc ++ [v]) t
    | fail t => simp only [DOut.out, restore_st, restoreState_st, hd]
    | _ => rfl

theorem choiceLoopD_proj {ev : Ex → DSt υ → DOut υ} {ev' : Ex → St → Out} (h : ∀ e m, (ev e m).out = ev' e m.st)
    (es : List Ex) (m : DSt υ) : (choiceLoopD E ev es m).out = choiceLoop ev' es m.st := by
  induction es generalizing m with
  | nil => rfl
  | cons e es ih =>
    simp only [choiceLoopD, choiceLoop]
    have h1 := h e ((m.cloned E).vars [])
    rw [vars_st, cloned_st] at h1
    rw [← h1]
    cases ev e ((m.cloned E).vars []) with
    | fail t =>
      rw [ih, restoreState_st, vars_st, copy_warns]
      rfl
    | _ => rfl

theorem starLoopD_proj {ev : DSt υ → DOut υ} {ev' : St → Out} (h : ∀ m, (ev m).out = ev' m.st) (n : Nat) (acc : List Val)
    (m : DSt υ) : (starLoopD ev n acc m).out = starLoop ev' n acc m.st := by
  induction n generalizing acc m with
  | zero => rfl
  | succ n ih =>
    simp only [starLoopD, starLoop]
    have h1 := h (m.vars [])
    rw [vars_st] at h1
    rw [← h1]
    cases ev (m.vars []) with
    | ok v t => exact ih (acc ++ [v]) (t.vars m.s.frame)
    | _ => rfl

theorem evalRuleD_proj {ev : Ex → DSt υ → DOut υ} {ev' : Ex → St → Out} (h : ∀ e m, (ev e m).out = ev' e m.st)
    (r : Rule) (m : DSt υ) : (evalRuleD E ev gram r m).out = evalRule ev' gram r m.st := by
  apply block_proj
  intro m
  simp only [evalRule]
  have h1 := h (gram r) { m with s := { m.s with rstack := r :: m.s.rstack, frame := [] } }
  have h2 : ({ m with s := { m.s with rstack := r :: m.s.rstack, frame := [] } } : DSt υ).st =
      { m.st with rstack := r :: m.st.rstack, frame := [] } := rfl
  rw [h2] at h1
  rw [← h1]
  cases ev (gram r) { m with s := { m.s with rstack := r :: m.s.rstack, frame := [] } } with
  | ok v t => simp only [DOut.out, matched_st]; rfl
  | _ => rfl

theorem runStateD_proj (c : StCode) (m : DSt υ) : (runStateD E c m).st = runState E.o c m.st := by
  cases c with
  | initState =>
    simp only [runStateD, runState]
    cases h : m.dict warnKey with
    | none =>
      simp only [DSt.st]
      have h1 : (m.dict.set warnKey (.warnings [])).warns = m.dict.warns := by
        simp [Dict.warns, Dict.set, h]
      rw [h1]
    | some x => rfl
  | warnComment =>
    simp only [runStateD, runState]
    have h1 : m.st.curText = m.s.curText := rfl
    rw [h1]
    split
    · simp only [DSt.st]
      have h1 : (m.dict.set warnKey (.warnings (m.dict.warns ++ [b!"exceptional comment at " ++ posStr m.s.curPos]))).warns =
          m.dict.warns ++ [b!"exceptional comment at " ++ posStr m.s.curPos] := by
        simp [Dict.warns, Dict.set]
      rw [h1]
    · rfl

theorem bodyD_proj {ev : Ex → DSt υ → DOut υ} {ev' : Ex → St → Out} (h : ∀ e m, (ev e m).out = ev' e m.st)
    (n : Nat) (e : Ex) (m : DSt υ) : (bodyD E gram ev n e m).out = step E.o gram ev' n e m.st := by
  cases e with
  | action a e =>
    simp only [bodyD, step]
    rw [← h e m]
    cases ev e m with
    | ok v t =>
      simp only [DOut.out, cloned_dict]
      have h1 : t.st.frame = t.s.frame := rfl
      have h2 : t.st.warns = t.dict.warns := rfl
      have h3 : t.st.pt = t.s.pt := rfl
      have h4 : m.st.pt = m.s.pt := rfl
      rw [h1, h2, h3, h4]
      cases runAct E.o a t.s.frame m.s.pt.pos (sliceFrom m.s.pt t.s.pt) t.dict.warns with
      | val v =>
        simp only [DOut.out, matched_st, restoreState_st, cloned_st, copy_warns]
        rfl
      | err v x =>
        simp only [DOut.out, matched_st, restoreState_st, copy_warns]
        rfl
      | panic x =>
        simp only [DOut.out, cloned_st]
        rfl
    | _ => rfl
  | andCode c =>
    simp only [bodyD, step, cloned_s]
    have h0 : m.dict.warns = m.st.warns := rfl
    cases c with
    | initParser => simp only [runCode, lift, DOut.out, restoreState_st, copy_warns]; rfl
    | pushError msg => simp only [runCode, lift, DOut.out, restoreState_st, copy_warns]; rfl
    | fatalError msg => simp only [runCode, lift, DOut.out, DSt.st, cloned_dict]; rfl
  | any =>
    simp only [bodyD, step]
    have h1 : m.st.pt = m.s.pt := rfl
    rw [h1]
    split
    · simp only [lift, DOut.out, st_failAt]
    · simp only [lift, DOut.out]
      rw [← st_read, ← st_failAt]; rfl
  | cls val inv chars ranges =>
    simp only [bodyD, step]
    have h1 : m.st.pt = m.s.pt := rfl
    rw [h1]
    split
    · simp only [lift, DOut.out, st_failAt]
    · split
      · simp only [lift, DOut.out]
        rw [← st_read, ← st_failAt]; rfl
      · simp only [lift, DOut.out, st_failAt]
  | lit v => exact litLoopD_proj (litWant v) m.s.pt v m
  | state c => simp only [bodyD, step, DOut.out, runStateD_proj]
  | choice es => exact choiceLoopD_proj h es m
  | labeled l e =>
    simp only [bodyD, step]
    have h1 := h e (m.vars [])
    rw [vars_st] at h1
    rw [← h1]
    cases ev e (m.vars []) <;> rfl
  | not e =>
    simp only [bodyD, step, cloned_s]
    have h1 := h e { m.cloned E with s := { m.s with frame := [], mfInv := !m.s.mfInv } }
    have h2 : ({ m.cloned E with s := { m.s with frame := [], mfInv := !m.s.mfInv } } : DSt υ).st =
        { m.st with frame := [], mfInv := !m.st.mfInv } := by
      simp only [DSt.st, cloned_dict]
    rw [h2] at h1
    rw [← h1]
    cases ev e { m.cloned E with s := { m.s with frame := [], mfInv := !m.s.mfInv } } with
    | ok v t => simp only [DOut.out, restore_st, restoreState_st, copy_warns]; rfl
    | fail t => simp only [DOut.out, restore_st, restoreState_st, copy_warns]; rfl
    | _ => rfl
  | plus e =>
    simp only [bodyD, step]
    have h1 := h e (m.vars [])
    rw [vars_st] at h1
    rw [← h1]
    cases ev e (m.vars []) with
    | ok v t => exact starLoopD_proj (h e) n [v] (t.vars m.s.frame)
    | _ => rfl
  | ref r => exact evalRuleD_proj h r m
  | seq es =>
    have h1 := seqLoopD_proj (E := E) h m.st (m.dict.copy E.clone) (by rw [copy_warns]; rfl) es [] (m.cloned E)
    rw [cloned_st] at h1
    exact h1
  | star e => exact starLoopD_proj (h e) n [] m
  | opt e =>
    simp only [bodyD, step]
    have h1 := h e (m.vars [])
    rw [vars_st] at h1
    rw [← h1]
    cases ev e (m.vars []) <;> rfl

theorem evalD_proj (n : Nat) (e : Ex) (m : DSt υ) : (evalD E gram n e m).out = eval E.o gram n e m.st := by
  induction n generalizing e m with
  | zero => rfl
  | succ n ih =>
    simp only [evalD, eval]
    have h1 : m.st.cnt = m.s.cnt := rfl
    rw [h1]
    split
    · rfl
    · exact block_proj (exName e) (bodyD_proj ih n e) { m with s := { m.s with cnt := m.s.cnt + 1 } }

end

end Verif
