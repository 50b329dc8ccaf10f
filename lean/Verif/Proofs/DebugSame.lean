import Verif.Proofs.Debug
/-
Without `Debug(true)` nothing is printed; what is printed does not depend on `InitState`.
-/
namespace Verif
open Spec Debug

section
variable {υ : Type} {E : Env υ}

/-- Nothing is printed. -/
def Mute (m : DSt υ) : DOut υ → Prop
  | .ok _ t => t.out = m.out
  | .fail t => t.out = m.out
  | .panic _ t => t.out = m.out
  | .timeout => True

theorem mute_trans {m t : DSt υ} {r : DOut υ} (h1 : t.out = m.out) (h2 : Mute t r) : Mute m r := by
  cases r <;> first | exact h2.trans h1 | trivial

theorem enter_mute (h : E.dbg = false) (name : Bytes) (m : DSt υ) : m.enter E name = m := by unfold DSt.enter; rw [h]; rfl
theorem leave_mute (h : E.dbg = false) (name : Bytes) (m : DSt υ) : m.leave E name = m := by unfold DSt.leave; rw [h]; rfl
theorem matched_mute (h : E.dbg = false) (p : Pt) (m : DSt υ) : m.matched E p = m := by unfold DSt.matched; rw [h]; rfl
theorem cloned_mute (h : E.dbg = false) (m : DSt υ) : m.cloned E = m := by rw [DSt.cloned, leave_mute h, enter_mute h]
theorem restoreState_mute (h : E.dbg = false) (d : Dict υ) (m : DSt υ) : (m.restoreState E d).out = m.out := by
  simp only [DSt.restoreState, leave_mute h, enter_mute h]
theorem restore_mute (h : E.dbg = false) (p : Pt) (m : DSt υ) : (m.restore E p).out = m.out := by
  simp only [DSt.restore, leave_mute h, enter_mute h]

theorem block_mute (h : E.dbg = false) (name : Bytes) {f : DSt υ → DOut υ} {m : DSt υ} (hf : Mute m (f m)) :
    Mute m (block E name f m) := by
  unfold block
  rw [enter_mute h]
  cases hr : f m with
  | timeout => trivial
  | _ => rw [hr] at hf; show DSt.out (DSt.leave E _ _) = _; rw [leave_mute h]; exact hf

theorem rule_mute (hE : E.dbg = false) {ev : Ex → DSt υ → DOut υ} (ih : ∀ e m, Mute m (ev e m)) (r : Rule) (m : DSt υ) :
    Mute m (evalRuleD E ev gram r m) := by
  refine block_mute hE _ ?_
  have h1 : Mute m (ev (gram r) { m with s := { m.s with rstack := r :: m.s.rstack, frame := [] } }) :=
    ih (gram r) { m with s := { m.s with rstack := r :: m.s.rstack, frame := [] } }
  simp only
  cases hr : ev (gram r) { m with s := { m.s with rstack := r :: m.s.rstack, frame := [] } } with
  | ok v t =>
    rw [hr] at h1
    show (DSt.matched E _ _).out = m.out
    rw [matched_mute hE]; exact h1
  | fail t => rw [hr] at h1; exact h1
  | panic x t => rw [hr] at h1; exact h1
  | timeout => trivial

theorem evalD_mute (hE : E.dbg = false) (n : Nat) (e : Ex) (m : DSt υ) : Mute m (evalD E gram n e m) := by
  induction n generalizing e m with
  | zero => trivial
  | succ n ih =>
    have hstar : ∀ (e : Ex) (k : Nat) (acc : List Val) (m : DSt υ), Mute m (starLoopD (evalD E gram n e) k acc m) := by
      intro e k
      induction k with
      | zero => intro acc m; trivial
      | succ k ihk =>
        intro acc m
        simp only [starLoopD]
        have h1 : Mute m (evalD E gram n e (m.vars [])) := ih e (m.vars [])
        cases hr : evalD E gram n e (m.vars []) with
        | ok v t => rw [hr] at h1; exact mute_trans (t := t.vars m.s.frame) h1 (ihk _ _)
        | fail t => rw [hr] at h1; exact h1
        | panic x t => rw [hr] at h1; exact h1
        | timeout => trivial
    simp only [evalD]
    split
    · rfl
    refine mute_trans (t := { m with s := { m.s with cnt := m.s.cnt + 1 } }) rfl (block_mute hE _ ?_)
    generalize ({ m with s := { m.s with cnt := m.s.cnt + 1 } } : DSt υ) = m
    have hv : ∀ (e : Ex), Mute m (evalD E gram n e (m.vars [])) := fun e => ih e (m.vars [])
    cases e with
    | action a e =>
      simp only [bodyD]
      have h1 := ih e m
      cases hr : evalD E gram n e m with
      | ok v t =>
        rw [hr] at h1
        simp only [cloned_mute hE]
        split
        · show (DSt.matched E _ _).out = m.out
          rw [matched_mute hE, restoreState_mute hE]; exact h1
        · show (DSt.matched E _ _).out = m.out
          rw [matched_mute hE, restoreState_mute hE]; exact h1
        · exact h1
      | fail t => rw [hr] at h1; exact h1
      | panic x t => rw [hr] at h1; exact h1
      | timeout => trivial
    | andCode c =>
      simp only [bodyD, cloned_mute hE]
      cases c <;> simp only [runCode, Debug.lift, Mute, restoreState_mute hE]
    | any => simp only [bodyD, step]; split <;> rfl
    | cls val inv chars ranges =>
      simp only [bodyD, step]
      split
      · rfl
      · split <;> rfl
    | lit v =>
      simp only [bodyD]
      have : ∀ (w : Bytes) (p : Pt) (cs : Bytes) (m : DSt υ), Mute m (litLoopD E w p cs m) := by
        intro w p cs
        induction cs with
        | nil => intro m; rfl
        | cons c cs ihc =>
          intro m
          simp only [litLoopD]
          split
          · exact mute_trans (t := { m with s := m.s.read E.o }) rfl (ihc _)
          · simp only [Mute, restore_mute hE]
      exact this _ _ _ _
    | state c =>
      cases c with
      | initState => simp only [bodyD, runStateD]; cases m.dict warnKey <;> rfl
      | warnComment => simp only [bodyD, runStateD]; split <;> rfl
    | choice es =>
      simp only [bodyD]
      clear hv
      induction es generalizing m with
      | nil => rfl
      | cons e es ihe =>
        simp only [choiceLoopD, cloned_mute hE]
        have h1 : Mute m (evalD E gram n e (m.vars [])) := ih e (m.vars [])
        cases hr : evalD E gram n e (m.vars []) with
        | fail t =>
          rw [hr] at h1
          exact mute_trans (t := (t.vars m.s.frame).restoreState E (m.dict.copy E.clone)) ((restoreState_mute hE _ _).trans h1) (ihe _)
        | ok v t => rw [hr] at h1; exact h1
        | panic x t => rw [hr] at h1; exact h1
        | timeout => trivial
    | labeled l e =>
      simp only [bodyD]
      have h1 := hv e
      cases hr : evalD E gram n e (m.vars []) <;> rw [hr] at h1 <;> exact h1
    | not e =>
      simp only [bodyD, cloned_mute hE]
      have h1 : Mute m (evalD E gram n e { m with s := { m.s with frame := [], mfInv := !m.s.mfInv } }) :=
        ih e { m with s := { m.s with frame := [], mfInv := !m.s.mfInv } }
      cases hr : evalD E gram n e { m with s := { m.s with frame := [], mfInv := !m.s.mfInv } } with
      | ok v t => rw [hr] at h1; simp only [Mute, restore_mute hE, restoreState_mute hE]; exact h1
      | fail t => rw [hr] at h1; simp only [Mute, restore_mute hE, restoreState_mute hE]; exact h1
      | panic x t => rw [hr] at h1; exact h1
      | timeout => trivial
    | plus e =>
      simp only [bodyD]
      have h1 := hv e
      cases hr : evalD E gram n e (m.vars []) with
      | ok v t => rw [hr] at h1; exact mute_trans (t := t.vars m.s.frame) h1 (hstar _ _ _ _)
      | fail t => rw [hr] at h1; exact h1
      | panic x t => rw [hr] at h1; exact h1
      | timeout => trivial
    | ref r => exact rule_mute hE ih r m
    | seq es =>
      simp only [bodyD, cloned_mute hE]
      have : ∀ (p : Pt) (d : Dict υ) (acc : List Val) (m : DSt υ), Mute m (seqLoopD E (evalD E gram n) p d es acc m) := by
        intro p d
        induction es with
        | nil => intro acc m; rfl
        | cons e es ihe =>
          intro acc m
          simp only [seqLoopD]
          have h1 := ih e m
          cases hr : evalD E gram n e m with
          | ok v t => rw [hr] at h1; exact mute_trans h1 (ihe _ _)
          | fail t => rw [hr] at h1; simp only [Mute, restore_mute hE, restoreState_mute hE]; exact h1
          | panic x t => rw [hr] at h1; exact h1
          | timeout => trivial
      exact this _ _ _ _
    | star e => exact hstar _ _ _ _
    | opt e =>
      simp only [bodyD]
      have h1 := hv e
      cases hr : evalD E gram n e (m.vars []) <;> rw [hr] at h1 <;> exact h1

end

/-! ### Two dictionaries -/

section
variable {υ υ' : Type} {E : Env υ} {E' : Env υ'}

theorem set_warns {τ : Type} (d : Dict τ) (w : List Bytes) : (d.set warnKey (.warnings w)).warns = w := by
  simp [Dict.warns, Dict.set]

/-- The same up to the values of the caller in the dictionary. -/
inductive Kin : DSt υ → DSt υ' → Prop
  | mk (s : St) (d : Dict υ) (d' : Dict υ') (k : Nat) (l : List Line) : d.warns = d'.warns → Kin ⟨s, d, k, l⟩ ⟨s, d', k, l⟩

/-- The same outcome up to the values of the caller in the dictionary. -/
inductive KinOut : DOut υ → DOut υ' → Prop
  | ok (v : Val) {t : DSt υ} {t' : DSt υ'} : Kin t t' → KinOut (.ok v t) (.ok v t')
  | fail {t : DSt υ} {t' : DSt υ'} : Kin t t' → KinOut (.fail t) (.fail t')
  | panic (x : Bytes) {t : DSt υ} {t' : DSt υ'} : Kin t t' → KinOut (.panic x t) (.panic x t')
  | timeout : KinOut .timeout .timeout

theorem Kin.s_eq {m : DSt υ} {m' : DSt υ'} (h : Kin m m') : m'.s = m.s := by cases h; rfl
theorem Kin.warns_eq {m : DSt υ} {m' : DSt υ'} (h : Kin m m') : m'.dict.warns = m.dict.warns := by
  cases h; symm; assumption

theorem Kin.setS {m : DSt υ} {m' : DSt υ'} (h : Kin m m') (f : St → St) :
    Kin { m with s := f m.s } { m' with s := f m'.s } := by cases h; exact .mk _ _ _ _ _ (by assumption)

theorem Kin.setDict {m : DSt υ} {m' : DSt υ'} (h : Kin m m') {d : Dict υ} {d' : Dict υ'} (hd : d.warns = d'.warns) :
    Kin { m with dict := d } { m' with dict := d' } := by cases h; exact .mk _ _ _ _ _ hd

theorem Kin.enter (hb : E.dbg = E'.dbg) {m : DSt υ} {m' : DSt υ'} (h : Kin m m') (name : Bytes) :
    Kin (m.enter E name) (m'.enter E' name) := by
  cases h
  unfold DSt.enter
  rw [← hb]
  cases E.dbg <;> exact .mk _ _ _ _ _ (by assumption)

theorem Kin.leave (hb : E.dbg = E'.dbg) {m : DSt υ} {m' : DSt υ'} (h : Kin m m') (name : Bytes) :
    Kin (m.leave E name) (m'.leave E' name) := by
  cases h
  unfold DSt.leave
  rw [← hb]
  cases E.dbg <;> exact .mk _ _ _ _ _ (by assumption)

theorem Kin.matched (hb : E.dbg = E'.dbg) {m : DSt υ} {m' : DSt υ'} (h : Kin m m') (p : Pt) :
    Kin (m.matched E p) (m'.matched E' p) := by
  cases h
  unfold DSt.matched
  rw [← hb]
  cases E.dbg <;> exact .mk _ _ _ _ _ (by assumption)

theorem Kin.cloned (hb : E.dbg = E'.dbg) {m : DSt υ} {m' : DSt υ'} (h : Kin m m') : Kin (m.cloned E) (m'.cloned E') :=
  (h.enter hb _).leave hb _

theorem Kin.restore (hb : E.dbg = E'.dbg) {m : DSt υ} {m' : DSt υ'} (h : Kin m m') (p : Pt) :
    Kin (m.restore E p) (m'.restore E' p) :=
  ((h.enter hb _).setS fun s => { s with pt := p }).leave hb _

theorem Kin.restoreState (hb : E.dbg = E'.dbg) {m : DSt υ} {m' : DSt υ'} (h : Kin m m') {d : Dict υ} {d' : Dict υ'}
    (hd : d.warns = d'.warns) : Kin (m.restoreState E d) (m'.restoreState E' d') :=
  ((h.enter hb _).setDict hd).leave hb _

theorem Kin.copy {m : DSt υ} {m' : DSt υ'} (h : Kin m m') : (m.dict.copy E.clone).warns = (m'.dict.copy E'.clone).warns := by
  rw [copy_warns, copy_warns, h.warns_eq]

theorem Kin.vars {m : DSt υ} {m' : DSt υ'} (h : Kin m m') (f : Frame) : Kin (m.vars f) (m'.vars f) :=
  h.setS fun s => { s with frame := f }

theorem kin_lift {m : DSt υ} {m' : DSt υ'} (h : Kin m m') (r : Out) : KinOut (Debug.lift m r) (Debug.lift m' r) := by
  cases r with
  | timeout => exact .timeout
  | ok v s => exact .ok v (h.setS fun _ => s)
  | fail s => exact .fail (h.setS fun _ => s)
  | panic x s => exact .panic x (h.setS fun _ => s)

theorem kin_block (hb : E.dbg = E'.dbg) (name : Bytes) {f : DSt υ → DOut υ} {f' : DSt υ' → DOut υ'}
    (hf : ∀ m m', Kin m m' → KinOut (f m) (f' m')) {m : DSt υ} {m' : DSt υ'} (h : Kin m m') :
    KinOut (block E name f m) (block E' name f' m') := by
  unfold block
  have h1 := hf _ _ (h.enter (E := E) (E' := E') hb name)
  revert h1
  generalize f (m.enter E name) = r
  generalize f' (m'.enter E' name) = r'
  intro h1
  cases h1 with
  | ok v h => exact .ok v (h.leave hb name)
  | fail h => exact .fail (h.leave hb name)
  | panic x h => exact .panic x (h.leave hb name)
  | timeout => exact .timeout

theorem kin_rule (hb : E.dbg = E'.dbg) {ev : Ex → DSt υ → DOut υ} {ev' : Ex → DSt υ' → DOut υ'}
    (hev : ∀ e m m', Kin m m' → KinOut (ev e m) (ev' e m')) (r : Rule) {m : DSt υ} {m' : DSt υ'} (h : Kin m m') :
    KinOut (evalRuleD E ev gram r m) (evalRuleD E' ev' gram r m') := by
  refine kin_block hb _ ?_ h
  intro m m' h
  have hs := h.s_eq
  have h1 := hev (gram r) _ _ (h.setS fun s => { s with rstack := r :: s.rstack, frame := [] })
  simp only
  revert h1
  generalize ev (gram r) { m with s := { m.s with rstack := r :: m.s.rstack, frame := [] } } = x
  generalize ev' (gram r) { m' with s := { m'.s with rstack := r :: m'.s.rstack, frame := [] } } = x'
  intro h1
  cases h1 with
  | ok v h =>
    rw [hs]
    exact .ok v (Kin.matched hb (h.setS fun s => { s with rstack := m.s.rstack, frame := m.s.frame }) _)
  | fail h => rw [hs]; exact .fail (h.setS fun s => { s with rstack := m.s.rstack, frame := m.s.frame })
  | panic x h => exact .panic x h
  | timeout => exact .timeout

theorem kin_eval (hb : E.dbg = E'.dbg) (ho : E.o = E'.o) (n : Nat) (e : Ex) (m : DSt υ) (m' : DSt υ') (h : Kin m m') :
    KinOut (evalD E gram n e m) (evalD E' gram n e m') := by
  induction n generalizing e m m' with
  | zero => exact .timeout
  | succ n ih =>
    have hstar : ∀ (e : Ex) (k : Nat) (acc : List Val) (m : DSt υ) (m' : DSt υ'), Kin m m' →
        KinOut (starLoopD (evalD E gram n e) k acc m) (starLoopD (evalD E' gram n e) k acc m') := by
      intro e k
      induction k with
      | zero => intro acc m m' h; exact .timeout
      | succ k ihk =>
        intro acc m m' h
        have hs := h.s_eq
        simp only [starLoopD]
        have h1 := ih e _ _ (h.vars [])
        revert h1
        generalize evalD E gram n e (m.vars []) = r
        generalize evalD E' gram n e (m'.vars []) = r'
        intro h1
        cases h1 with
        | ok v h => rw [hs]; exact ihk _ _ _ (h.vars _)
        | fail h => rw [hs]; exact .ok _ (h.vars _)
        | panic x h => exact .panic x h
        | timeout => exact .timeout
    simp only [evalD]
    have hs0 := h.s_eq
    rw [ho, hs0]
    split
    · have := h.setS fun s => { s with cnt := s.cnt + 1 }
      rw [hs0] at this
      exact .panic _ this
    have hm : Kin ({ m with s := { m.s with cnt := m.s.cnt + 1 } }) ({ m' with s := { m.s with cnt := m.s.cnt + 1 } }) := by
      have := h.setS fun s => { s with cnt := s.cnt + 1 }
      rw [hs0] at this
      exact this
    refine kin_block hb _ ?_ hm
    clear hm hs0 h
    intro m m' h
    have hs := h.s_eq
    cases e with
    | action a e =>
      simp only [bodyD]
      have h1 := ih e _ _ h
      revert h1
      generalize evalD E gram n e m = r
      generalize evalD E' gram n e m' = r'
      intro h1
      cases h1 with
      | @ok v t t' h1 =>
        simp only [cloned_dict]
        have ht := h1.s_eq
        rw [h1.warns_eq, ht, hs, ho]
        have h2 : Kin (DSt.cloned E { t with s := { t.s with curPos := m.s.pt.pos, curText := sliceFrom m.s.pt t.s.pt } })
            (DSt.cloned E' { t' with s := { t.s with curPos := m.s.pt.pos, curText := sliceFrom m.s.pt t.s.pt } }) := by
          refine Kin.cloned hb ?_
          have := h1.setS fun s => { s with curPos := m.s.pt.pos, curText := sliceFrom m.s.pt s.pt }
          rw [ht] at this
          exact this
        cases runAct E'.o a t.s.frame m.s.pt.pos (sliceFrom m.s.pt t.s.pt) t.dict.warns with
        | val v => exact .ok v ((h2.restoreState hb h1.copy).matched hb _)
        | err v x =>
          refine .ok v (Kin.matched hb (Kin.restoreState hb ?_ h1.copy) _)
          have h4 := h2.setS fun _ =>
            St.addErrAt { t.s with curPos := m.s.pt.pos, curText := sliceFrom m.s.pt t.s.pt } x m.s.pt.pos
          simp only [cloned_dict] at h4
          exact h4
        | panic x => exact .panic x h2
      | fail h1 => exact .fail h1
      | panic x h1 => exact .panic x h1
      | timeout => exact .timeout
    | andCode c =>
      simp only [bodyD, cloned_s]
      rw [hs]
      have h1 := kin_lift (h.cloned (E := E) (E' := E') hb) (runCode c m.s)
      revert h1
      generalize Debug.lift (DSt.cloned E m) (runCode c m.s) = r
      generalize Debug.lift (DSt.cloned E' m') (runCode c m.s) = r'
      intro h1
      cases h1 with
      | ok v h1 => exact .ok v (h1.restoreState hb h.copy)
      | fail h1 => exact .fail (h1.restoreState hb h.copy)
      | panic x h1 => exact .panic x h1
      | timeout => exact .timeout
    | any => simp only [bodyD]; rw [hs, ho]; exact kin_lift h _
    | cls val inv chars ranges => simp only [bodyD]; rw [hs, ho]; exact kin_lift h _
    | lit v =>
      simp only [bodyD]
      rw [hs]
      have : ∀ (w : Bytes) (p : Pt) (cs : Bytes) (m : DSt υ) (m' : DSt υ'), Kin m m' →
          KinOut (litLoopD E w p cs m) (litLoopD E' w p cs m') := by
        intro w p cs
        induction cs with
        | nil =>
          intro m m' h
          simp only [litLoopD]
          rw [h.s_eq]
          exact .ok _ (h.setS fun _ => m.s.failAt true p.pos w)
        | cons c cs ihc =>
          intro m m' h
          simp only [litLoopD]
          rw [h.s_eq, ho]
          split
          · exact ihc _ _ (h.setS fun _ => m.s.read E'.o)
          · exact .fail ((h.setS fun _ => m.s.failAt false p.pos w).restore hb p)
      exact this _ _ _ _ _ h
    | state c =>
      simp only [bodyD]
      refine .ok _ ?_
      cases c with
      | initState =>
        have key : ∀ {τ : Type} (F : Env τ) (m : DSt τ), ∃ d : Dict τ, runStateD F .initState m = { m with dict := d } ∧
            d.warns = m.dict.warns := by
          intro τ F m
          simp only [runStateD]
          cases hk : m.dict warnKey with
          | none => exact ⟨_, rfl, by simp [Dict.warns, Dict.set, hk]⟩
          | some x => exact ⟨m.dict, rfl, rfl⟩
        obtain ⟨d, h1, h2⟩ := key E m
        obtain ⟨d', h1', h2'⟩ := key E' m'
        rw [h1, h1']
        exact h.setDict (by rw [h2, h2', h.warns_eq])
      | warnComment =>
        clear hs
        cases h with
        | mk s d d' k l hw =>
          simp only [runStateD]
          rw [ho, hw]
          split
          · exact .mk _ _ _ _ _ (by rw [set_warns, set_warns])
          · exact .mk _ _ _ _ _ hw
    | choice es =>
      simp only [bodyD]
      clear hs
      induction es generalizing m m' with
      | nil => exact .fail h
      | cons e es ihe =>
        simp only [choiceLoopD]
        have h1 := ih e _ _ ((h.cloned (E := E) (E' := E') hb).vars [])
        rw [h.s_eq]
        revert h1
        generalize evalD E gram n e ((DSt.cloned E m).vars []) = r
        generalize evalD E' gram n e ((DSt.cloned E' m').vars []) = r'
        intro h1
        cases h1 with
        | ok v h1 => exact .ok v (h1.vars _)
        | fail h1 => exact ihe _ _ ((h1.vars _).restoreState hb h.copy)
        | panic x h1 => exact .panic x h1
        | timeout => exact .timeout
    | labeled l e =>
      simp only [bodyD]
      have h1 := ih e _ _ (h.vars [])
      rw [hs]
      revert h1
      generalize evalD E gram n e (m.vars []) = r
      generalize evalD E' gram n e (m'.vars []) = r'
      intro h1
      cases h1 with
      | ok v h1 => exact .ok v (h1.vars _)
      | fail h1 => exact .fail (h1.vars _)
      | panic x h1 => exact .panic x h1
      | timeout => exact .timeout
    | not e =>
      simp only [bodyD, cloned_s]
      have h1 := ih e _ _ ((h.cloned (E := E) (E' := E') hb).setS fun s => { s with frame := [], mfInv := !s.mfInv })
      simp only [cloned_s] at h1
      rw [hs] at h1 ⊢
      revert h1
      generalize evalD E gram n e { DSt.cloned E m with s := { m.s with frame := [], mfInv := !m.s.mfInv } } = r
      generalize evalD E' gram n e { DSt.cloned E' m' with s := { m.s with frame := [], mfInv := !m.s.mfInv } } = r'
      intro h1
      cases h1 with
      | ok v h1 =>
        exact .fail (((h1.setS fun s => { s with frame := m.s.frame, mfInv := m.s.mfInv }).restoreState hb h.copy).restore hb _)
      | fail h1 =>
        exact .ok _ (((h1.setS fun s => { s with frame := m.s.frame, mfInv := m.s.mfInv }).restoreState hb h.copy).restore hb _)
      | panic x h1 => exact .panic x h1
      | timeout => exact .timeout
    | plus e =>
      simp only [bodyD]
      have h1 := ih e _ _ (h.vars [])
      rw [hs]
      revert h1
      generalize evalD E gram n e (m.vars []) = r
      generalize evalD E' gram n e (m'.vars []) = r'
      intro h1
      cases h1 with
      | ok v h1 => exact hstar _ _ _ _ _ (h1.vars _)
      | fail h1 => exact .fail (h1.vars _)
      | panic x h1 => exact .panic x h1
      | timeout => exact .timeout
    | ref r => exact kin_rule hb (fun e m m' h => ih e m m' h) r h
    | seq es =>
      simp only [bodyD]
      rw [hs]
      have : ∀ (p : Pt) (d : Dict υ) (d' : Dict υ'), d.warns = d'.warns → ∀ (acc : List Val) (m : DSt υ) (m' : DSt υ'), Kin m m' →
          KinOut (seqLoopD E (evalD E gram n) p d es acc m) (seqLoopD E' (evalD E' gram n) p d' es acc m') := by
        intro p d d' hd
        induction es with
        | nil => intro acc m m' h; exact .ok _ h
        | cons e es ihe =>
          intro acc m m' h
          simp only [seqLoopD]
          have h1 := ih e _ _ h
          revert h1
          generalize evalD E gram n e m = r
          generalize evalD E' gram n e m' = r'
          intro h1
          cases h1 with
          | ok v h => exact ihe _ _ _ h
          | fail h => exact .fail ((h.restoreState hb hd).restore hb p)
          | panic x h => exact .panic x h
          | timeout => exact .timeout
      exact this _ _ _ h.copy _ _ _ (h.cloned hb)
    | star e => exact hstar _ _ _ _ _ h
    | opt e =>
      simp only [bodyD]
      have h1 := ih e _ _ (h.vars [])
      rw [hs]
      revert h1
      generalize evalD E gram n e (m.vars []) = r
      generalize evalD E' gram n e (m'.vars []) = r'
      intro h1
      cases h1 with
      | ok v h1 => exact .ok v (h1.vars _)
      | fail h1 => exact .ok _ (h1.vars _)
      | panic x h1 => exact .panic x h1
      | timeout => exact .timeout

end
end Verif
