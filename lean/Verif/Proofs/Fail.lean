import Verif.Proofs.Sim
/-
What a run does to the failure list, and which messages it can produce.
-/
namespace Verif

/-! ### The failure list -/

/-- The effect of a run on the failure list: an optional reset, then a list of pushes. -/
structure FFun where
  reset : Bool
  pushes : List FF

/-- Apply an effect. -/
def FFun.apply (k : FFun) (f : List FF) : List FF :=
  k.pushes.foldl pushFF (if k.reset then [] else f)

/-- Two effects in a row. -/
def FFun.comp (k1 k2 : FFun) : FFun :=
  if k2.reset then k2 else ⟨k1.reset, k1.pushes ++ k2.pushes⟩

theorem FFun.comp_apply (k1 k2 : FFun) (f : List FF) :
    (k1.comp k2).apply f = k2.apply (k1.apply f) := by
  unfold FFun.comp FFun.apply
  cases h : k2.reset <;> simp [h, List.foldl_append]

/-- No effect. -/
def FFun.id : FFun := ⟨false, []⟩

theorem FFun.id_apply (f : List FF) : FFun.id.apply f = f := rfl

/-- Replace the failure list of an outcome. -/
def Out.setFF (f : List FF) : Out → Out
  | .ok v s => .ok v { s with ff := f }
  | .fail s => .fail { s with ff := f }
  | .panic m s => .panic m { s with ff := f }
  | .timeout => .timeout

/-- Evaluating has one and the same effect on the failure list whatever that list contains,
and nothing else depends on the list. -/
def FFOk (ev : St → Out) : Prop :=
  ∀ s, ∃ k : FFun, ∀ f, ev { s with ff := f } = (ev s).setFF (k.apply f)

theorem FFOk.const (ev : St → Out) (s : St)
    (h : ∀ f, ev { s with ff := f } = (ev s).setFF f) :
    ∃ k : FFun, ∀ f, ev { s with ff := f } = (ev s).setFF (k.apply f) :=
  ⟨FFun.id, h⟩

theorem read_ff (o : Opts) (s : St) (f : List FF) :
    St.read o { s with ff := f } = { s.read o with ff := f } := by
  simp only [St.read]
  split <;> rfl

theorem failAt_ff (s : St) (f : List FF) (b : Bool) (p : Pos) (w : Bytes) :
    St.failAt { s with ff := f } b p w = { s.failAt b p w with ff := f } := by
  simp only [St.failAt]
  by_cases h1 : b = s.mfInv
  · simp only [h1]
    by_cases h2 : p.offset < s.mfPos.offset
    · simp [h2]
    · simp only [h2]
      by_cases h3 : p.offset > s.mfPos.offset <;> simp [h3]
  · simp [h1]

theorem litLoop_ff (o : Opts) (want : Bytes) (start : Pt) (cs : Bytes) (s : St) (f : List FF) :
    litLoop o want start cs { s with ff := f } = (litLoop o want start cs s).setFF f := by
  induction cs generalizing s with
  | nil => simp only [litLoop, failAt_ff, Out.setFF]
  | cons c cs ih =>
    simp only [litLoop]
    split
    · rw [read_ff, ih]
    · simp only [failAt_ff, Out.setFF]

theorem seqLoop_ff {ev : Ex → St → Out} (hev : ∀ e, FFOk (ev e)) (s0 : St) (g : List FF) (es : List Ex)
    (acc : List Val) (s : St) :
    ∃ k : FFun, ∀ f, seqLoop ev { s0 with ff := g } es acc { s with ff := f } =
      (seqLoop ev s0 es acc s).setFF (k.apply f) := by
  induction es generalizing acc s with
  | nil => exact ⟨FFun.id, fun f => rfl⟩
  | cons e es ih =>
    obtain ⟨k, hk⟩ := hev e s
    simp only [seqLoop]
    cases h : ev e s with
    | ok v t =>
      obtain ⟨k2, hk2⟩ := ih (acc ++ [v]) t
      refine ⟨k.comp k2, fun f => ?_⟩
      rw [hk, h, FFun.comp_apply]
      exact hk2 _
    | fail t => exact ⟨k, fun f => by rw [hk, h]; rfl⟩
    | panic m t => exact ⟨k, fun f => by rw [hk, h]; rfl⟩
    | timeout => exact ⟨k, fun f => by rw [hk, h]; rfl⟩

theorem choiceLoop_ff {ev : Ex → St → Out} (hev : ∀ e, FFOk (ev e)) (es : List Ex) :
    FFOk (choiceLoop ev es) := by
  induction es with
  | nil => exact fun s => ⟨FFun.id, fun f => rfl⟩
  | cons e es ih =>
    intro s
    obtain ⟨k, hk⟩ := hev e { s with frame := [] }
    simp only [choiceLoop]
    cases h : ev e { s with frame := [] } with
    | fail t =>
      obtain ⟨k2, hk2⟩ := ih { t with frame := s.frame, warns := s.warns }
      refine ⟨k.comp k2, fun f => ?_⟩
      have := hk f
      rw [h] at this
      rw [this, FFun.comp_apply]
      exact hk2 _
    | ok v t => exact ⟨k, fun f => by have := hk f; rw [h] at this; rw [this]; rfl⟩
    | panic m t => exact ⟨k, fun f => by have := hk f; rw [h] at this; rw [this]; rfl⟩
    | timeout => exact ⟨k, fun f => by have := hk f; rw [h] at this; rw [this]; rfl⟩

theorem starLoop_ff {ev : St → Out} (hev : FFOk ev) (n : Nat) (acc : List Val) :
    FFOk (starLoop ev n acc) := by
  induction n generalizing acc with
  | zero => exact fun s => ⟨FFun.id, fun f => rfl⟩
  | succ n ih =>
    intro s
    obtain ⟨k, hk⟩ := hev { s with frame := [] }
    simp only [starLoop]
    cases h : ev { s with frame := [] } with
    | ok v t =>
      obtain ⟨k2, hk2⟩ := ih (acc ++ [v]) { t with frame := s.frame }
      refine ⟨k.comp k2, fun f => ?_⟩
      have := hk f
      rw [h] at this
      rw [this, FFun.comp_apply]
      exact hk2 _
    | fail t => exact ⟨k, fun f => by have := hk f; rw [h] at this; rw [this]; rfl⟩
    | panic m t => exact ⟨k, fun f => by have := hk f; rw [h] at this; rw [this]; rfl⟩
    | timeout => exact ⟨k, fun f => by have := hk f; rw [h] at this; rw [this]; rfl⟩

theorem runCode_ff (c : Code) : FFOk (runCode c) := by
  intro s
  cases c with
  | initParser => exact ⟨⟨true, []⟩, fun f => rfl⟩
  | pushError m => exact ⟨⟨false, [⟨m, s.curPos, s.curText, s.errPos⟩]⟩, fun f => rfl⟩
  | fatalError m => exact ⟨⟨true, [⟨m, s.curPos, s.curText, s.errPos⟩]⟩, fun f => rfl⟩

theorem step_ff (o : Opts) (G : Gram) {ev : Ex → St → Out} (hev : ∀ e, FFOk (ev e)) (n : Nat) (e : Ex) :
    FFOk (step o G ev n e) := by
  intro s
  unfold step
  cases e with
  | action a e =>
    obtain ⟨k, hk⟩ := hev e s
    refine ⟨k, fun f => ?_⟩
    simp only
    rw [hk]
    cases ev e s with
    | ok v t =>
      simp only [Out.setFF]
      cases runAct o a t.frame s.pt.pos (sliceFrom s.pt t.pt) t.warns <;> rfl
    | fail t => rfl
    | panic m t => rfl
    | timeout => rfl
  | andCode c => exact runCode_ff c s
  | any =>
    refine ⟨FFun.id, fun f => ?_⟩
    simp only [read_ff, failAt_ff]
    split <;> rfl
  | cls val inv chars ranges =>
    refine ⟨FFun.id, fun f => ?_⟩
    simp only [read_ff, failAt_ff]
    split
    · rfl
    · split <;> rfl
  | choice alts => exact choiceLoop_ff hev alts s
  | labeled l e =>
    obtain ⟨k, hk⟩ := hev e { s with frame := [] }
    refine ⟨k, fun f => ?_⟩
    have := hk f
    simp only at this ⊢
    rw [this]
    cases ev e { s with frame := [] } <;> rfl
  | lit v => exact ⟨FFun.id, fun f => litLoop_ff o _ _ _ _ f⟩
  | not e =>
    obtain ⟨k, hk⟩ := hev e { s with frame := [], mfInv := !s.mfInv }
    refine ⟨k, fun f => ?_⟩
    have := hk f
    simp only at this ⊢
    rw [this]
    cases ev e { s with frame := [], mfInv := !s.mfInv } <;> rfl
  | plus e =>
    obtain ⟨k, hk⟩ := hev e { s with frame := [] }
    simp only
    cases h : ev e { s with frame := [] } with
    | ok v t =>
      obtain ⟨k2, hk2⟩ := starLoop_ff (hev e) n [v] { t with frame := s.frame }
      refine ⟨k.comp k2, fun f => ?_⟩
      have := hk f
      rw [h] at this
      rw [this, FFun.comp_apply]
      exact hk2 _
    | fail t => exact ⟨k, fun f => by have := hk f; rw [h] at this; rw [this]; rfl⟩
    | panic m t => exact ⟨k, fun f => by have := hk f; rw [h] at this; rw [this]; rfl⟩
    | timeout => exact ⟨k, fun f => by have := hk f; rw [h] at this; rw [this]; rfl⟩
  | ref r =>
    obtain ⟨k, hk⟩ := hev (G r) { s with rstack := r :: s.rstack, frame := [] }
    refine ⟨k, fun f => ?_⟩
    have := hk f
    simp only [evalRule] at this ⊢
    rw [this]
    cases ev (G r) { s with rstack := r :: s.rstack, frame := [] } <;> rfl
  | seq es =>
    have : ∀ (f : List FF), seqLoop ev { s with ff := f } es [] { s with ff := f } =
        seqLoop ev s es [] { s with ff := f } := by
      intro f
      have key : ∀ (es : List Ex) (acc : List Val) (t : St),
          seqLoop ev { s with ff := f } es acc t = seqLoop ev s es acc t := by
        intro es
        induction es with
        | nil => intros; rfl
        | cons e es ih =>
          intro acc t
          simp only [seqLoop]
          cases ev e t with
          | ok v u => exact ih _ _
          | _ => rfl
      exact key es [] _
    obtain ⟨k, hk⟩ := seqLoop_ff hev s s.ff es [] s
    exact ⟨k, fun f => by simp only; rw [this]; exact hk f⟩
  | state c =>
    refine ⟨FFun.id, fun f => ?_⟩
    cases c with
    | initState => rfl
    | warnComment =>
      simp only [runState]
      split <;> rfl
  | star e => exact starLoop_ff (hev e) n [] s
  | opt e =>
    obtain ⟨k, hk⟩ := hev e { s with frame := [] }
    refine ⟨k, fun f => ?_⟩
    have := hk f
    simp only at this ⊢
    rw [this]
    cases ev e { s with frame := [] } <;> rfl

/-- The effect of an evaluation on the failure list does not depend on that list, and
nothing else of the outcome does. -/
theorem eval_ff (o : Opts) (G : Gram) (n : Nat) (e : Ex) : FFOk (eval o G n e) := by
  induction n generalizing e with
  | zero => exact fun s => ⟨FFun.id, fun f => rfl⟩
  | succ n ih =>
    intro s
    simp only [eval]
    cases tooMany o (s.cnt + 1) with
    | true => exact ⟨FFun.id, fun f => rfl⟩
    | false => exact step_ff o G ih n e { s with cnt := s.cnt + 1 }

/-! ### Messages -/

/-- The texts of the panics raised by failed type assertions. -/
def convMsg : Bytes := b!"interface conversion"

/-- The messages with which actions report errors. -/
def actionMsgs : List Bytes :=
  [b!"Value is not a PluginSection", b!"Argument is not an attribute",
   b!"Unsupported attribute type", b!"Type for attribute name is not supported",
   b!"Type of value is not supported", b!"strconv.ParseFloat: value out of range",
   b!"Argument is not an elseIfBlock", b!"invalid value for if block",
   b!"Argument is not an expression"]

theorem attributeAction_msgs (pos : Pos) (n v : Val) :
    (∀ w m, attributeAction pos n v = .err w m → m ∈ actionMsgs) ∧
    (∀ m, attributeAction pos n v ≠ .panic m) := by
  constructor
  · intro w m h
    unfold attributeAction at h
    simp only at h
    repeat' split at h
    all_goals first
      | (cases h; done)
      | (injection h with _ h; subst h; simp [actionMsgs])
  · intro m h
    unfold attributeAction at h
    simp only at h
    repeat' split at h
    all_goals (cases h; done)

theorem runAct_msgs (o : Opts) (a : Act) (fr : Frame) (pos : Pos) (text : Bytes) (w : List Bytes) :
    (∀ v m, runAct o a fr pos text w = .err v m → m ∈ actionMsgs) ∧
    (∀ m, runAct o a fr pos text w = .panic m → m = convMsg) := by
  cases a
  case «attribute» n v =>
    have := attributeAction_msgs pos (fr.get n) (fr.get v)
    exact ⟨this.1, fun m h => absurd h (this.2 m)⟩
  all_goals
    simp only [runAct, badAssert]
    constructor
    · intro v m h
      repeat' split at h
      all_goals first
        | (cases h; done)
        | (injection h with _ h; subst h; decide)
    · intro m h
      repeat' split at h
      all_goals first
        | (cases h; done)
        | (injection h with h; subst h; rfl)

/-- The messages of errors that a run may record. -/
def errMsgs : List Bytes := invalidEncoding :: actionMsgs

/-- The outcome only carries known messages. -/
def MsgOk (s : St) : Out → Prop
  | .ok _ t => ∀ e ∈ t.errs, e ∈ s.errs ∨ e.msg ∈ errMsgs
  | .fail t => ∀ e ∈ t.errs, e ∈ s.errs ∨ e.msg ∈ errMsgs
  | .panic m t => (∀ e ∈ t.errs, e ∈ s.errs ∨ e.msg ∈ errMsgs) ∧
      (m = maxExprMsg ∨ m = convMsg ∨ getFarthestFailure t.ff = (m, true))
  | .timeout => True

/-- Two states with the same errors. -/
theorem MsgOk.trans {s t : St} {r : Out} (h1 : ∀ e ∈ t.errs, e ∈ s.errs ∨ e.msg ∈ errMsgs)
    (h2 : MsgOk t r) : MsgOk s r := by
  have key : ∀ u : St, (∀ e ∈ u.errs, e ∈ t.errs ∨ e.msg ∈ errMsgs) →
      ∀ e ∈ u.errs, e ∈ s.errs ∨ e.msg ∈ errMsgs := by
    intro u hu e he
    rcases hu e he with h | h
    · exact h1 e h
    · exact .inr h
  cases r with
  | ok v u => exact key u h2
  | fail u => exact key u h2
  | panic m u => exact ⟨key u h2.1, h2.2⟩
  | timeout => trivial

theorem read_msgs (o : Opts) (s : St) : ∀ e ∈ (s.read o).errs, e ∈ s.errs ∨ e.msg ∈ errMsgs := by
  obtain ⟨-, -, -, -, -, h1, h2⟩ := read_fields o s
  cases h : s.pt.next.invalid && !o.allowInvalid
  · rw [h1 h]; exact fun e he => .inl he
  · rw [h2 h]
    intro e he
    rcases List.mem_append.1 he with h | h
    · exact .inl h
    · simp at h; subst h; exact .inr (List.mem_cons_self ..)

theorem litLoop_msgs (o : Opts) (want : Bytes) (start : Pt) (cs : Bytes) (s : St) :
    MsgOk s (litLoop o want start cs s) := by
  induction cs generalizing s with
  | nil =>
    simp only [litLoop]
    intro e he
    rw [(failAt_fields s true start.pos want).2.1] at he
    exact .inl he
  | cons c cs ih =>
    simp only [litLoop]
    split
    · exact MsgOk.trans (read_msgs o s) (ih _)
    · intro e he
      simp only at he
      rw [(failAt_fields s false start.pos want).2.1] at he
      exact .inl he

theorem seqLoop_msgs {ev : Ex → St → Out} (hev : ∀ e s, MsgOk s (ev e s)) (s0 : St) (es : List Ex)
    (acc : List Val) (s : St) : MsgOk s (seqLoop ev s0 es acc s) := by
  induction es generalizing acc s with
  | nil => exact fun e he => .inl he
  | cons e es ih =>
    simp only [seqLoop]
    have := hev e s
    cases h : ev e s with
    | ok v t => rw [h] at this; exact MsgOk.trans this (ih _ _)
    | fail t => rw [h] at this; exact this
    | panic m t => rw [h] at this; exact this
    | timeout => trivial

theorem choiceLoop_msgs {ev : Ex → St → Out} (hev : ∀ e s, MsgOk s (ev e s)) (es : List Ex) (s : St) :
    MsgOk s (choiceLoop ev es s) := by
  induction es generalizing s with
  | nil => exact fun e he => .inl he
  | cons e es ih =>
    simp only [choiceLoop]
    have := hev e { s with frame := [] }
    cases h : ev e { s with frame := [] } with
    | ok v t => rw [h] at this; exact this
    | fail t => rw [h] at this; exact MsgOk.trans (s := s) (t := { t with frame := s.frame, warns := s.warns }) this (ih _)
    | panic m t => rw [h] at this; exact this
    | timeout => trivial

theorem starLoop_msgs {ev : St → Out} (hev : ∀ s, MsgOk s (ev s)) (n : Nat) (acc : List Val) (s : St) :
    MsgOk s (starLoop ev n acc s) := by
  induction n generalizing acc s with
  | zero => trivial
  | succ n ih =>
    simp only [starLoop]
    have := hev { s with frame := [] }
    cases h : ev { s with frame := [] } with
    | ok v t => rw [h] at this; exact MsgOk.trans (s := s) (t := { t with frame := s.frame }) this (ih _ _)
    | fail t => rw [h] at this; exact this
    | panic m t => rw [h] at this; exact this
    | timeout => trivial

theorem eval_msgs (o : Opts) (G : Gram) (n : Nat) (e : Ex) (s : St) : MsgOk s (eval o G n e s) := by
  induction n generalizing e s with
  | zero => trivial
  | succ n ih =>
    simp only [eval]
    split
    · exact ⟨fun e he => .inl he, .inl rfl⟩
    · apply MsgOk.trans (t := { s with cnt := s.cnt + 1 }) (fun e he => .inl he)
      generalize ({ s with cnt := s.cnt + 1 } : St) = s
      have ih0 := fun e => ih e { s with frame := [] }
      unfold step
      cases e with
      | action a e =>
        simp only
        have := ih e s
        cases h : eval o G n e s with
        | ok v t =>
          rw [h] at this
          simp only
          have hm := runAct_msgs o a t.frame s.pt.pos (sliceFrom s.pt t.pt) t.warns
          split
          · exact this
          · rename_i v' msg heq
            intro e he
            simp only [St.addErrAt] at he
            rcases List.mem_append.1 he with h | h
            · exact this e h
            · simp at h; subst h
              exact .inr (List.mem_cons_of_mem _ (hm.1 v' msg heq))
          · rename_i m heq
            exact ⟨this, .inr (.inl (hm.2 m heq))⟩
        | fail t => rw [h] at this; exact this
        | panic m t => rw [h] at this; exact this
        | timeout => trivial
      | andCode c =>
        cases c with
        | initParser => exact fun e he => .inl he
        | pushError m => exact fun e he => .inl he
        | fatalError m =>
          exact ⟨fun e he => .inl he, .inr (.inr (by simp [getFarthestFailure]))⟩
      | any =>
        simp only
        split
        · intro e he; rw [(failAt_fields _ _ _ _).2.1] at he; exact .inl he
        · intro e he; rw [(failAt_fields _ _ _ _).2.1] at he; exact read_msgs o s e he
      | cls val inv chars ranges =>
        simp only
        split
        · intro e he; rw [(failAt_fields _ _ _ _).2.1] at he; exact .inl he
        · split
          · intro e he; rw [(failAt_fields _ _ _ _).2.1] at he; exact read_msgs o s e he
          · intro e he; rw [(failAt_fields _ _ _ _).2.1] at he; exact .inl he
      | choice alts => exact choiceLoop_msgs ih alts s
      | labeled l e =>
        simp only
        have := ih0 e
        cases h : eval o G n e { s with frame := [] } with
        | timeout => trivial
        | _ => rw [h] at this; exact this
      | lit v => exact litLoop_msgs o _ _ _ _
      | not e =>
        simp only
        have := ih e { s with frame := [], mfInv := !s.mfInv }
        cases h : eval o G n e { s with frame := [], mfInv := !s.mfInv } with
        | timeout => trivial
        | _ => rw [h] at this; exact this
      | plus e =>
        simp only
        have := ih0 e
        cases h : eval o G n e { s with frame := [] } with
        | timeout => trivial
        | ok v t =>
          rw [h] at this
          exact MsgOk.trans (s := s) (t := { t with frame := s.frame }) this (starLoop_msgs (ih e) n _ _)
        | _ => rw [h] at this; exact this
      | ref r =>
        simp only [evalRule]
        have := ih (G r) { s with rstack := r :: s.rstack, frame := [] }
        cases h : eval o G n (G r) { s with rstack := r :: s.rstack, frame := [] } with
        | timeout => trivial
        | _ => rw [h] at this; exact this
      | seq es => exact seqLoop_msgs ih s es [] s
      | state c =>
        intro e he
        rw [(runState_fields o c s).2.1] at he
        exact .inl he
      | star e => exact starLoop_msgs (ih e) n [] s
      | opt e =>
        simp only
        have := ih0 e
        cases h : eval o G n e { s with frame := [] } with
        | timeout => trivial
        | _ => rw [h] at this; exact this

end Verif
