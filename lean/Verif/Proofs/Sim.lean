import Verif.Proofs.Engine
/-
Simulations between runs of the engine that differ in the options or in the initial
content of the failure list.
-/
namespace Verif

/-! ### A value map commutes with evaluation -/

/-- A map on values that treats terminal values and lists structurally, together with a map
on the warnings and a number added to the expression counter. -/
structure VMap where
  g : Val → Val
  w : List Bytes → List Bytes
  k : Nat := 0
  g_nil : g .nil = .nil
  g_bytes : ∀ b, g (.bytes b) = .bytes b
  g_list : ∀ l, g (.list l) = .list (l.map g)

namespace VMap
variable (M : VMap)

/-- The map on variable sets. -/
def fr (f : Frame) : Frame := f.map fun p => (p.1, M.g p.2)

/-- The map on parser states. -/
def st (s : St) : St := { s with frame := M.fr s.frame, warns := M.w s.warns, cnt := s.cnt + M.k }

/-- The map on outcomes. -/
def out : Out → Out
  | .ok v s => .ok (M.g v) (M.st s)
  | .fail s => .fail (M.st s)
  | .panic m s => .panic m (M.st s)
  | .timeout => .timeout

/-- The map on results of actions. -/
def act : ActRes → ActRes
  | .val v => .val (M.g v)
  | .err v m => .err (M.g v) m
  | .panic m => .panic m

theorem get (f : Frame) (l : Lbl) : Frame.get (M.fr f) l = M.g (Frame.get f l) := by
  induction f with
  | nil => simp [fr, Frame.get, M.g_nil]
  | cons p f ih =>
    obtain ⟨k, v⟩ := p
    simp only [fr, List.map_cons, Frame.get] at ih ⊢
    split
    · rfl
    · exact ih

theorem fr_nil : M.fr [] = [] := rfl

/-- The conditions under which a map relates runs with options `o1` and `o2`. -/
structure Compat (o1 o2 : Opts) : Prop where
  act : ∀ a fr pos text warns,
    runAct o2 a (M.fr fr) pos text (M.w warns) = M.act (runAct o1 a fr pos text warns)
  warns : ∀ c s, runState o2 c (M.st s) = M.st (runState o1 c s)
  invalid : o2.allowInvalid = o1.allowInvalid
  maxExpr : ∀ c, tooMany o2 (c + 1 + M.k) = tooMany o1 (c + 1)

variable {M} {o1 o2 : Opts}

theorem st_read (h : M.Compat o1 o2) (s : St) : (M.st s).read o2 = M.st (s.read o1) := by
  have hp : (M.st s).pt = s.pt := rfl
  simp only [St.read, h.invalid, hp]
  cases (s.pt.next.invalid && !o1.allowInvalid) <;> rfl

theorem st_failAt (M : VMap) (s : St) (f : Bool) (p : Pos) (w : Bytes) :
    (M.st s).failAt f p w = M.st (s.failAt f p w) := by
  simp only [St.failAt, st]
  by_cases h1 : f = s.mfInv
  · simp only [h1]
    by_cases h2 : p.offset < s.mfPos.offset
    · simp [h2]
    · simp only [h2]
      by_cases h3 : p.offset > s.mfPos.offset <;> simp [h3]
  · simp [h1]

theorem litLoop_sim (h : M.Compat o1 o2) (want : Bytes) (start : Pt) (cs : Bytes) (s : St) :
    litLoop o2 want start cs (M.st s) = M.out (litLoop o1 want start cs s) := by
  induction cs generalizing s with
  | nil =>
    simp only [litLoop, st_failAt, out, M.g_bytes]
    rfl
  | cons c cs ih =>
    have hp : (M.st s).pt = s.pt := rfl
    simp only [litLoop, hp]
    split
    · rw [st_read h, ih]
    · simp only [st_failAt, out]; rfl

theorem seqLoop_sim {ev1 ev2 : Ex → St → Out} (hev : ∀ e s, ev2 e (M.st s) = M.out (ev1 e s))
    (s0 : St) (es : List Ex) (acc : List Val) (s : St) :
    seqLoop ev2 (M.st s0) es (acc.map M.g) (M.st s) = M.out (seqLoop ev1 s0 es acc s) := by
  induction es generalizing acc s with
  | nil => simp [seqLoop, out, M.g_list]
  | cons e es ih =>
    simp only [seqLoop, hev]
    cases ev1 e s with
    | ok v t =>
      have := ih (acc ++ [v]) t
      simpa [out] using this
    | fail t => rfl
    | panic m t => rfl
    | timeout => rfl

theorem choiceLoop_sim {ev1 ev2 : Ex → St → Out} (hev : ∀ e s, ev2 e (M.st s) = M.out (ev1 e s))
    (es : List Ex) (s : St) :
    choiceLoop ev2 es (M.st s) = M.out (choiceLoop ev1 es s) := by
  induction es generalizing s with
  | nil => rfl
  | cons e es ih =>
    have := hev e { s with frame := [] }
    simp only [st, fr_nil] at this
    simp only [choiceLoop, st]
    rw [this]
    cases ev1 e { s with frame := [] } with
    | ok v t => rfl
    | fail t => exact ih { t with frame := s.frame, warns := s.warns }
    | panic m t => rfl
    | timeout => rfl

theorem starLoop_sim {ev1 ev2 : St → Out} (hev : ∀ s, ev2 (M.st s) = M.out (ev1 s))
    (n : Nat) (acc : List Val) (s : St) :
    starLoop ev2 n (acc.map M.g) (M.st s) = M.out (starLoop ev1 n acc s) := by
  induction n generalizing acc s with
  | zero => rfl
  | succ n ih =>
    have := hev { s with frame := [] }
    simp only [st, fr_nil] at this
    simp only [starLoop, st]
    rw [this]
    cases ev1 { s with frame := [] } with
    | ok v t =>
      have := ih (acc ++ [v]) { t with frame := s.frame }
      simpa [out, st] using this
    | fail t => simp [out, M.g_list, st]
    | panic m t => rfl
    | timeout => rfl

theorem step_sim (h : M.Compat o1 o2) (G : Gram) {ev1 ev2 : Ex → St → Out}
    (hev : ∀ e s, ev2 e (M.st s) = M.out (ev1 e s)) (n : Nat) (e : Ex) (s : St) :
    step o2 G ev2 n e (M.st s) = M.out (step o1 G ev1 n e s) := by
  have hp : (M.st s).pt = s.pt := rfl
  have hev0 : ∀ e, ev2 e { M.st s with frame := [] } = M.out (ev1 e { s with frame := [] }) :=
    fun e => hev e { s with frame := [] }
  unfold step
  cases e with
  | action a e =>
    simp only [hev]
    cases ev1 e s with
    | ok v t =>
      have := h.act a t.frame s.pt.pos (sliceFrom s.pt t.pt) t.warns
      simp only [out]
      have e1 : (M.st t).frame = M.fr t.frame := rfl
      have e2 : (M.st t).warns = M.w t.warns := rfl
      have e3 : (M.st t).pt = t.pt := rfl
      simp only [e1, e2, e3, hp, this]
      cases runAct o1 a t.frame s.pt.pos (sliceFrom s.pt t.pt) t.warns <;> rfl
    | fail t => rfl
    | panic m t => rfl
    | timeout => rfl
  | andCode c => cases c <;> simp only [runCode, out, M.g_nil] <;> rfl
  | any =>
    simp only [hp, st_read h, st_failAt]
    split
    · rfl
    · simp only [out, M.g_bytes]; rfl
  | cls val inv chars ranges =>
    simp only [hp, st_read h, st_failAt]
    split
    · rfl
    · split
      · simp only [out, M.g_bytes]; rfl
      · rfl
  | choice alts => exact choiceLoop_sim hev alts s
  | labeled l e =>
    simp only [hev0]
    cases ev1 e { s with frame := [] } <;> rfl
  | lit v => exact litLoop_sim h _ _ _ _
  | not e =>
    simp only
    have := hev e { s with frame := [], mfInv := !s.mfInv }
    have e1 : M.st { s with frame := [], mfInv := !s.mfInv } =
      { M.st s with frame := [], mfInv := !(M.st s).mfInv } := rfl
    rw [e1] at this
    rw [this]
    cases ev1 e { s with frame := [], mfInv := !s.mfInv } with
    | ok v t => rfl
    | fail t => simp only [out, M.g_nil]; rfl
    | panic m t => rfl
    | timeout => rfl
  | plus e =>
    simp only [hev0]
    cases ev1 e { s with frame := [] } with
    | ok v t => exact starLoop_sim (hev e) n [v] { t with frame := s.frame }
    | fail t => rfl
    | panic m t => rfl
    | timeout => rfl
  | ref r =>
    simp only [evalRule]
    have := hev (G r) { s with rstack := r :: s.rstack, frame := [] }
    have e1 : M.st { s with rstack := r :: s.rstack, frame := [] } =
      { M.st s with rstack := r :: (M.st s).rstack, frame := [] } := rfl
    rw [e1] at this
    rw [this]
    cases ev1 (G r) { s with rstack := r :: s.rstack, frame := [] } <;> rfl
  | seq es => exact seqLoop_sim hev s es [] s
  | state c => simp only [h.warns, out, M.g_nil]
  | star e => exact starLoop_sim (hev e) n [] s
  | opt e =>
    simp only [hev0]
    cases ev1 e { s with frame := [] } with
    | ok v t => rfl
    | fail t => simp only [out, M.g_nil]; rfl
    | panic m t => rfl
    | timeout => rfl

/-- **Simulation**: evaluation commutes with a compatible value map. -/
theorem eval_sim (h : M.Compat o1 o2) (G : Gram) (n : Nat) (e : Ex) (s : St) :
    eval o2 G n e (M.st s) = M.out (eval o1 G n e s) := by
  induction n generalizing e s with
  | zero => rfl
  | succ n ih =>
    have he : (M.st s).cnt + 1 = s.cnt + 1 + M.k := by simp only [st]; omega
    have hc : tooMany o2 ((M.st s).cnt + 1) = tooMany o1 (s.cnt + 1) := by
      rw [he]; exact h.maxExpr _
    have hs : ({ M.st s with cnt := (M.st s).cnt + 1 } : St) = M.st { s with cnt := s.cnt + 1 } := by
      rw [he]; rfl
    simp only [eval, hc, hs]
    cases tooMany o1 (s.cnt + 1)
    case true => rfl
    case false => exact step_sim h G ih n e { s with cnt := s.cnt + 1 }

end VMap

/-! ### The expression limit -/

/-- Equal, or the first run hit the expression limit. -/
def LimOrEq (r1 r2 : Out) : Prop := r1 = r2 ∨ ∃ s, r1 = .panic maxExprMsg s

theorem runAct_opts (o1 o2 : Opts) (h : o1.ignoreComments = o2.ignoreComments) (a : Act) (fr : Frame)
    (pos : Pos) (text : Bytes) (warns : List Bytes) :
    runAct o1 a fr pos text warns = runAct o2 a fr pos text warns := by
  cases a <;> simp only [runAct, commentAction, h]

section
variable {o1 o2 : Opts} (hi : o1.ignoreComments = o2.ignoreComments)
  (ha : o1.allowInvalid = o2.allowInvalid) (hw : o1.excWarn = o2.excWarn)

include ha in
theorem read_opts (s : St) : s.read o1 = s.read o2 := by simp only [St.read, ha]

include ha in
theorem litLoop_opts (want : Bytes) (start : Pt) (cs : Bytes) (s : St) :
    litLoop o1 want start cs s = litLoop o2 want start cs s := by
  induction cs generalizing s with
  | nil => rfl
  | cons c cs ih => simp only [litLoop, read_opts ha, ih]

theorem seqLoop_lim {ev1 ev2 : Ex → St → Out} (hev : ∀ e s, LimOrEq (ev1 e s) (ev2 e s)) (s0 : St)
    (es : List Ex) (acc : List Val) (s : St) :
    LimOrEq (seqLoop ev1 s0 es acc s) (seqLoop ev2 s0 es acc s) := by
  induction es generalizing acc s with
  | nil => exact .inl rfl
  | cons e es ih =>
    simp only [seqLoop]
    rcases hev e s with h | ⟨t, h⟩
    · rw [h]
      cases ev2 e s with
      | ok v t => exact ih _ _
      | _ => exact .inl rfl
    · rw [h]; exact .inr ⟨t, rfl⟩

theorem choiceLoop_lim {ev1 ev2 : Ex → St → Out} (hev : ∀ e s, LimOrEq (ev1 e s) (ev2 e s))
    (es : List Ex) (s : St) : LimOrEq (choiceLoop ev1 es s) (choiceLoop ev2 es s) := by
  induction es generalizing s with
  | nil => exact .inl rfl
  | cons e es ih =>
    simp only [choiceLoop]
    rcases hev e { s with frame := [] } with h | ⟨t, h⟩
    · rw [h]
      cases ev2 e { s with frame := [] } with
      | fail t => exact ih _
      | _ => exact .inl rfl
    · rw [h]; exact .inr ⟨t, rfl⟩

theorem starLoop_lim {ev1 ev2 : St → Out} (hev : ∀ s, LimOrEq (ev1 s) (ev2 s)) (n : Nat)
    (acc : List Val) (s : St) : LimOrEq (starLoop ev1 n acc s) (starLoop ev2 n acc s) := by
  induction n generalizing acc s with
  | zero => exact .inl rfl
  | succ n ih =>
    simp only [starLoop]
    rcases hev { s with frame := [] } with h | ⟨t, h⟩
    · rw [h]
      cases ev2 { s with frame := [] } with
      | ok v t => exact ih _ _
      | _ => exact .inl rfl
    · rw [h]; exact .inr ⟨t, rfl⟩

include hi ha hw in
theorem step_lim (G : Gram) {ev1 ev2 : Ex → St → Out} (hev : ∀ e s, LimOrEq (ev1 e s) (ev2 e s))
    (n : Nat) (e : Ex) (s : St) : LimOrEq (step o1 G ev1 n e s) (step o2 G ev2 n e s) := by
  unfold step
  cases e with
  | action a e =>
    simp only
    rcases hev e s with h | ⟨t, h⟩
    · rw [h]
      cases ev2 e s with
      | ok v t => simp only [runAct_opts o1 o2 hi]; exact .inl rfl
      | _ => exact .inl rfl
    · rw [h]; exact .inr ⟨t, rfl⟩
  | andCode c => exact .inl rfl
  | any => simp only [read_opts ha]; exact .inl rfl
  | cls val inv chars ranges => simp only [read_opts ha]; exact .inl rfl
  | choice alts => exact choiceLoop_lim hev alts s
  | labeled l e =>
    simp only
    rcases hev e { s with frame := [] } with h | ⟨t, h⟩
    · rw [h]; exact .inl rfl
    · rw [h]; exact .inr ⟨t, rfl⟩
  | lit v => exact .inl (litLoop_opts ha _ _ _ _)
  | not e =>
    simp only
    rcases hev e { s with frame := [], mfInv := !s.mfInv } with h | ⟨t, h⟩
    · rw [h]; exact .inl rfl
    · rw [h]; exact .inr ⟨t, rfl⟩
  | plus e =>
    simp only
    rcases hev e { s with frame := [] } with h | ⟨t, h⟩
    · rw [h]
      cases ev2 e { s with frame := [] } with
      | ok v t => exact starLoop_lim (hev e) n _ _
      | _ => exact .inl rfl
    · rw [h]; exact .inr ⟨t, rfl⟩
  | ref r =>
    simp only [evalRule]
    rcases hev (G r) { s with rstack := r :: s.rstack, frame := [] } with h | ⟨t, h⟩
    · rw [h]; exact .inl rfl
    · rw [h]; exact .inr ⟨t, rfl⟩
  | seq es => exact seqLoop_lim hev s es [] s
  | state c => cases c <;> simp only [runState, hw] <;> exact .inl rfl
  | star e => exact starLoop_lim (hev e) n [] s
  | opt e =>
    simp only
    rcases hev e { s with frame := [] } with h | ⟨t, h⟩
    · rw [h]; exact .inl rfl
    · rw [h]; exact .inr ⟨t, rfl⟩

include hi ha hw in
/-- A run with an expression limit is the run without, or it hits the limit. -/
theorem eval_lim (hm : o2.maxExpr = none) (G : Gram) (n : Nat) (e : Ex) (s : St) :
    LimOrEq (eval o1 G n e s) (eval o2 G n e s) := by
  induction n generalizing e s with
  | zero => exact .inl rfl
  | succ n ih =>
    simp only [eval]
    have : tooMany o2 (s.cnt + 1) = false := by simp [tooMany, hm]
    rw [this]
    split
    · exact .inr ⟨_, rfl⟩
    · exact step_lim hi ha hw G ih n e _

end

/-! ### Invalid UTF-8 -/

/-- No suffix of the input at a rune boundary starts with an invalid byte. -/
def ValidRest (s : Bytes) : Prop := ∀ p q : Pt, p.rest = s → Adv false p q → q.invalid = false

theorem ValidRest.adv {p q : Pt} (h : ValidRest p.rest) (ha : Adv false p q) : ValidRest q.rest := by
  -- the relation depends on the remaining input only
  have indep : ∀ (a b : Pt), Adv false a b → ∀ a' : Pt, a'.rest = a.rest →
      ∃ b', Adv false a' b' ∧ b'.rest = b.rest := by
    intro a b hab
    induction hab with
    | refl a => intro a' h; exact ⟨a', .refl _, h⟩
    | step a b hne _ _ ih =>
      intro a' hr
      obtain ⟨b', h1, h2⟩ := ih a'.next (by rw [Pt.next_rest, Pt.next_rest, Pt.w, Pt.w, hr])
      exact ⟨b', .step _ _ (by rw [hr]; exact hne) (by simp) h1, h2⟩
  intro a b ha' hab
  obtain ⟨b', h1, h2⟩ := indep a b hab q ha'.symm
  have := h p b' rfl (ha.trans h1)
  unfold Pt.invalid Pt.rn Pt.w at this ⊢
  rw [h2] at this
  exact this

section
variable {o1 o2 : Opts} (hi : o1.ignoreComments = o2.ignoreComments)
  (hw : o1.excWarn = o2.excWarn) (hm : o1.maxExpr = o2.maxExpr)

/-- On valid input `read` does not depend on the options. -/
theorem read_valid {s : St} (hne : s.pt.rest ≠ []) (h : ValidRest s.pt.rest) :
    s.read o1 = s.read o2 := by
  have : s.pt.next.invalid = false := h s.pt s.pt.next rfl (.step _ _ hne (by simp) (.refl _))
  simp [St.read, this]

theorem ValidRest.read {s : St} (o : Opts) (hne : s.pt.rest ≠ []) (h : ValidRest s.pt.rest) :
    ValidRest (s.read o).pt.rest := by
  rw [(read_fields o s).1]
  exact h.adv (.step _ _ hne (by simp) (.refl _))

theorem litLoop_valid (want : Bytes) (start : Pt) (cs : Bytes) (s : St) (h : ValidRest s.pt.rest) :
    litLoop o1 want start cs s = litLoop o2 want start cs s := by
  induction cs generalizing s with
  | nil => rfl
  | cons c cs ih =>
    simp only [litLoop]
    split
    · rename_i hc
      have hne := Pt.rest_ne_of_rn hc
      rw [read_valid (o1 := o1) (o2 := o2) hne h]
      exact ih _ (h.read o2 hne)
    · rfl

theorem seqLoop_valid {ev1 ev2 : Ex → St → Out} (hg : ∀ e s, Good o2 s (ev2 e s))
    (hev : ∀ e s, ValidRest s.pt.rest → ev1 e s = ev2 e s) (s0 : St)
    (es : List Ex) (acc : List Val) (s : St) (h : ValidRest s.pt.rest) :
    seqLoop ev1 s0 es acc s = seqLoop ev2 s0 es acc s := by
  induction es generalizing acc s with
  | nil => rfl
  | cons e es ih =>
    simp only [seqLoop, hev e s h]
    have := hg e s
    cases hr : ev2 e s with
    | ok v t => rw [hr] at this; exact ih _ _ (h.adv this.2.1)
    | _ => rfl

theorem choiceLoop_valid {ev1 ev2 : Ex → St → Out} (hg : ∀ e s, Good o2 s (ev2 e s))
    (hev : ∀ e s, ValidRest s.pt.rest → ev1 e s = ev2 e s)
    (es : List Ex) (s : St) (h : ValidRest s.pt.rest) :
    choiceLoop ev1 es s = choiceLoop ev2 es s := by
  induction es generalizing s with
  | nil => rfl
  | cons e es ih =>
    simp only [choiceLoop]
    rw [hev e { s with frame := [] } h]
    have := hg e { s with frame := [] }
    cases hr : ev2 e { s with frame := [] } with
    | fail t =>
      rw [hr] at this
      exact ih _ (by have h2 : t.pt = s.pt := this.2.1; simpa [h2] using h)
    | _ => rfl

theorem starLoop_valid {ev1 ev2 : St → Out} (hg : ∀ s, Good o2 s (ev2 s))
    (hev : ∀ s, ValidRest s.pt.rest → ev1 s = ev2 s) (n : Nat)
    (acc : List Val) (s : St) (h : ValidRest s.pt.rest) :
    starLoop ev1 n acc s = starLoop ev2 n acc s := by
  induction n generalizing acc s with
  | zero => rfl
  | succ n ih =>
    simp only [starLoop]
    rw [hev { s with frame := [] } h]
    have := hg { s with frame := [] }
    cases hr : ev2 { s with frame := [] } with
    | ok v t => rw [hr] at this; exact ih _ _ (h.adv this.2.1)
    | _ => rfl

include hi hw hm in
/-- On valid input the option `AllowInvalidUTF8` makes no difference. -/
theorem eval_valid (G : Gram) (n : Nat) (e : Ex) (s : St) (h : ValidRest s.pt.rest) :
    eval o1 G n e s = eval o2 G n e s := by
  induction n generalizing e s with
  | zero => rfl
  | succ n ih =>
    have hc : tooMany o2 (s.cnt + 1) = tooMany o1 (s.cnt + 1) := by simp only [tooMany, hm]
    simp only [eval, hc]
    cases tooMany o1 (s.cnt + 1)
    case true => rfl
    case false =>
      simp only [Bool.false_eq_true, if_false]
      have hg := fun e s => eval_good o2 G n e s
      have hs : ValidRest ({ s with cnt := s.cnt + 1 } : St).pt.rest := h
      revert hs
      generalize ({ s with cnt := s.cnt + 1 } : St) = s
      intro h
      have h0 : ∀ e, eval o1 G n e { s with frame := [] } = eval o2 G n e { s with frame := [] } :=
        fun e => ih e _ h
      unfold step
      cases e with
      | action a e => simp only [ih e s h, runAct_opts o1 o2 hi]
      | andCode c => rfl
      | any =>
        simp only
        split
        · rfl
        · rename_i hn
          rw [read_valid (o1 := o1) (o2 := o2) (Pt.rest_ne_of_not_atEof hn) h]
      | cls val inv chars ranges =>
        simp only
        split
        · rfl
        · rename_i hn
          rw [read_valid (o1 := o1) (o2 := o2) (Pt.rest_ne_of_not_atEof hn) h]
      | choice alts => exact choiceLoop_valid hg ih alts s h
      | labeled l e => simp only [h0]
      | lit v => exact litLoop_valid _ _ _ _ h
      | not e => simp only [ih e { s with frame := [], mfInv := !s.mfInv } h]
      | plus e =>
        simp only [h0]
        have := hg e { s with frame := [] }
        cases hr : eval o2 G n e { s with frame := [] } with
        | ok v t =>
          rw [hr] at this
          exact starLoop_valid (hg e) (ih e) n _ _ (h.adv this.2.1)
        | _ => rfl
      | ref r =>
        simp only [evalRule]
        rw [ih (G r) { s with rstack := r :: s.rstack, frame := [] } h]
      | seq es => exact seqLoop_valid hg ih s es [] s h
      | state c => cases c <;> simp only [runState, hw]
      | star e => exact starLoop_valid (hg e) (ih e) n [] s h
      | opt e => simp only [h0]

end

end Verif
