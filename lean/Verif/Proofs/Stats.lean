import Verif.Spec.Picks
import Verif.Proofs.Attempts
/-
The counters of `Statistics` against the choices decided (Spec/Picks.lean).
-/
namespace Verif
open Spec Stats

/-! ### The counters change nothing else -/

section
variable {o : Opts} {w : Bytes}

theorem seqLoopC_proj {ev : Place → Ex → CSt → COut} {ev' : Ex → St → Out} (h : ∀ k e m, (ev k e m).out = ev' e m.s)
    (k : Place) (s0 : St) (i : Nat) (es : List Ex) (acc : List Val) (m : CSt) :
    (seqLoopC ev k s0 i es acc m).out = seqLoop ev' s0 es acc m.s := by
  induction es generalizing i acc m with
  | nil => rfl
  | cons e es ih =>
    simp only [seqLoopC, seqLoop]
    have h1 := h (k.sub i) e m
    rw [← h1]
    cases ev (k.sub i) e m with
    | ok v t => exact ih (i + 1) (acc ++ [v]) t
    | _ => rfl

theorem choiceLoopC_proj {ev : Place → Ex → CSt → COut} {ev' : Ex → St → Out} (h : ∀ k e m, (ev k e m).out = ev' e m.s)
    (k : Place) (i : Nat) (es : List Ex) (m : CSt) :
    (choiceLoopC ev w k i es m).out = choiceLoop ev' es m.s := by
  induction es generalizing i m with
  | nil => rfl
  | cons e es ih =>
    simp only [choiceLoopC, choiceLoop]
    have h1 := h (k.sub i) e { m with s := { m.s with frame := [] } }
    rw [← h1]
    cases ev (k.sub i) e { m with s := { m.s with frame := [] } } with
    | fail t => exact ih (i + 1) { t with s := { t.s with frame := m.s.frame, warns := m.s.warns } }
    | _ => rfl

theorem starLoopC_proj {ev : CSt → COut} {ev' : St → Out} (h : ∀ m, (ev m).out = ev' m.s) (n : Nat) (acc : List Val)
    (m : CSt) : (starLoopC ev n acc m).out = starLoop ev' n acc m.s := by
  induction n generalizing acc m with
  | zero => rfl
  | succ n ih =>
    simp only [starLoopC, starLoop]
    have h1 := h { m with s := { m.s with frame := [] } }
    rw [← h1]
    cases ev { m with s := { m.s with frame := [] } } with
    | ok v t => exact ih (acc ++ [v]) { t with s := { t.s with frame := m.s.frame } }
    | _ => rfl

theorem lift_out (c : Counters) (r : Out) : (Stats.lift c r).out = r := by cases r <;> rfl

theorem evalRuleC_proj {ev : Place → Ex → CSt → COut} {ev' : Ex → St → Out} (h : ∀ k e m, (ev k e m).out = ev' e m.s)
    (r : Rule) (m : CSt) : (evalRuleC ev gram r m).out = evalRule ev' gram r m.s := by
  simp only [evalRuleC, evalRule]
  rw [← h ⟨r, []⟩ (gram r) { m with s := { m.s with rstack := r :: m.s.rstack, frame := [] } }]
  cases ev ⟨r, []⟩ (gram r) { m with s := { m.s with rstack := r :: m.s.rstack, frame := [] } } <;> rfl

theorem stepC_proj {ev : Place → Ex → CSt → COut} {ev' : Ex → St → Out} (h : ∀ k e m, (ev k e m).out = ev' e m.s)
    (n : Nat) (k : Place) (e : Ex) (m : CSt) : (stepC o w gram ev n k e m).out = step o gram ev' n e m.s := by
  cases e with
  | action a e =>
    simp only [stepC, step]
    rw [← h (k.sub 0) e m]
    cases ev (k.sub 0) e m with
    | ok v t =>
      simp only [COut.out]
      cases runAct o a t.s.frame m.s.pt.pos (sliceFrom m.s.pt t.s.pt) t.s.warns <;> rfl
    | _ => rfl
  | andCode c => simp only [stepC, step, lift_out]
  | any => simp only [stepC, lift_out]; rfl
  | cls => simp only [stepC, lift_out]; rfl
  | lit => simp only [stepC, lift_out]; rfl
  | state => simp only [stepC, lift_out]; rfl
  | choice es => exact choiceLoopC_proj h k 0 es m
  | labeled l e =>
    simp only [stepC, step]
    rw [← h (k.sub 0) e { m with s := { m.s with frame := [] } }]
    cases ev (k.sub 0) e { m with s := { m.s with frame := [] } } <;> rfl
  | not e =>
    simp only [stepC, step]
    rw [← h (k.sub 0) e { m with s := { m.s with frame := [], mfInv := !m.s.mfInv } }]
    cases ev (k.sub 0) e { m with s := { m.s with frame := [], mfInv := !m.s.mfInv } } <;> rfl
  | plus e =>
    simp only [stepC, step]
    rw [← h (k.sub 0) e { m with s := { m.s with frame := [] } }]
    cases ev (k.sub 0) e { m with s := { m.s with frame := [] } } with
    | ok v t => exact starLoopC_proj (h (k.sub 0) e) n [v] { t with s := { t.s with frame := m.s.frame } }
    | _ => rfl
  | ref r => exact evalRuleC_proj h r m
  | seq es => exact seqLoopC_proj h k m.s 0 es [] m
  | star e => exact starLoopC_proj (h (k.sub 0) e) n [] m
  | opt e =>
    simp only [stepC, step]
    rw [← h (k.sub 0) e { m with s := { m.s with frame := [] } }]
    cases ev (k.sub 0) e { m with s := { m.s with frame := [] } } <;> rfl

theorem evalC_proj (n : Nat) (k : Place) (e : Ex) (m : CSt) : (evalC o w gram n k e m).out = eval o gram n e m.s := by
  induction n generalizing k e m with
  | zero => rfl
  | succ n ih =>
    simp only [evalC, eval]
    split
    · rfl
    · exact stepC_proj ih n k e { m with s := { m.s with cnt := m.s.cnt + 1 } }

end

/-! ### What is counted -/

/-- The counters after the choices `l`. -/
def tally (w : Bytes) (l : List Pick) (c : Counters) : Counters := fun x y => c x y + pickCount w l x y

theorem tally_nil (w : Bytes) (c : Counters) : tally w [] c = c := rfl

theorem tally_append (w : Bytes) (l l' : List Pick) (c : Counters) : tally w (l ++ l') c = tally w l' (tally w l c) := by
  funext x y
  simp only [tally, pickCount, List.filter_append, List.length_append]
  omega

theorem inc_tally (w : Bytes) (k : Place) (i : Option Nat) (m : CSt) (h : m.s.rstack.head? = some k.rule) :
    (CSt.inc w k i m).c = tally w [⟨k, i⟩] m.c := by
  funext x y
  have h0 : (CSt.inc w k i m).c x y =
      if x = choiceIdent m.s.rstack.head? k.spot ∧ y = pickAlt w ⟨k, i⟩ then m.c x y + 1 else m.c x y := by
    cases i <;> rfl
  have h1 : choiceIdent (some k.rule) k.spot = pickIdent ⟨k, i⟩ := rfl
  rw [h0, h, h1]
  simp only [tally, pickCount, List.filter]
  by_cases hx : x = pickIdent ⟨k, i⟩ ∧ y = pickAlt w ⟨k, i⟩
  · rw [if_pos hx]
    obtain ⟨rfl, rfl⟩ := hx
    simp
  · rw [if_neg hx]
    have : ¬ (pickIdent ⟨k, i⟩ = x ∧ pickAlt w ⟨k, i⟩ = y) := fun ⟨a, b⟩ => hx ⟨a.symm, b.symm⟩
    simp [this]

/-- The outcome agrees with the choices decided. -/
def Counted (o : Opts) (w : Bytes) (k : Place) (j : Job) (b : Bytes) (cnt : Nat) (c : Counters) (rs : List Rule) : COut → Prop
  | .ok _ t => ∃ n l, Picks k j b n l (.ok t.s.pt.rest) ∧ t.s.cnt = cnt + n ∧ t.c = tally w l c ∧ t.s.rstack = rs
  | .fail t => ∃ n l, Picks k j b n l .fail ∧ t.s.cnt = cnt + n ∧ t.c = tally w l c ∧ t.s.rstack = rs
  | .panic m t => (m = maxExprMsg ∧ o.maxExpr ≠ none) ∨ m = convMsg ∨
      ∃ n l, Picks k j b n l .fatal ∧ t.s.cnt = cnt + n ∧ t.c = tally w l c
  | .timeout => True

/-- Any way of ending. -/
theorem counted_map {o : Opts} {w : Bytes} {k k' : Place} {j j' : Job} {b b' : Bytes} {cnt cnt' : Nat} {c c' : Counters}
    {rs : List Rule} {r : COut} (n0 : Nat) (l0 : List Pick) (h1 : cnt = cnt' + n0) (h2 : c = tally w l0 c')
    (hf : ∀ n l x, Picks k j b n l x → Picks k' j' b' (n0 + n) (l0 ++ l) x) (h : Counted o w k j b cnt c rs r) :
    Counted o w k' j' b' cnt' c' rs r := by
  cases r with
  | timeout => exact True.intro
  | panic m t =>
    rcases h with h | h | ⟨n, l, h, e1, e2⟩
    · exact .inl h
    · exact .inr (.inl h)
    · exact .inr (.inr ⟨_, _, hf n l _ h, by omega, by rw [e2, h2, tally_append]⟩)
  | ok v t =>
    obtain ⟨n, l, h, e1, e2, e3⟩ := h
    exact ⟨_, _, hf n l _ h, by omega, by rw [e2, h2, tally_append], e3⟩
  | fail t =>
    obtain ⟨n, l, h, e1, e2, e3⟩ := h
    exact ⟨_, _, hf n l _ h, by omega, by rw [e2, h2, tally_append], e3⟩

theorem counted_panic {o : Opts} {w : Bytes} {k k' : Place} {j j' : Job} {b : Bytes} {cnt cnt' : Nat} {c : Counters}
    {rs rs' : List Rule} {m : Bytes} {t : CSt} (h : Counted o w k j b cnt c rs (.panic m t)) (n0 : Nat) (h1 : cnt = cnt' + n0)
    (hf : ∀ n l, Picks k j b n l .fatal → Picks k' j' b (n0 + n) l .fatal) :
    Counted o w k' j' b cnt' c rs' (.panic m t) := by
  rcases h with h | h | ⟨n, l, h, e1, e2⟩
  · exact .inl h
  · exact .inr (.inl h)
  · exact .inr (.inr ⟨_, _, hf n l h, by omega, e2⟩)

section
variable {o : Opts} {w : Bytes} {ev : Place → Ex → CSt → COut}

/-- Evaluation of subexpressions agrees with the choices decided. -/
def EvCnt (o : Opts) (w : Bytes) (ev : Place → Ex → CSt → COut) : Prop :=
  ∀ k e m, m.s.rstack.head? = some k.rule → Counted o w k (.one e) m.s.pt.rest m.s.cnt m.c m.s.rstack (ev k e m)

theorem seqLoop_counted (h : EvCnt o w ev) (k : Place) (s0 : St) (i : Nat) (es : List Ex) (acc : List Val) (m : CSt)
    (hm : m.s.rstack.head? = some k.rule) :
    Counted o w k (.elems i es) m.s.pt.rest m.s.cnt m.c m.s.rstack (seqLoopC ev k s0 i es acc m) := by
  induction es generalizing i acc m with
  | nil => exact ⟨0, [], .elemsNil, rfl, rfl, rfl⟩
  | cons e es ih =>
    simp only [seqLoopC]
    have h1 := h (k.sub i) e m hm
    cases hr : ev (k.sub i) e m with
    | timeout => exact True.intro
    | panic x t =>
      rw [hr] at h1
      exact counted_panic h1 0 rfl fun n l h => by rw [Nat.zero_add]; exact .elemsNo (by simp) h
    | fail t =>
      rw [hr] at h1; obtain ⟨n, l, h1, h2, h3, h4⟩ := h1
      exact ⟨n, l, .elemsNo (by simp) h1, h2, h3, h4⟩
    | ok v t =>
      rw [hr] at h1; obtain ⟨n, l, h1, h2, h3, h4⟩ := h1
      simp only
      have h5 := ih (i + 1) (acc ++ [v]) t (by rw [h4]; exact hm)
      rw [h4] at h5
      exact counted_map n l h2 h3 (fun _ _ _ h => .elems h1 h) h5

theorem choiceLoop_counted (h : EvCnt o w ev) (hp : ∀ k e m t, ev k e m = .fail t → t.s.pt = m.s.pt) (k : Place) (i : Nat)
    (es : List Ex) (m : CSt) (hm : m.s.rstack.head? = some k.rule) :
    Counted o w k (.alts i es) m.s.pt.rest m.s.cnt m.c m.s.rstack (choiceLoopC ev w k i es m) := by
  induction es generalizing i m with
  | nil => exact ⟨0, [⟨k, none⟩], .altsNone, rfl, inc_tally w k none m hm, rfl⟩
  | cons e es ih =>
    simp only [choiceLoopC]
    have h1 := h (k.sub i) e { m with s := { m.s with frame := [] } } hm
    cases hr : ev (k.sub i) e { m with s := { m.s with frame := [] } } with
    | timeout => exact True.intro
    | panic x t =>
      rw [hr] at h1
      exact counted_panic h1 0 rfl fun n l h => by rw [Nat.zero_add]; exact .altsFatal h
    | ok v t =>
      rw [hr] at h1; obtain ⟨n, l, h1, h2, h3, h4⟩ := h1
      refine ⟨n, l ++ [⟨k, some i⟩], .altsThis h1, h2, ?_, h4⟩
      rw [inc_tally w k (some i) _ (by simp only; rw [h4]; exact hm), tally_append]
      simp only [h3]
    | fail t =>
      have hpt := hp _ _ _ _ hr
      rw [hr] at h1; obtain ⟨n, l, h1, h2, h3, h4⟩ := h1
      simp only at hpt h4 h3 h2 h1 ⊢
      have h5 := ih (i + 1) { t with s := { t.s with frame := m.s.frame, warns := m.s.warns } } (by simp only; rw [h4]; exact hm)
      have h6 : Counted o w k (.alts (i + 1) es) m.s.pt.rest t.s.cnt t.c m.s.rstack
          (choiceLoopC ev w k (i + 1) es { t with s := { t.s with frame := m.s.frame, warns := m.s.warns } }) := by
        rw [← hpt, ← h4]; exact h5
      exact counted_map n l h2 h3 (fun _ _ _ h => .altsNext h1 h) h6

theorem starLoop_counted (h : EvCnt o w ev) (hp : ∀ k e m t, ev k e m = .fail t → t.s.pt = m.s.pt) (k : Place) (e : Ex)
    (n : Nat) (acc : List Val) (m : CSt) (hm : m.s.rstack.head? = some k.rule) :
    Counted o w k (.many e) m.s.pt.rest m.s.cnt m.c m.s.rstack (starLoopC (ev k e) n acc m) := by
  induction n generalizing acc m with
  | zero => exact True.intro
  | succ n ih =>
    simp only [starLoopC]
    have h1 := h k e { m with s := { m.s with frame := [] } } hm
    cases hr : ev k e { m with s := { m.s with frame := [] } } with
    | timeout => exact True.intro
    | panic x t =>
      rw [hr] at h1
      exact counted_panic h1 0 rfl fun n l h => by rw [Nat.zero_add]; exact .manyFatal h
    | fail t =>
      have hpt := hp _ _ _ _ hr
      rw [hr] at h1; obtain ⟨n, l, h1, h2, h3, h4⟩ := h1
      simp only at hpt ⊢
      refine ⟨n, l, ?_, h2, h3, h4⟩
      simp only [hpt]
      exact .manyEnd h1
    | ok v t =>
      rw [hr] at h1; obtain ⟨n', l, h1, h2, h3, h4⟩ := h1
      simp only at h1 h2 h3 h4 ⊢
      have h5 := ih (acc ++ [v]) { t with s := { t.s with frame := m.s.frame } } (by simp only; rw [h4]; exact hm)
      have h6 : Counted o w k (.many e) t.s.pt.rest t.s.cnt t.c m.s.rstack
          (starLoopC (ev k e) n (acc ++ [v]) { t with s := { t.s with frame := m.s.frame } }) := by
        rw [← h4]; exact h5
      exact counted_map n' l h2 h3 (fun _ _ _ h => .many h1 h) h6

end

theorem read_tally (o : Opts) (s : St) : (s.read o).cnt = s.cnt ∧ (s.read o).rstack = s.rstack := by
  unfold St.read
  cases h : s.pt.next.invalid && !o.allowInvalid <;> simp [h, St.addErr, St.addErrAt]

theorem failAt_tally (s : St) (f : Bool) (p : Pos) (w : Bytes) :
    (s.failAt f p w).cnt = s.cnt ∧ (s.failAt f p w).rstack = s.rstack := by
  have := failAt_fields s f p w
  exact ⟨this.2.2.2.2.2.2.2.2.2, this.2.2.2.2.1⟩

theorem lit_counted {o : Opts} (want : Bytes) (start : Pt) (cs : Bytes) (s : St) :
    match litLoop o want start cs s with
    | .ok _ t => past cs s.pt.rest = some t.pt.rest ∧ t.cnt = s.cnt ∧ t.rstack = s.rstack
    | .fail t => past cs s.pt.rest = none ∧ t.cnt = s.cnt ∧ t.rstack = s.rstack
    | _ => False := by
  induction cs generalizing s with
  | nil =>
    simp only [litLoop, past]
    exact ⟨by rw [(failAt_fields _ _ _ _).1], failAt_tally _ _ _ _⟩
  | cons c cs ih =>
    simp only [litLoop, past]
    have : s.pt.rn = (decodeRune s.pt.rest).1 := rfl
    rw [this]
    by_cases hc : (decodeRune s.pt.rest).1 = c.toNat
    · have := ih (s.read o)
      rw [(read_fields o s).1, Pt.next_rest, (read_tally o s).1, (read_tally o s).2] at this
      simp only [if_pos hc]
      exact this
    · simp only [if_neg hc]
      exact ⟨trivial, failAt_tally _ _ _ _⟩

section
variable {o : Opts} {w : Bytes}

theorem step_counted (n : Nat) (ih : EvCnt o w (evalC o w gram n)) (k : Place) (e : Ex) (m : CSt) (cnt : Nat)
    (hc : m.s.cnt = cnt + 1) (hm : m.s.rstack.head? = some k.rule) :
    Counted o w k (.one e) m.s.pt.rest cnt m.c m.s.rstack (stepC o w gram (evalC o w gram n) n k e m) := by
  have hp : ∀ k e m t, evalC o w gram n k e m = .fail t → t.s.pt = m.s.pt := by
    intro k e m t h
    have h1 := eval_good o gram n e m.s
    rw [← evalC_proj n k e m, h] at h1
    exact h1.2.1
  cases e with
  | action a e =>
    simp only [stepC]
    have h1 := ih (k.sub 0) e m hm
    cases hr : evalC o w gram n (k.sub 0) e m with
    | timeout => exact True.intro
    | panic x t =>
      rw [hr] at h1; exact counted_panic h1 1 hc fun n l h => by rw [Nat.add_comm]; exact .action h
    | fail t =>
      rw [hr] at h1; obtain ⟨n, l, h1, h2, h3⟩ := h1; exact ⟨n + 1, l, .action h1, by omega, h3⟩
    | ok v t =>
      rw [hr] at h1; obtain ⟨n, l, h1, h2, h3⟩ := h1
      simp only
      cases hact : runAct o a t.s.frame m.s.pt.pos (sliceFrom m.s.pt t.s.pt) t.s.warns with
      | val v => exact ⟨n + 1, l, .action h1, by simp only; omega, h3⟩
      | err v x => exact ⟨n + 1, l, .action h1, by simp only [St.addErrAt]; omega, h3⟩
      | panic x => exact .inr (.inl ((runAct_msgs _ _ _ _ _ _).2 _ hact))
  | andCode c =>
    cases c with
    | initParser => exact ⟨1, [], .initParser, hc, rfl, rfl⟩
    | pushError x => exact ⟨1, [], .pushError, hc, rfl, rfl⟩
    | fatalError x => exact .inr (.inr ⟨1, [], .fatalError, hc, rfl⟩)
  | any =>
    simp only [stepC, step]
    by_cases hx : m.s.pt.rest = []
    · rw [if_pos ((Pt.atEof_iff _).2 hx)]
      refine ⟨1, [], ?_, ?_, rfl, ?_⟩
      · rw [hx]; exact .anyEnd
      · rw [(failAt_tally _ _ _ _).1]; exact hc
      · exact (failAt_tally _ _ _ _).2
    · rw [if_neg (fun h => hx ((Pt.atEof_iff _).1 h))]
      refine ⟨1, [], ?_, ?_, rfl, ?_⟩
      · simp only [(failAt_fields _ _ _ _).1, (read_fields o _).1, Pt.next_rest]; exact .any hx
      · simp only [(failAt_tally _ _ _ _).1, (read_tally o _).1]; exact hc
      · simp only [(failAt_tally _ _ _ _).2, (read_tally o _).2]
  | cls val inv chars ranges =>
    simp only [stepC, step]
    have hrn : m.s.pt.rn = (decodeRune m.s.pt.rest).1 := rfl
    by_cases hx : m.s.pt.rest = []
    · rw [if_pos ((Pt.atEof_iff _).2 hx)]
      refine ⟨1, [], .clsNo (.inl hx), ?_, rfl, ?_⟩
      · rw [(failAt_tally _ _ _ _).1]; exact hc
      · exact (failAt_tally _ _ _ _).2
    · rw [if_neg (fun h => hx ((Pt.atEof_iff _).1 h)), hrn]
      split
      · rename_i hcl
        refine ⟨1, [], ?_, ?_, rfl, ?_⟩
        · simp only [(failAt_fields _ _ _ _).1, (read_fields o _).1, Pt.next_rest]
          exact .cls hx ((inClass_iff ..).1 hcl)
        · simp only [(failAt_tally _ _ _ _).1, (read_tally o _).1]; exact hc
        · simp only [(failAt_tally _ _ _ _).2, (read_tally o _).2]
      · rename_i hcl
        refine ⟨1, [], .clsNo (.inr (fun h => hcl ((inClass_iff ..).2 h))), ?_, rfl, ?_⟩
        · rw [(failAt_tally _ _ _ _).1]; exact hc
        · exact (failAt_tally _ _ _ _).2
  | choice alts =>
    exact counted_map 1 [] hc rfl (fun n l x h => by rw [Nat.add_comm]; exact .choice h)
      (choiceLoop_counted ih hp k 0 alts m hm)
  | labeled x e =>
    simp only [stepC]
    have h1 := ih (k.sub 0) e { m with s := { m.s with frame := [] } } hm
    cases hr : evalC o w gram n (k.sub 0) e { m with s := { m.s with frame := [] } } with
    | timeout => exact True.intro
    | panic x t =>
      rw [hr] at h1; exact counted_panic h1 1 hc fun n l h => by rw [Nat.add_comm]; exact .labeled h
    | fail t =>
      rw [hr] at h1; obtain ⟨n, l, h1, h2, h3⟩ := h1; exact ⟨n + 1, l, .labeled h1, by simp only at h2 ⊢; omega, h3⟩
    | ok v t =>
      rw [hr] at h1; obtain ⟨n, l, h1, h2, h3⟩ := h1; exact ⟨n + 1, l, .labeled h1, by simp only at h2 ⊢; omega, h3⟩
  | lit v =>
    have h1 := lit_counted (o := o) (litWant v) m.s.pt v m.s
    simp only [stepC, step]
    cases hr : litLoop o (litWant v) m.s.pt v m.s with
    | timeout => exact True.intro
    | panic x t => rw [hr] at h1; exact h1.elim
    | ok x t => rw [hr] at h1; exact ⟨1, [], .lit h1.1, h1.2.1.trans hc, rfl, h1.2.2⟩
    | fail t => rw [hr] at h1; exact ⟨1, [], .litNo h1.1, h1.2.1.trans hc, rfl, h1.2.2⟩
  | not e =>
    simp only [stepC]
    have h1 := ih (k.sub 0) e { m with s := { m.s with frame := [], mfInv := !m.s.mfInv } } hm
    cases hr : evalC o w gram n (k.sub 0) e { m with s := { m.s with frame := [], mfInv := !m.s.mfInv } } with
    | timeout => exact True.intro
    | panic x t =>
      rw [hr] at h1; exact counted_panic h1 1 hc fun n l h => by rw [Nat.add_comm]; exact .notFatal h
    | fail t =>
      rw [hr] at h1; obtain ⟨n, l, h1, h2, h3⟩ := h1; exact ⟨n + 1, l, .notNo h1, by simp only at h2 ⊢; omega, h3⟩
    | ok v t =>
      rw [hr] at h1; obtain ⟨n, l, h1, h2, h3⟩ := h1; exact ⟨n + 1, l, .not h1, by simp only at h2 ⊢; omega, h3⟩
  | plus e =>
    simp only [stepC]
    have h1 := ih (k.sub 0) e { m with s := { m.s with frame := [] } } hm
    cases hr : evalC o w gram n (k.sub 0) e { m with s := { m.s with frame := [] } } with
    | timeout => exact True.intro
    | panic x t =>
      rw [hr] at h1; exact counted_panic h1 1 hc fun n l h => by rw [Nat.add_comm]; exact .plusNo (by simp) h
    | fail t =>
      rw [hr] at h1; obtain ⟨n, l, h1, h2, h3⟩ := h1
      exact ⟨n + 1, l, .plusNo (by simp) h1, by simp only at h2 ⊢; omega, h3⟩
    | ok v t =>
      rw [hr] at h1; obtain ⟨n', l, h1, h2, h3, h4⟩ := h1
      simp only at h1 h2 h3 h4 ⊢
      have h5 := starLoop_counted ih hp (k.sub 0) e n [v] { t with s := { t.s with frame := m.s.frame } }
        (by simp only; rw [h4]; exact hm)
      have h6 : Counted o w (k.sub 0) (.many e) t.s.pt.rest t.s.cnt t.c m.s.rstack
          (starLoopC (evalC o w gram n (k.sub 0) e) n [v] { t with s := { t.s with frame := m.s.frame } }) := by
        rw [← h4]; exact h5
      exact counted_map (n' + 1) l (by omega) h3 (fun n l x h => by
        have := Picks.plus h1 h
        rw [show n' + 1 + n = n' + n + 1 by omega]; exact this) h6
  | ref r =>
    simp only [stepC, evalRuleC]
    have h1 := ih ⟨r, []⟩ (gram r) { m with s := { m.s with rstack := r :: m.s.rstack, frame := [] } } rfl
    cases hr : evalC o w gram n ⟨r, []⟩ (gram r) { m with s := { m.s with rstack := r :: m.s.rstack, frame := [] } } with
    | timeout => exact True.intro
    | panic x t =>
      rw [hr] at h1; exact counted_panic h1 1 hc fun n l h => by rw [Nat.add_comm]; exact .ref h
    | fail t =>
      rw [hr] at h1; obtain ⟨n, l, h1, h2, h3, h4⟩ := h1
      exact ⟨n + 1, l, .ref h1, by simp only at h2 ⊢; omega, h3, rfl⟩
    | ok v t =>
      rw [hr] at h1; obtain ⟨n, l, h1, h2, h3, h4⟩ := h1
      exact ⟨n + 1, l, .ref h1, by simp only at h2 ⊢; omega, h3, rfl⟩
  | seq es =>
    exact counted_map 1 [] hc rfl (fun n l x h => by rw [Nat.add_comm]; exact .seq h)
      (seqLoop_counted ih k m.s 0 es [] m hm)
  | state c =>
    have h1 : (runState o c m.s).pt = m.s.pt ∧ (runState o c m.s).cnt = m.s.cnt ∧
        (runState o c m.s).rstack = m.s.rstack := by
      cases c <;> simp only [runState] <;> first | (split <;> simp) | simp
    refine ⟨1, [], ?_, h1.2.1.trans hc, rfl, h1.2.2⟩
    simp only [h1.1]; exact .state
  | star e =>
    exact counted_map 1 [] hc rfl (fun n l x h => by rw [Nat.add_comm]; exact .star h)
      (starLoop_counted ih hp (k.sub 0) e n [] m hm)
  | opt e =>
    simp only [stepC]
    have h1 := ih (k.sub 0) e { m with s := { m.s with frame := [] } } hm
    cases hr : evalC o w gram n (k.sub 0) e { m with s := { m.s with frame := [] } } with
    | timeout => exact True.intro
    | panic x t =>
      rw [hr] at h1; exact counted_panic h1 1 hc fun n l h => by rw [Nat.add_comm]; exact .opt (by simp) h
    | ok v t =>
      rw [hr] at h1; obtain ⟨n, l, h1, h2, h3⟩ := h1
      exact ⟨n + 1, l, .opt (by simp) h1, by simp only at h2 ⊢; omega, h3⟩
    | fail t =>
      have hpt := hp _ _ _ _ hr
      rw [hr] at h1; obtain ⟨n, l, h1, h2, h3⟩ := h1
      simp only at h1 h2 h3 hpt ⊢
      refine ⟨n + 1, l, ?_, by simp only; omega, h3⟩
      simp only [hpt]
      exact .optNo h1

theorem eval_counted (n : Nat) : EvCnt o w (evalC o w gram n) := by
  induction n with
  | zero => intro k e m _; exact True.intro
  | succ n ih =>
    intro k e m hm
    simp only [evalC]
    split
    · rename_i h
      refine .inl ⟨rfl, fun hn => ?_⟩
      rw [tooMany, hn] at h
      cases h
    · exact step_counted n ih k e { m with s := { m.s with cnt := m.s.cnt + 1 } } m.s.cnt rfl hm

end

end Verif
