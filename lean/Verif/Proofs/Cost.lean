import Verif.Proofs.RunIff
/-
The number of expressions evaluated (`ExprCnt`): a big-step relation without values, positions and
state, and its relation to the engine.
-/
namespace Verif

/-- Outcome of an evaluation, control flow only. -/
inductive CR
  | ok (b : Bytes)
  | fail
  | fatal
deriving DecidableEq

/-- What is left after a literal. -/
def litRest : Bytes → Bytes → Option Bytes
  | [], b => some b
  | c :: cs, b => if (decodeRune b).1 = c.toNat then litRest cs (nextB b) else none

/-- `Cost e b n r`: evaluating `e` on the remaining input `b` takes `n` evaluations of expressions
(including `e` itself) and ends in `r`. -/
inductive Cost : Ex → Bytes → Nat → CR → Prop
  | action {a e b n r} : Cost e b n r → Cost (.action a e) b (n + 1) r
  | initParser {b} : Cost (.andCode .initParser) b 1 (.ok b)
  | pushError {m b} : Cost (.andCode (.pushError m)) b 1 .fail
  | fatalError {m b} : Cost (.andCode (.fatalError m)) b 1 .fatal
  | any {b} : b ≠ [] → Cost .any b 1 (.ok (nextB b))
  | anyEof : Cost .any [] 1 .fail
  | cls {x i c g b} : b ≠ [] → clsMatches i c g (decodeRune b).1 = true → Cost (.cls x i c g) b 1 (.ok (nextB b))
  | clsNo {x i c g b} : b = [] ∨ clsMatches i c g (decodeRune b).1 = false → Cost (.cls x i c g) b 1 .fail
  | choiceNil {b} : Cost (.choice []) b 1 .fail
  | choiceStop {e es b n r} : r ≠ .fail → Cost e b n r → Cost (.choice (e :: es)) b (n + 1) r
  | choiceNext {e es b n m r} : Cost e b n .fail → Cost (.choice es) b m r → Cost (.choice (e :: es)) b (n + m) r
  | labeled {l e b n r} : Cost e b n r → Cost (.labeled l e) b (n + 1) r
  | lit {v b b'} : litRest v b = some b' → Cost (.lit v) b 1 (.ok b')
  | litNo {v b} : litRest v b = none → Cost (.lit v) b 1 .fail
  | notOk {e b n b'} : Cost e b n (.ok b') → Cost (.not e) b (n + 1) .fail
  | notFail {e b n} : Cost e b n .fail → Cost (.not e) b (n + 1) (.ok b)
  | notFatal {e b n} : Cost e b n .fatal → Cost (.not e) b (n + 1) .fatal
  | plusStop {e b n r} : (∀ b', r ≠ .ok b') → Cost e b n r → Cost (.plus e) b (n + 1) r
  | plusNext {e b n b' m r} : Cost e b n (.ok b') → Cost (.star e) b' m r → Cost (.plus e) b (n + m) r
  | ref {x b n r} : Cost (gram x) b n r → Cost (.ref x) b (n + 1) r
  | seqNil {b} : Cost (.seq []) b 1 (.ok b)
  | seqStop {e es b n r} : (∀ b', r ≠ .ok b') → Cost e b n r → Cost (.seq (e :: es)) b (n + 1) r
  | seqNext {e es b n b' m r} : Cost e b n (.ok b') → Cost (.seq es) b' m r → Cost (.seq (e :: es)) b (n + m) r
  | state {c b} : Cost (.state c) b 1 (.ok b)
  | starEnd {e b n} : Cost e b n .fail → Cost (.star e) b (n + 1) (.ok b)
  | starFatal {e b n} : Cost e b n .fatal → Cost (.star e) b (n + 1) .fatal
  | starNext {e b n b' m r} : Cost e b n (.ok b') → Cost (.star e) b' m r → Cost (.star e) b (n + m) r
  | optOk {e b n r} : r ≠ .fail → Cost e b n r → Cost (.opt e) b (n + 1) r
  | optNo {e b n} : Cost e b n .fail → Cost (.opt e) b (n + 1) (.ok b)

/-- `Pre e b n`: the evaluation of `e` on the remaining input `b` can be interrupted after `n` evaluations of
expressions, by an action whose expression has succeeded. -/
inductive Pre : Ex → Bytes → Nat → Prop
  | here {a e b n b'} : Cost e b n (.ok b') → Pre (.action a e) b (n + 1)
  | action {a e b n} : Pre e b n → Pre (.action a e) b (n + 1)
  | choiceStop {e es b n} : Pre e b n → Pre (.choice (e :: es)) b (n + 1)
  | choiceNext {e es b n m} : Cost e b n .fail → Pre (.choice es) b m → Pre (.choice (e :: es)) b (n + m)
  | labeled {l e b n} : Pre e b n → Pre (.labeled l e) b (n + 1)
  | not {e b n} : Pre e b n → Pre (.not e) b (n + 1)
  | plusStop {e b n} : Pre e b n → Pre (.plus e) b (n + 1)
  | plusNext {e b n b' m} : Cost e b n (.ok b') → Pre (.star e) b' m → Pre (.plus e) b (n + m)
  | ref {x b n} : Pre (gram x) b n → Pre (.ref x) b (n + 1)
  | seqStop {e es b n} : Pre e b n → Pre (.seq (e :: es)) b (n + 1)
  | seqNext {e es b n b' m} : Cost e b n (.ok b') → Pre (.seq es) b' m → Pre (.seq (e :: es)) b (n + m)
  | starStop {e b n} : Pre e b n → Pre (.star e) b (n + 1)
  | starNext {e b n b' m} : Cost e b n (.ok b') → Pre (.star e) b' m → Pre (.star e) b (n + m)
  | opt {e b n} : Pre e b n → Pre (.opt e) b (n + 1)

/-! ### The engine -/

theorem read_cnt (o : Opts) (s : St) : (s.read o).cnt = s.cnt := by
  unfold St.read
  cases h : s.pt.next.invalid && !o.allowInvalid <;> simp [h, St.addErr, St.addErrAt]

theorem failAt_cnt (s : St) (f : Bool) (p : Pos) (w : Bytes) : (s.failAt f p w).cnt = s.cnt :=
  (failAt_fields s f p w).2.2.2.2.2.2.2.2.2

/-- The outcome costs what `Cost` says. `c` is the count before. -/
def Costs (e : Ex) (b : Bytes) (c : Nat) : Out → Prop
  | .ok _ t => ∃ k, Cost e b k (.ok t.pt.rest) ∧ t.cnt = c + k
  | .fail t => ∃ k, Cost e b k .fail ∧ t.cnt = c + k
  | .panic _ t => (∃ k, Pre e b k ∧ t.cnt = c + k) ∨ ∃ k, Cost e b k .fatal ∧ t.cnt = c + k
  | .timeout => True

section
variable {o : Opts}

theorem litLoop_cost (want : Bytes) (start : Pt) (cs : Bytes) (s : St) :
    match litLoop o want start cs s with
    | .ok _ t => litRest cs s.pt.rest = some t.pt.rest ∧ t.cnt = s.cnt
    | .fail t => litRest cs s.pt.rest = none ∧ t.cnt = s.cnt
    | _ => False := by
  induction cs generalizing s with
  | nil =>
    have h := failAt_cnt s true start.pos want
    have h' := (failAt_fields s true start.pos want).1
    simp [litLoop, litRest, h, h']
  | cons c cs ih =>
    simp only [litLoop, litRest]
    have : s.pt.rn = (decodeRune s.pt.rest).1 := rfl
    rw [this]
    by_cases hc : (decodeRune s.pt.rest).1 = c.toNat
    · have := ih (s.read o)
      rw [(read_fields o s).1, Pt.next_rest, read_cnt] at this
      simp only [if_pos hc]
      exact this
    · simp only [if_neg hc]
      exact ⟨trivial, failAt_cnt s false start.pos want⟩

variable {ev : Ex → St → Out}

/-- Evaluation of sub-expressions costs what it should. -/
def EvC (ev : Ex → St → Out) : Prop := ∀ e s, Costs e s.pt.rest s.cnt (ev e s)

theorem seqLoop_cost (h : EvC ev) (s0 : St) (es : List Ex) (acc : List Val) (s : St) :
    Costs (.seq es) s.pt.rest (s.cnt - 1) (seqLoop ev s0 es acc s) ∨ s.cnt = 0 := by
  induction es generalizing acc s with
  | nil =>
    by_cases hs : s.cnt = 0
    · exact .inr hs
    · exact .inl ⟨1, .seqNil, by omega⟩
  | cons e es ih =>
    by_cases hs : s.cnt = 0
    · exact .inr hs
    left
    simp only [seqLoop]
    have h1 := h e s
    cases hr : ev e s with
    | timeout => exact True.intro
    | fail t =>
      rw [hr] at h1
      obtain ⟨k, h1, h2⟩ := h1
      exact ⟨k + 1, .seqStop (by simp) h1, by simp only; omega⟩
    | panic m t =>
      rw [hr] at h1
      rcases h1 with ⟨k, h1, h2⟩ | ⟨k, h1, h2⟩
      · exact .inl ⟨_, .seqStop h1, by omega⟩
      · exact .inr ⟨k + 1, .seqStop (by simp) h1, by omega⟩
    | ok v t =>
      rw [hr] at h1
      obtain ⟨k, h1, h2⟩ := h1
      simp only
      rcases ih (acc ++ [v]) t with h3 | h3
      · cases hq : seqLoop ev s0 es (acc ++ [v]) t with
        | timeout => exact True.intro
        | fail u =>
          rw [hq] at h3; obtain ⟨k', h3, h4⟩ := h3
          exact ⟨_, .seqNext h1 h3, by omega⟩
        | ok w u =>
          rw [hq] at h3; obtain ⟨k', h3, h4⟩ := h3
          exact ⟨_, .seqNext h1 h3, by omega⟩
        | panic m u =>
          rw [hq] at h3
          rcases h3 with ⟨k', h3, h4⟩ | ⟨k', h3, h4⟩
          · exact .inl ⟨_, .seqNext h1 h3, by omega⟩
          · exact .inr ⟨_, .seqNext h1 h3, by omega⟩
      · omega

theorem choiceLoop_cost (h : EvC ev) (hp : ∀ e s t, ev e s = .fail t → t.pt = s.pt) (es : List Ex) (s : St) :
    Costs (.choice es) s.pt.rest (s.cnt - 1) (choiceLoop ev es s) ∨ s.cnt = 0 := by
  induction es generalizing s with
  | nil =>
    by_cases hs : s.cnt = 0
    · exact .inr hs
    · exact .inl ⟨1, .choiceNil, by omega⟩
  | cons e es ih =>
    by_cases hs : s.cnt = 0
    · exact .inr hs
    left
    simp only [choiceLoop]
    have h1 := h e { s with frame := [] }
    cases hr : ev e { s with frame := [] } with
    | timeout => exact True.intro
    | ok v t =>
      rw [hr] at h1
      obtain ⟨k, h1, h2⟩ := h1
      exact ⟨k + 1, .choiceStop (by simp) h1, by simp only at h2 ⊢; omega⟩
    | panic m t =>
      rw [hr] at h1
      rcases h1 with ⟨k, h1, h2⟩ | ⟨k, h1, h2⟩
      · exact .inl ⟨_, .choiceStop h1, by simp only at h2; omega⟩
      · exact .inr ⟨k + 1, .choiceStop (by simp) h1, by simp only at h2; omega⟩
    | fail t =>
      have hpt := hp _ _ _ hr
      rw [hr] at h1
      obtain ⟨k, h1, h2⟩ := h1
      simp only at h1 h2 hpt ⊢
      rcases ih { t with frame := s.frame, warns := s.warns } with h3 | h3
      · replace h3 : Costs (.choice es) s.pt.rest (t.cnt - 1)
            (choiceLoop ev es { t with frame := s.frame, warns := s.warns }) := by rw [← hpt]; exact h3
        cases hq : choiceLoop ev es { t with frame := s.frame, warns := s.warns } with
        | timeout => exact True.intro
        | fail u =>
          rw [hq] at h3; obtain ⟨k', h3, h4⟩ := h3
          exact ⟨_, .choiceNext h1 h3, by omega⟩
        | ok w u =>
          rw [hq] at h3; obtain ⟨k', h3, h4⟩ := h3
          exact ⟨_, .choiceNext h1 h3, by omega⟩
        | panic m u =>
          rw [hq] at h3
          rcases h3 with ⟨k', h3, h4⟩ | ⟨k', h3, h4⟩
          · exact .inl ⟨_, .choiceNext h1 h3, by omega⟩
          · exact .inr ⟨_, .choiceNext h1 h3, by omega⟩
      · simp only at h3; omega

theorem starLoop_cost (h : EvC ev) (hp : ∀ e s t, ev e s = .fail t → t.pt = s.pt) (e : Ex) (n : Nat)
    (acc : List Val) (s : St) :
    Costs (.star e) s.pt.rest (s.cnt - 1) (starLoop (ev e) n acc s) ∨ s.cnt = 0 := by
  induction n generalizing acc s with
  | zero => exact .inl trivial
  | succ n ih =>
    by_cases hs : s.cnt = 0
    · exact .inr hs
    left
    simp only [starLoop]
    have h1 := h e { s with frame := [] }
    cases hr : ev e { s with frame := [] } with
    | timeout => exact True.intro
    | fail t =>
      have hpt := hp _ _ _ hr
      rw [hr] at h1
      obtain ⟨k, h1, h2⟩ := h1
      simp only at h1 h2 hpt
      refine ⟨k + 1, ?_, by simp only; omega⟩
      simp only [hpt]
      exact .starEnd h1
    | panic m t =>
      rw [hr] at h1
      rcases h1 with ⟨k, h1, h2⟩ | ⟨k, h1, h2⟩
      · exact .inl ⟨_, .starStop h1, by simp only at h2; omega⟩
      · exact .inr ⟨k + 1, .starFatal h1, by simp only at h2; omega⟩
    | ok v t =>
      rw [hr] at h1
      obtain ⟨k, h1, h2⟩ := h1
      simp only at h1 h2 ⊢
      rcases ih (acc ++ [v]) { t with frame := s.frame } with h3 | h3
      · simp only at h3
        cases hq : starLoop (ev e) n (acc ++ [v]) { t with frame := s.frame } with
        | timeout => exact True.intro
        | fail u =>
          rw [hq] at h3; obtain ⟨k', h3, h4⟩ := h3
          exact ⟨_, .starNext h1 h3, by omega⟩
        | ok w u =>
          rw [hq] at h3; obtain ⟨k', h3, h4⟩ := h3
          exact ⟨_, .starNext h1 h3, by omega⟩
        | panic m u =>
          rw [hq] at h3
          rcases h3 with ⟨k', h3, h4⟩ | ⟨k', h3, h4⟩
          · exact .inl ⟨_, .starNext h1 h3, by omega⟩
          · exact .inr ⟨_, .starNext h1 h3, by omega⟩
      · simp only at h3; omega

theorem step_cost (n : Nat) (ih : EvC (eval o gram n)) (e : Ex) (s : St) (e4 : s.cnt ≠ 0) :
    Costs e s.pt.rest (s.cnt - 1) (step o gram (eval o gram n) n e s) := by
    have hp : ∀ e s t, eval o gram n e s = .fail t → t.pt = s.pt := by
      intro e s t h
      have := eval_good o gram n e s
      rw [h] at this
      exact this.2.1
    unfold step
    cases e with
    | action a e =>
      simp only
      have h1 := ih e s
      cases hr : eval o gram n e s with
      | timeout => exact True.intro
      | fail t =>
        rw [hr] at h1; obtain ⟨k, h1, h2⟩ := h1
        exact ⟨_, .action h1, by omega⟩
      | panic m t =>
        rw [hr] at h1
        rcases h1 with ⟨k, h1, h2⟩ | ⟨k, h1, h2⟩
        · exact .inl ⟨_, .action h1, by omega⟩
        · exact .inr ⟨_, .action h1, by omega⟩
      | ok v t =>
        rw [hr] at h1; obtain ⟨k, h1, h2⟩ := h1
        simp only
        cases hact : runAct o a t.frame s.pt.pos (sliceFrom s.pt t.pt) t.warns with
        | val v => exact ⟨_, .action h1, by simp only; omega⟩
        | err v m => exact ⟨_, .action h1, by simp only [St.addErrAt]; omega⟩
        | panic m => exact .inl ⟨_, .here h1, by simp only; omega⟩
    | andCode c =>
      cases c with
      | initParser => exact ⟨1, .initParser, by simp only; omega⟩
      | pushError m => exact ⟨1, .pushError, by simp only; omega⟩
      | fatalError m => exact .inr ⟨1, .fatalError, by simp only; omega⟩
    | any =>
      simp only
      by_cases hx : s.pt.rest = []
      · rw [if_pos ((Pt.atEof_iff _).2 hx), hx]
        exact ⟨1, .anyEof, by rw [failAt_cnt]; omega⟩
      · rw [if_neg (fun h => hx ((Pt.atEof_iff _).1 h))]
        refine ⟨1, ?_, by rw [failAt_cnt, read_cnt]; omega⟩
        rw [(failAt_fields _ _ _ _).1, (read_fields o s).1, Pt.next_rest]
        exact .any hx
    | cls val inv chars ranges =>
      simp only
      by_cases hx : s.pt.rest = []
      · rw [if_pos ((Pt.atEof_iff _).2 hx)]
        exact ⟨1, .clsNo (.inl hx), by rw [failAt_cnt]; omega⟩
      · rw [if_neg (fun h => hx ((Pt.atEof_iff _).1 h))]
        have hrn : s.pt.rn = (decodeRune s.pt.rest).1 := rfl
        rw [hrn]
        split
        · rename_i hc
          refine ⟨1, ?_, by rw [failAt_cnt, read_cnt]; omega⟩
          rw [(failAt_fields _ _ _ _).1, (read_fields o s).1, Pt.next_rest]
          exact .cls hx hc
        · rename_i hc
          exact ⟨1, .clsNo (.inr (by simpa using hc)), by rw [failAt_cnt]; omega⟩
    | choice alts => exact (choiceLoop_cost ih hp alts s).resolve_right e4
    | labeled l e =>
      simp only
      have h1 := ih e { s with frame := [] }
      cases hr : eval o gram n e { s with frame := [] } with
      | timeout => exact True.intro
      | ok v t => rw [hr] at h1; obtain ⟨k, h1, h2⟩ := h1; exact ⟨_, .labeled h1, by simp only at h2 ⊢; omega⟩
      | fail t => rw [hr] at h1; obtain ⟨k, h1, h2⟩ := h1; exact ⟨_, .labeled h1, by simp only at h2 ⊢; omega⟩
      | panic m t =>
        rw [hr] at h1
        rcases h1 with ⟨k, h1, h2⟩ | ⟨k, h1, h2⟩
        · exact .inl ⟨_, .labeled h1, by simp only at h2; omega⟩
        · exact .inr ⟨_, .labeled h1, by simp only at h2; omega⟩
    | lit v =>
      have h1 := litLoop_cost (o := o) (litWant v) s.pt v s
      simp only
      cases hr : litLoop o (litWant v) s.pt v s with
      | timeout => exact True.intro
      | ok w t => rw [hr] at h1; exact ⟨1, .lit h1.1, by omega⟩
      | fail t => rw [hr] at h1; exact ⟨1, .litNo h1.1, by omega⟩
      | panic m t => rw [hr] at h1; exact h1.elim
    | not e =>
      simp only
      have h1 := ih e { s with frame := [], mfInv := !s.mfInv }
      cases hr : eval o gram n e { s with frame := [], mfInv := !s.mfInv } with
      | timeout => exact True.intro
      | ok v t => rw [hr] at h1; obtain ⟨k, h1, h2⟩ := h1; exact ⟨_, .notOk h1, by simp only at h2 ⊢; omega⟩
      | fail t => rw [hr] at h1; obtain ⟨k, h1, h2⟩ := h1; exact ⟨_, .notFail h1, by simp only at h2 ⊢; omega⟩
      | panic m t =>
        rw [hr] at h1
        rcases h1 with ⟨k, h1, h2⟩ | ⟨k, h1, h2⟩
        · exact .inl ⟨_, .not h1, by simp only at h2; omega⟩
        · exact .inr ⟨_, .notFatal h1, by simp only at h2; omega⟩
    | plus e =>
      simp only
      have h1 := ih e { s with frame := [] }
      cases hr : eval o gram n e { s with frame := [] } with
      | timeout => exact True.intro
      | fail t => rw [hr] at h1; obtain ⟨k, h1, h2⟩ := h1; exact ⟨_, .plusStop (by simp) h1, by simp only at h2 ⊢; omega⟩
      | panic m t =>
        rw [hr] at h1
        rcases h1 with ⟨k, h1, h2⟩ | ⟨k, h1, h2⟩
        · exact .inl ⟨_, .plusStop h1, by simp only at h2; omega⟩
        · exact .inr ⟨_, .plusStop (by simp) h1, by simp only at h2; omega⟩
      | ok v t =>
        rw [hr] at h1; obtain ⟨k, h1, h2⟩ := h1
        simp only at h1 h2 ⊢
        have h3 := (starLoop_cost ih hp e n [v] { t with frame := s.frame }).resolve_right (by simp only; omega)
        cases hq : starLoop (eval o gram n e) n [v] { t with frame := s.frame } with
        | timeout => exact True.intro
        | fail u => rw [hq] at h3; obtain ⟨k', h3, h4⟩ := h3; exact ⟨_, .plusNext h1 h3, by simp only at h4; omega⟩
        | ok w u => rw [hq] at h3; obtain ⟨k', h3, h4⟩ := h3; exact ⟨_, .plusNext h1 h3, by simp only at h4; omega⟩
        | panic m u =>
          rw [hq] at h3
          rcases h3 with ⟨k', h3, h4⟩ | ⟨k', h3, h4⟩
          · exact .inl ⟨_, .plusNext h1 h3, by simp only at h4; omega⟩
          · exact .inr ⟨_, .plusNext h1 h3, by simp only at h4; omega⟩
    | ref r =>
      simp only [evalRule]
      have h1 := ih (gram r) { s with rstack := r :: s.rstack, frame := [] }
      cases hr : eval o gram n (gram r) { s with rstack := r :: s.rstack, frame := [] } with
      | timeout => exact True.intro
      | ok v t => rw [hr] at h1; obtain ⟨k, h1, h2⟩ := h1; exact ⟨_, .ref h1, by simp only at h2 ⊢; omega⟩
      | fail t => rw [hr] at h1; obtain ⟨k, h1, h2⟩ := h1; exact ⟨_, .ref h1, by simp only at h2 ⊢; omega⟩
      | panic m t =>
        rw [hr] at h1
        rcases h1 with ⟨k, h1, h2⟩ | ⟨k, h1, h2⟩
        · exact .inl ⟨_, .ref h1, by simp only at h2; omega⟩
        · exact .inr ⟨_, .ref h1, by simp only at h2; omega⟩
    | seq es => exact (seqLoop_cost ih s es [] s).resolve_right e4
    | state c =>
      have h1 : (runState o c s).pt = s.pt ∧ (runState o c s).cnt = s.cnt := by
        cases c <;> simp only [runState] <;> first | (split <;> simp) | simp
      refine ⟨1, ?_, by rw [h1.2]; omega⟩
      rw [h1.1]; exact .state
    | star e => exact (starLoop_cost ih hp e n [] s).resolve_right e4
    | opt e =>
      simp only
      have h1 := ih e { s with frame := [] }
      cases hr : eval o gram n e { s with frame := [] } with
      | timeout => exact True.intro
      | ok v t => rw [hr] at h1; obtain ⟨k, h1, h2⟩ := h1; exact ⟨_, .optOk (by simp) h1, by simp only at h2 ⊢; omega⟩
      | fail t =>
        have hpt := hp _ _ _ hr
        rw [hr] at h1; obtain ⟨k, h1, h2⟩ := h1
        refine ⟨_, ?_, by simp only at h2 ⊢; exact (by omega : t.cnt = s.cnt - 1 + (k + 1))⟩
        simp only at hpt ⊢
        rw [hpt]
        exact .optNo h1
      | panic m t =>
        rw [hr] at h1
        rcases h1 with ⟨k, h1, h2⟩ | ⟨k, h1, h2⟩
        · exact .inl ⟨_, .opt h1, by simp only at h2; omega⟩
        · exact .inr ⟨_, .optOk (by simp) h1, by simp only at h2; omega⟩

theorem eval_cost (hm : o.maxExpr = none) (n : Nat) : EvC (eval o gram n) := by
  induction n with
  | zero => intro e s; trivial
  | succ n ih =>
    intro e s
    simp only [eval, tooMany, hm, Bool.false_eq_true, if_false]
    exact step_cost n ih e { s with cnt := s.cnt + 1 } (by simp)

end

end Verif
