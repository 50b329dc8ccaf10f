import Verif.Proofs.Term
import Verif.Proofs.MapAst
import Verif.Proofs.Utf8
import Verif.Proofs.Parse
/-
The engine without bookkeeping: evaluation of grammar expressions on the remaining input only,
without positions, warnings, error texts and expression counting.  A run that records an error
(and so cannot end in a nil error) is the single outcome `abort`.  `eval_proj` relates it to the
engine of the model; `run` is its fuel-free version with one equation per expression.
-/
namespace Verif

open Spec

/-- Outcome of an evaluation. -/
inductive Res
  | ok (v : Val) (b : Bytes) (fr : Frame)
  | fail
  | abort
  | timeout
deriving Inhabited

/-- The text between two points given by the remaining input. -/
def consumed (b b' : Bytes) : Bytes := b.take (b.length - b'.length)

/-- One rune further. -/
def nextB (b : Bytes) : Bytes := b.drop (decodeRune b).2

/-- Literals. -/
def litR (start : Bytes) (fr : Frame) : Bytes → Bytes → Res
  | [], b => .ok (.bytes (consumed start b)) b fr
  | c :: cs, b => if (decodeRune b).1 = c.toNat then litR start fr cs (nextB b) else .fail

/-- Sequences. -/
def seqR (ev : Ex → Bytes → Frame → Res) : List Ex → List Val → Bytes → Frame → Res
  | [], acc, b, fr => .ok (.list acc) b fr
  | e :: es, acc, b, fr =>
    match ev e b fr with
    | .ok v b' fr' => seqR ev es (acc ++ [v]) b' fr'
    | r => r

/-- Ordered choice. -/
def choiceR (ev : Ex → Bytes → Frame → Res) : List Ex → Bytes → Frame → Res
  | [], _, _ => .fail
  | e :: es, b, fr =>
    match ev e b [] with
    | .ok v b' _ => .ok v b' fr
    | .fail => choiceR ev es b fr
    | r => r

/-- Repetition. -/
def starR (ev : Bytes → Res) (fr : Frame) : Nat → List Val → Bytes → Res
  | 0, _, _ => .timeout
  | n + 1, acc, b =>
    match ev b with
    | .ok v b' _ => starR ev fr n (acc ++ [v]) b'
    | .fail => .ok (.list acc) b fr
    | r => r

/-- Actions. -/
def actR (o : Opts) (a : Act) (b b' : Bytes) (fr' : Frame) : Res :=
  match runAct o a fr' Pos.zero (consumed b b') [] with
  | .val v => .ok v b' fr'
  | .err _ _ => .abort
  | .panic _ => .abort

/-- One expression. -/
def stepR (o : Opts) (G : Gram) (ev : Ex → Bytes → Frame → Res) (n : Nat) (e : Ex) (b : Bytes)
    (fr : Frame) : Res :=
  match e with
  | .action a e =>
    match ev e b fr with
    | .ok _ b' fr' => actR o a b b' fr'
    | r => r
  | .andCode .initParser => .ok .nil b fr
  | .andCode (.pushError _) => .fail
  | .andCode (.fatalError _) => .abort
  | .any => if b = [] then .fail else .ok (.bytes (consumed b (nextB b))) (nextB b) fr
  | .cls _ inv chars ranges =>
    if b = [] then .fail
    else if clsMatches inv chars ranges (decodeRune b).1 then
      .ok (.bytes (consumed b (nextB b))) (nextB b) fr
    else .fail
  | .choice alts => choiceR ev alts b fr
  | .labeled l e =>
    match ev e b [] with
    | .ok v b' _ => .ok v b' ((l, v) :: fr)
    | r => r
  | .lit v => litR b fr v b
  | .not e =>
    match ev e b [] with
    | .ok _ _ _ => .fail
    | .fail => .ok .nil b fr
    | r => r
  | .plus e =>
    match ev e b [] with
    | .ok v b' _ => starR (fun b => ev e b []) fr n [v] b'
    | r => r
  | .ref r =>
    match ev (G r) b [] with
    | .ok v b' _ => .ok v b' fr
    | r => r
  | .seq es => seqR ev es [] b fr
  | .state _ => .ok .nil b fr
  | .star e => starR (fun b => ev e b []) fr n [] b
  | .opt e =>
    match ev e b [] with
    | .ok v b' _ => .ok v b' fr
    | .fail => .ok .nil b fr
    | r => r

/-- Evaluation with fuel. -/
def reval (o : Opts) (G : Gram) : Nat → Ex → Bytes → Frame → Res
  | 0, _, _, _ => .timeout
  | n + 1, e, b, fr => stepR o G (reval o G n) n e b fr

/-! ### The projection of the engine -/

/-- Erase positions and warnings of a value. -/
def er : Val → Val := valMap .noPos (fun _ => [])
/-- Erase positions and warnings in a variable set. -/
def erF : Frame → Frame := (valVMap .noPos (fun _ => [])).fr

/-- What remains of an outcome of the engine. -/
def proj : Out → Res
  | .ok v s => if s.errs = [] then .ok (er v) s.pt.rest (erF s.frame) else .abort
  | .fail s => if s.errs = [] then .fail else .abort
  | .panic _ _ => .abort
  | .timeout => .timeout

theorem slice_consumed {ok : Bool} {p q : Pt} (h : Adv ok p q) : sliceFrom p q = consumed p.rest q.rest := by
  obtain ⟨h1, h2, h3⟩ := h.offset_le
  unfold sliceFrom consumed
  have hl := h.length_le
  congr 1
  rw [h3, List.length_drop]; omega

theorem consumed_append (x b : Bytes) : consumed (x ++ b) b = x := by
  simp [consumed]

/-- Once an error is recorded, the outcome is an abort. -/
theorem proj_bad {o : Opts} {s : St} {r : Out} (hg : Good o s r) (h : s.errs ≠ []) (hr : r ≠ .timeout) :
    proj r = .abort := by
  cases r with
  | ok v t =>
    obtain ⟨x, hx⟩ := hg.1.errs
    simp [proj, hx, h]
  | fail t =>
    obtain ⟨x, hx⟩ := hg.1.errs
    simp [proj, hx, h]
  | panic m t => rfl
  | timeout => exact absurd rfl hr

/-- No read from here on can record an error. -/
def Fine (o : Opts) (b : Bytes) : Prop := o.allowInvalid = true ∨ ValidRest b

theorem Fine.adv {o : Opts} {p q : Pt} (h : Fine o p.rest) (ha : Adv false p q) : Fine o q.rest := by
  rcases h with h | h
  · exact .inl h
  · exact .inr (h.adv ha)

theorem Fine.read_errs {o : Opts} {s : St} (h : Fine o s.pt.rest) (hne : s.pt.rest ≠ []) :
    (s.read o).errs = s.errs := by
  obtain ⟨-, -, -, -, -, h1, h2⟩ := read_fields o s
  apply h1
  rcases h with h | h
  · simp [h]
  · have : s.pt.next.invalid = false := h s.pt s.pt.next rfl (.step _ _ hne (by simp) (.refl _))
    simp [this]

theorem Adv.one {p : Pt} (hne : p.rest ≠ []) : Adv false p p.next :=
  .step _ _ hne (by simp) (.refl _)

theorem litLoop_proj (o : Opts) (want : Bytes) (start : Pt) (cs : Bytes) (s : St) (he : s.errs = [])
    (hv : Fine o s.pt.rest) (ha : Adv false start s.pt) :
    proj (litLoop o want start cs s) = litR start.rest (erF s.frame) cs s.pt.rest := by
  induction cs generalizing s with
  | nil =>
    obtain ⟨f1, f2, -, f4, -⟩ := failAt_fields s true start.pos want
    simp only [litLoop, litR, proj, f1, f2, f4, he, if_true, slice_consumed ha]
    rfl
  | cons c cs ih =>
    simp only [litLoop, litR]
    have : s.pt.rn = (decodeRune s.pt.rest).1 := rfl
    rw [this]
    split
    · rename_i hc
      have hne : s.pt.rest ≠ [] := Pt.rest_ne_of_rn (p := s.pt) hc
      obtain ⟨r1, -, r3, -⟩ := read_fields o s
      rw [ih (s.read o) (by rw [hv.read_errs hne, he])
        (by rw [r1]; exact hv.adv (.one hne)) (by rw [r1]; exact ha.trans (.one hne)), r1, r3, Pt.next_rest]
      rfl
    · obtain ⟨f1, f2, -⟩ := failAt_fields s false start.pos want
      simp [proj, f2, he]

section
variable {o : Opts}

/-- `proj` of a success or failure is an abort exactly when an error is recorded. -/
theorem proj_ok_abort {v : Val} {s : St} : proj (.ok v s) = .abort ↔ s.errs ≠ [] := by
  simp [proj]

theorem proj_ok1 {v : Val} {s : St} (h : s.errs = []) :
    proj (.ok v s) = .ok (er v) s.pt.rest (erF s.frame) := by simp [proj, h]
theorem proj_fail1 {s : St} (h : s.errs = []) : proj (.fail s) = .fail := by simp [proj, h]

theorem proj_fail_abort {s : St} : proj (.fail s) = .abort ↔ s.errs ≠ [] := by
  simp [proj]

theorem seqLoop_bad {ev : Ex → St → Out} (hb : ∀ e s, s.errs ≠ [] → ev e s ≠ .timeout → proj (ev e s) = .abort)
    (s0 : St) (es : List Ex) (acc : List Val) (s : St) (he : s.errs ≠ [])
    (hn : seqLoop ev s0 es acc s ≠ .timeout) : proj (seqLoop ev s0 es acc s) = .abort := by
  induction es generalizing acc s with
  | nil => simp [seqLoop, proj, he]
  | cons e es ih =>
    simp only [seqLoop] at hn ⊢
    have h1 := hb e s he
    cases hr : ev e s with
    | timeout => rw [hr] at hn; exact absurd rfl hn
    | ok v t => rw [hr] at h1 hn; exact ih _ t (proj_ok_abort.1 (h1 (by simp))) hn
    | fail t => rw [hr] at h1; have h3 := proj_fail_abort.1 (h1 (by simp)); exact proj_fail_abort.2 h3
    | panic m t => rfl

theorem choiceLoop_bad {ev : Ex → St → Out} (hb : ∀ e s, s.errs ≠ [] → ev e s ≠ .timeout → proj (ev e s) = .abort)
    (es : List Ex) (s : St) (he : s.errs ≠ [])
    (hn : choiceLoop ev es s ≠ .timeout) : proj (choiceLoop ev es s) = .abort := by
  induction es generalizing s with
  | nil => simp [choiceLoop, proj, he]
  | cons e es ih =>
    simp only [choiceLoop] at hn ⊢
    have h1 := hb e { s with frame := [] } he
    cases hr : ev e { s with frame := [] } with
    | timeout => rw [hr] at hn; exact absurd rfl hn
    | ok v t => rw [hr] at h1; have h3 := proj_ok_abort.1 (h1 (by simp)); exact proj_ok_abort.2 h3
    | fail t =>
      rw [hr] at h1 hn
      exact ih { t with frame := s.frame, warns := s.warns } (proj_fail_abort.1 (h1 (by simp))) hn
    | panic m t => rfl

theorem starLoop_bad {ev : St → Out} (hb : ∀ s, s.errs ≠ [] → ev s ≠ .timeout → proj (ev s) = .abort)
    (n : Nat) (acc : List Val) (s : St) (he : s.errs ≠ [])
    (hn : starLoop ev n acc s ≠ .timeout) : proj (starLoop ev n acc s) = .abort := by
  induction n generalizing acc s with
  | zero => exact absurd rfl hn
  | succ n ih =>
    simp only [starLoop] at hn ⊢
    have h1 := hb { s with frame := [] } he
    cases hr : ev { s with frame := [] } with
    | timeout => rw [hr] at hn; exact absurd rfl hn
    | ok v t =>
      rw [hr] at h1 hn
      have h3 := proj_ok_abort.1 (h1 (by simp))
      exact ih _ { t with frame := s.frame } h3 hn
    | fail t => rw [hr] at h1; have h3 := proj_fail_abort.1 (h1 (by simp)); exact proj_ok_abort.2 h3
    | panic m t => rfl

theorem eval_bad (G : Gram) (n : Nat) (e : Ex) (s : St) (he : s.errs ≠ [])
    (hn : eval o G n e s ≠ .timeout) : proj (eval o G n e s) = .abort :=
  proj_bad (eval_good o G n e s) he hn

/-- How the projected evaluation agrees with the engine's. -/
def Agree (o : Opts) (ev1 : Ex → St → Out) (ev2 : Ex → Bytes → Frame → Res) : Prop :=
  ∀ e s, s.errs = [] → Fine o s.pt.rest → ev1 e s ≠ .timeout →
      proj (ev1 e s) = ev2 e s.pt.rest (erF s.frame)

theorem er_list (l : List Val) : er (.list l) = .list (l.map er) := by
  unfold er; rw [valMap, valMapL_eq]

theorem erF_cons (l : Lbl) (v : Val) (f : Frame) : erF ((l, v) :: f) = (l, er v) :: erF f := rfl

section
variable {ev1 : Ex → St → Out} {ev2 : Ex → Bytes → Frame → Res}
  (hg : ∀ e s, Good o s (ev1 e s))
  (hb : ∀ e s, s.errs ≠ [] → ev1 e s ≠ .timeout → proj (ev1 e s) = .abort)
  (hev : Agree o ev1 ev2)
include hg hb hev

theorem seqLoop_proj (s0 : St) (es : List Ex) (acc : List Val) (s : St) (he : s.errs = [])
    (hv : Fine o s.pt.rest) (hn : seqLoop ev1 s0 es acc s ≠ .timeout) :
    proj (seqLoop ev1 s0 es acc s) = seqR ev2 es (acc.map er) s.pt.rest (erF s.frame) := by
  induction es generalizing acc s with
  | nil => simp [seqLoop, seqR, proj, he, er_list]
  | cons e es ih =>
    simp only [seqLoop] at hn ⊢
    simp only [seqR]
    have h1 := hev e s he hv
    have h2 := hg e s
    cases hr : ev1 e s with
    | timeout => rw [hr] at hn; exact absurd rfl hn
    | ok v t =>
      rw [hr] at h1 h2 hn
      have h1 := h1 (by simp)
      rw [← h1]
      simp only at hn ⊢
      by_cases ht : t.errs = []
      · rw [proj_ok1 ht]
        have := ih (acc ++ [v]) t ht (hv.adv h2.2.1) hn
        simpa using this
      · rw [proj_ok_abort.2 ht]
        exact seqLoop_bad hb s0 es _ t ht hn
    | fail t =>
      rw [hr] at h1
      rw [← h1 (by simp)]
      simp only [proj]
      split <;> rfl
    | panic m t =>
      rw [hr] at h1
      rw [← h1 (by simp)]
      rfl

theorem choiceLoop_proj (es : List Ex) (s : St) (he : s.errs = [])
    (hv : Fine o s.pt.rest) (hn : choiceLoop ev1 es s ≠ .timeout) :
    proj (choiceLoop ev1 es s) = choiceR ev2 es s.pt.rest (erF s.frame) := by
  induction es generalizing s with
  | nil => simp [choiceLoop, choiceR, proj, he]
  | cons e es ih =>
    simp only [choiceLoop] at hn ⊢
    simp only [choiceR]
    have h1 := hev e { s with frame := [] } he hv
    have h2 := hg e { s with frame := [] }
    cases hr : ev1 e { s with frame := [] } with
    | timeout => rw [hr] at hn; exact absurd rfl hn
    | ok v t =>
      rw [hr] at h1
      have h1 := h1 (by simp)
      have e0 : erF ({ s with frame := [] } : St).frame = [] := rfl
      rw [e0] at h1
      simp only at h1 ⊢
      rw [← h1]
      by_cases ht : t.errs = [] <;> simp [proj, ht]
    | fail t =>
      rw [hr] at h1 h2 hn
      have h1 := h1 (by simp)
      have e0 : erF ({ s with frame := [] } : St).frame = [] := rfl
      rw [e0] at h1
      simp only at h1 hn ⊢
      rw [← h1]
      have hp : t.pt = s.pt := h2.2.1
      by_cases ht : t.errs = []
      · rw [proj_fail1 ht]
        have := ih { t with frame := s.frame, warns := s.warns } ht (by simpa [hp] using hv) hn
        simpa [hp] using this
      · rw [proj_fail_abort.2 ht]
        exact choiceLoop_bad hb es _ ht hn
    | panic m t =>
      rw [hr] at h1
      have h1 := h1 (by simp)
      have e0 : erF ({ s with frame := [] } : St).frame = [] := rfl
      rw [e0] at h1
      simp only at h1 ⊢
      rw [← h1]
      rfl

theorem starLoop_proj (e : Ex) (n : Nat) (acc : List Val) (s : St) (he : s.errs = [])
    (hv : Fine o s.pt.rest) (hn : starLoop (ev1 e) n acc s ≠ .timeout) :
    proj (starLoop (ev1 e) n acc s) =
      starR (fun b => ev2 e b []) (erF s.frame) n (acc.map er) s.pt.rest := by
  induction n generalizing acc s with
  | zero => exact absurd rfl hn
  | succ n ih =>
    simp only [starLoop] at hn ⊢
    simp only [starR]
    have h1 := hev e { s with frame := [] } he hv
    have h2 := hg e { s with frame := [] }
    have e0 : erF ({ s with frame := [] } : St).frame = [] := rfl
    rw [e0] at h1
    simp only at h1
    cases hr : ev1 e { s with frame := [] } with
    | timeout => rw [hr] at hn; exact absurd rfl hn
    | ok v t =>
      rw [hr] at h1 h2 hn
      rw [← h1 (by simp)]
      simp only at hn ⊢
      by_cases ht : t.errs = []
      · rw [proj_ok1 ht]
        have := ih (acc ++ [v]) { t with frame := s.frame } ht (hv.adv h2.2.1) hn
        simpa using this
      · rw [proj_ok_abort.2 ht]
        exact starLoop_bad (hb e) n _ _ ht hn
    | fail t =>
      rw [hr] at h1 h2
      rw [← h1 (by simp)]
      have hp : t.pt = s.pt := h2.2.1
      by_cases ht : t.errs = []
      · simp [proj, ht, hp, er_list]
      · simp [proj, ht]
    | panic m t =>
      rw [hr] at h1
      rw [← h1 (by simp)]
      rfl

end

theorem runAct_er (o : Opts) (a : Act) (fr : Frame) (pos : Pos) (text : Bytes) (w : List Bytes) :
    runAct o a (erF fr) Pos.zero text [] =
      (valVMap .noPos (fun _ => [])).act (runAct o a fr pos text w) :=
  runAct_map (m := .noPos) comOk_noPos (fun _ => []) rfl (fun _ => rfl) a fr pos text w

/-- The evaluation of the engine, projected. -/
theorem eval_proj (hm : o.maxExpr = none) (G : Gram) (n : Nat) :
    Agree o (eval o G n) (reval o G n) := by
  induction n with
  | zero => intro e s _ _ h; exact absurd rfl h
  | succ n ih =>
    intro e s he hv hn
    simp only [eval, tooMany, hm] at hn ⊢
    simp only [Bool.false_eq_true, if_false] at hn ⊢
    have e1 : s.errs = ({ s with cnt := s.cnt + 1 } : St).errs := rfl
    have e2 : s.pt = ({ s with cnt := s.cnt + 1 } : St).pt := rfl
    have e3 : s.frame = ({ s with cnt := s.cnt + 1 } : St).frame := rfl
    rw [e1] at he
    rw [e2] at hv
    rw [e2, e3]
    generalize ({ s with cnt := s.cnt + 1 } : St) = s at *
    simp only [reval]
    have hg := fun e s => eval_good o G n e s
    have hb := fun e s => eval_bad (o := o) G n e s
    have key : ∀ e (t : St), t.errs = s.errs → t.pt = s.pt → t.frame = [] →
        eval o G n e t ≠ .timeout → proj (eval o G n e t) = reval o G n e s.pt.rest [] := by
      intro e t h1 h2 h3 h4
      have := ih e t (by rw [h1, he]) (by rw [h2]; exact hv) h4
      rw [h2, h3] at this
      exact this
    unfold step at hn ⊢
    unfold stepR
    cases e with
    | action a e =>
      simp only at hn ⊢
      have h1 := ih e s he hv
      have h2 := hg e s
      cases hr : eval o G n e s with
      | timeout => rw [hr] at hn; exact absurd rfl hn
      | fail t =>
        rw [hr] at h1
        rw [← h1 (by simp)]
        by_cases ht : t.errs = [] <;> simp [proj, ht]
      | panic m t => rw [hr] at h1; rw [← h1 (by simp)]; rfl
      | ok v t =>
        rw [hr] at h1 h2
        rw [← h1 (by simp)]
        simp only
        by_cases ht : t.errs = []
        · simp only [proj, ht, if_true, actR]
          rw [runAct_er o a t.frame s.pt.pos (consumed s.pt.rest t.pt.rest) t.warns,
            ← slice_consumed h2.2.1]
          cases runAct o a t.frame s.pt.pos (sliceFrom s.pt t.pt) t.warns with
          | val v => simp [ht, VMap.act, er, valVMap]
          | err v m => simp [VMap.act, St.addErrAt]
          | panic m => simp [VMap.act]
        · simp only [proj, ht, if_false]
          cases runAct o a t.frame s.pt.pos (sliceFrom s.pt t.pt) t.warns with
          | val v => simp [ht]
          | err v m => simp [St.addErrAt]
          | panic m => rfl
    | andCode c =>
      cases c with
      | initParser => simp [runCode, proj, he]; rfl
      | pushError m => simp [runCode, proj, he]
      | fatalError m => simp [runCode, proj]
    | any =>
      simp only
      by_cases hx : s.pt.rest = []
      · rw [if_pos hx, if_pos ((Pt.atEof_iff _).2 hx)]
        obtain ⟨f1, f2, -⟩ := failAt_fields s false s.pt.pos b!"."
        simp [proj, f2, he]
      · rw [if_neg hx, if_neg (fun h => hx ((Pt.atEof_iff _).1 h))]
        obtain ⟨f1, f2, -, f4, -⟩ := failAt_fields (s.read o) true s.pt.pos b!"."
        obtain ⟨r1, -, r3, -⟩ := read_fields o s
        simp only [proj, f1, f2, f4, r1, r3, hv.read_errs hx, he, if_true,
          slice_consumed (Adv.one hx), er, valMap, Pt.next_rest]
        rfl
    | cls val inv chars ranges =>
      simp only
      by_cases hx : s.pt.rest = []
      · rw [if_pos hx, if_pos ((Pt.atEof_iff _).2 hx)]
        obtain ⟨f1, f2, -⟩ := failAt_fields s false s.pt.pos val
        simp [proj, f2, he]
      · rw [if_neg hx, if_neg (fun h => hx ((Pt.atEof_iff _).1 h))]
        have hrn : s.pt.rn = (decodeRune s.pt.rest).1 := rfl
        rw [hrn]
        split
        · obtain ⟨f1, f2, -, f4, -⟩ := failAt_fields (s.read o) true s.pt.pos val
          obtain ⟨r1, -, r3, -⟩ := read_fields o s
          simp only [proj, f1, f2, f4, r1, r3, hv.read_errs hx, he, if_true,
            slice_consumed (Adv.one hx), er, valMap, Pt.next_rest]
          rfl
        · obtain ⟨f1, f2, -⟩ := failAt_fields s false s.pt.pos val
          simp [proj, f2, he]
    | choice alts => exact choiceLoop_proj hg hb ih alts s he hv hn
    | labeled l e =>
      simp only at hn ⊢
      have h1 := key e { s with frame := [] } rfl rfl rfl
      cases hr : eval o G n e { s with frame := [] } with
      | timeout => rw [hr] at hn; exact absurd rfl hn
      | ok v t =>
        rw [hr] at h1; rw [← h1 (by simp)]
        by_cases ht : t.errs = [] <;> simp [proj, ht, erF_cons]
      | fail t =>
        rw [hr] at h1; rw [← h1 (by simp)]
        by_cases ht : t.errs = [] <;> simp [proj, ht]
      | panic m t => rw [hr] at h1; rw [← h1 (by simp)]; rfl
    | lit v => exact litLoop_proj o (litWant v) s.pt v s he hv (.refl _)
    | not e =>
      simp only at hn ⊢
      have h1 := key e { s with frame := [], mfInv := !s.mfInv } rfl rfl rfl
      cases hr : eval o G n e { s with frame := [], mfInv := !s.mfInv } with
      | timeout => rw [hr] at hn; exact absurd rfl hn
      | ok v t =>
        rw [hr] at h1; rw [← h1 (by simp)]
        by_cases ht : t.errs = [] <;> simp [proj, ht]
      | fail t =>
        rw [hr] at h1; rw [← h1 (by simp)]
        by_cases ht : t.errs = [] <;> simp [proj, ht]
        rfl
      | panic m t => rw [hr] at h1; rw [← h1 (by simp)]; rfl
    | plus e =>
      simp only at hn ⊢
      have h1 := key e { s with frame := [] } rfl rfl rfl
      have h2 := hg e { s with frame := [] }
      cases hr : eval o G n e { s with frame := [] } with
      | timeout => rw [hr] at hn; exact absurd rfl hn
      | ok v t =>
        rw [hr] at h1 h2 hn; rw [← h1 (by simp)]
        simp only at hn ⊢
        by_cases ht : t.errs = []
        · rw [proj_ok1 ht]
          have := starLoop_proj hg hb ih e n [v] { t with frame := s.frame } ht (hv.adv h2.2.1) hn
          simpa using this
        · rw [proj_ok_abort.2 ht]
          exact starLoop_bad (hb e) n _ _ ht hn
      | fail t =>
        rw [hr] at h1; rw [← h1 (by simp)]
        by_cases ht : t.errs = [] <;> simp [proj, ht]
      | panic m t => rw [hr] at h1; rw [← h1 (by simp)]; rfl
    | ref r =>
      simp only [evalRule] at hn ⊢
      have h1 := key (G r) { s with rstack := r :: s.rstack, frame := [] } rfl rfl rfl
      cases hr : eval o G n (G r) { s with rstack := r :: s.rstack, frame := [] } with
      | timeout => rw [hr] at hn; exact absurd rfl hn
      | ok v t =>
        rw [hr] at h1; rw [← h1 (by simp)]
        by_cases ht : t.errs = [] <;> simp [proj, ht]
      | fail t =>
        rw [hr] at h1; rw [← h1 (by simp)]
        by_cases ht : t.errs = [] <;> simp [proj, ht]
      | panic m t => rw [hr] at h1; rw [← h1 (by simp)]; rfl
    | seq es => exact seqLoop_proj hg hb ih s es [] s he hv hn
    | state c =>
      obtain ⟨h1, h2, h3⟩ : (runState o c s).pt = s.pt ∧ (runState o c s).errs = s.errs ∧
          (runState o c s).frame = s.frame := by
        cases c <;> simp only [runState] <;> first | (split <;> simp) | simp
      simp [proj, h1, h2, h3, he]; rfl
    | star e => exact starLoop_proj hg hb ih e n [] s he hv hn
    | opt e =>
      simp only at hn ⊢
      have h1 := key e { s with frame := [] } rfl rfl rfl
      have h2 := hg e { s with frame := [] }
      cases hr : eval o G n e { s with frame := [] } with
      | timeout => rw [hr] at hn; exact absurd rfl hn
      | ok v t =>
        rw [hr] at h1; rw [← h1 (by simp)]
        by_cases ht : t.errs = [] <;> simp [proj, ht]
      | fail t =>
        rw [hr] at h1 h2; rw [← h1 (by simp)]
        have hp : t.pt = s.pt := h2.2.1
        by_cases ht : t.errs = [] <;> simp [proj, ht, hp]
        rfl
      | panic m t => rw [hr] at h1; rw [← h1 (by simp)]; rfl

end

/-! ### Without fuel -/

section
variable {ev1 ev2 : Ex → Bytes → Frame → Res}

/-- `ev2` gives the same outcome wherever `ev1` gives one. -/
def Below (ev1 ev2 : Ex → Bytes → Frame → Res) : Prop :=
  ∀ e b fr, ev1 e b fr ≠ .timeout → ev2 e b fr = ev1 e b fr

theorem seqR_mono (h : Below ev1 ev2) (es : List Ex) (acc : List Val) (b : Bytes) (fr : Frame)
    (hn : seqR ev1 es acc b fr ≠ .timeout) : seqR ev2 es acc b fr = seqR ev1 es acc b fr := by
  induction es generalizing acc b fr with
  | nil => rfl
  | cons e es ih =>
    simp only [seqR] at hn ⊢
    cases h1 : ev1 e b fr with
    | timeout => rw [h1] at hn; exact absurd rfl hn
    | ok v b' fr' => rw [h1] at hn; rw [h _ _ _ (by simp [h1]), h1]; exact ih _ _ _ hn
    | _ => rw [h _ _ _ (by simp [h1]), h1]

theorem choiceR_mono (h : Below ev1 ev2) (es : List Ex) (b : Bytes) (fr : Frame)
    (hn : choiceR ev1 es b fr ≠ .timeout) : choiceR ev2 es b fr = choiceR ev1 es b fr := by
  induction es with
  | nil => rfl
  | cons e es ih =>
    simp only [choiceR] at hn ⊢
    cases h1 : ev1 e b [] with
    | timeout => rw [h1] at hn; exact absurd rfl hn
    | fail => rw [h1] at hn; rw [h _ _ _ (by simp [h1]), h1]; exact ih hn
    | _ => rw [h _ _ _ (by simp [h1]), h1]

theorem starR_mono (h : Below ev1 ev2) (e : Ex) (fr : Frame) (n m : Nat) (hm : n ≤ m) (acc : List Val)
    (b : Bytes) (hn : starR (fun b => ev1 e b []) fr n acc b ≠ .timeout) :
    starR (fun b => ev2 e b []) fr m acc b = starR (fun b => ev1 e b []) fr n acc b := by
  induction n generalizing m acc b with
  | zero => exact absurd rfl hn
  | succ n ih =>
    obtain ⟨m, rfl⟩ : ∃ k, m = k + 1 := ⟨m - 1, by omega⟩
    simp only [starR] at hn ⊢
    cases h1 : ev1 e b [] with
    | timeout => rw [h1] at hn; exact absurd rfl hn
    | ok v b' fr' => rw [h1] at hn; rw [h _ _ _ (by simp [h1]), h1]; exact ih _ (by omega) _ _ hn
    | _ => rw [h _ _ _ (by simp [h1]), h1]

theorem stepR_mono (o : Opts) (G : Gram) (h : Below ev1 ev2) (n m : Nat) (hm : n ≤ m) (e : Ex)
    (b : Bytes) (fr : Frame) (hn : stepR o G ev1 n e b fr ≠ .timeout) :
    stepR o G ev2 m e b fr = stepR o G ev1 n e b fr := by
  unfold stepR at hn ⊢
  cases e with
  | choice alts => exact choiceR_mono h alts b fr hn
  | seq es => exact seqR_mono h es [] b fr hn
  | star e => exact starR_mono h e fr n m hm [] b hn
  | plus e =>
    simp only at hn ⊢
    cases h1 : ev1 e b [] with
    | timeout => rw [h1] at hn; exact absurd rfl hn
    | ok v b' fr' =>
      rw [h1] at hn; rw [h _ _ _ (by simp [h1]), h1]; exact starR_mono h e fr n m hm _ _ hn
    | _ => rw [h _ _ _ (by simp [h1]), h1]
  | action a e =>
    simp only at hn ⊢
    cases h1 : ev1 e b fr with
    | timeout => rw [h1] at hn; exact absurd rfl hn
    | _ => rw [h _ _ _ (by simp [h1]), h1]
  | ref r =>
    simp only at hn ⊢
    cases h1 : ev1 (G r) b [] with
    | timeout => rw [h1] at hn; exact absurd rfl hn
    | _ => rw [h _ _ _ (by simp [h1]), h1]
  | labeled l e =>
    simp only at hn ⊢
    cases h1 : ev1 e b [] with
    | timeout => rw [h1] at hn; exact absurd rfl hn
    | _ => rw [h _ _ _ (by simp [h1]), h1]
  | not e =>
    simp only at hn ⊢
    cases h1 : ev1 e b [] with
    | timeout => rw [h1] at hn; exact absurd rfl hn
    | _ => rw [h _ _ _ (by simp [h1]), h1]
  | opt e =>
    simp only at hn ⊢
    cases h1 : ev1 e b [] with
    | timeout => rw [h1] at hn; exact absurd rfl hn
    | _ => rw [h _ _ _ (by simp [h1]), h1]
  | andCode c => cases c <;> rfl
  | _ => rfl

end

theorem reval_mono (o : Opts) (G : Gram) (n m : Nat) (hm : n ≤ m) : Below (reval o G n) (reval o G m) := by
  induction n generalizing m with
  | zero => intro e b fr hn; exact absurd rfl hn
  | succ n ih =>
    obtain ⟨m, rfl⟩ : ∃ k, m = k + 1 := ⟨m - 1, by omega⟩
    intro e b fr hn
    exact stepR_mono o G (ih m (by omega)) n m (by omega) e b fr hn

open Classical in
/-- Evaluation without fuel, on the grammar of the project. -/
noncomputable def run (o : Opts) (e : Ex) (b : Bytes) (fr : Frame) : Res :=
  if h : ∃ n, reval o gram n e b fr ≠ .timeout then reval o gram h.choose e b fr else .timeout

section
variable (o : Opts)

theorem run_of_reval {n : Nat} {e : Ex} {b : Bytes} {fr : Frame} (h : reval o gram n e b fr ≠ .timeout) :
    run o e b fr = reval o gram n e b fr := by
  have hx : ∃ n, reval o gram n e b fr ≠ .timeout := ⟨n, h⟩
  unfold run
  rw [dif_pos hx]
  have := hx.choose_spec
  rcases Nat.le_total n hx.choose with hle | hle
  · exact reval_mono o gram _ _ hle e b fr h
  · exact (reval_mono o gram _ _ hle e b fr this).symm

theorem below_run (n : Nat) : Below (reval o gram n) (run o) := fun _ _ _ h => run_of_reval o h

theorem reval_of_run {e : Ex} {b : Bytes} {fr : Frame} (h : run o e b fr ≠ .timeout) :
    ∃ n, ∀ m, n ≤ m → reval o gram m e b fr = run o e b fr := by
  unfold run at h ⊢
  split at h
  · rename_i hx
    exact ⟨hx.choose, fun m hm => by rw [dif_pos hx]; exact reval_mono o gram _ _ hm e b fr h⟩
  · exact absurd rfl h

theorem seqR_compact (es : List Ex) (acc : List Val) (b : Bytes) (fr : Frame)
    (hn : seqR (run o) es acc b fr ≠ .timeout) :
    ∃ n, ∀ m, n ≤ m → seqR (reval o gram m) es acc b fr = seqR (run o) es acc b fr := by
  induction es generalizing acc b fr with
  | nil => exact ⟨0, fun _ _ => rfl⟩
  | cons e es ih =>
    simp only [seqR] at hn ⊢
    cases h1 : run o e b fr with
    | timeout => rw [h1] at hn; exact absurd rfl hn
    | ok v b' fr' =>
      rw [h1] at hn
      obtain ⟨n1, h2⟩ := reval_of_run o (e := e) (b := b) (fr := fr) (by simp [h1])
      obtain ⟨n2, h3⟩ := ih _ _ _ hn
      exact ⟨max n1 n2, fun m hm => by rw [h2 m (by omega), h1]; exact h3 m (by omega)⟩
    | _ =>
      obtain ⟨n1, h2⟩ := reval_of_run o (e := e) (b := b) (fr := fr) (by simp [h1])
      exact ⟨n1, fun m hm => by rw [h2 m hm, h1]⟩

theorem choiceR_compact (es : List Ex) (b : Bytes) (fr : Frame)
    (hn : choiceR (run o) es b fr ≠ .timeout) :
    ∃ n, ∀ m, n ≤ m → choiceR (reval o gram m) es b fr = choiceR (run o) es b fr := by
  induction es with
  | nil => exact ⟨0, fun _ _ => rfl⟩
  | cons e es ih =>
    simp only [choiceR] at hn ⊢
    cases h1 : run o e b [] with
    | timeout => rw [h1] at hn; exact absurd rfl hn
    | fail =>
      rw [h1] at hn
      obtain ⟨n1, h2⟩ := reval_of_run o (e := e) (b := b) (fr := []) (by simp [h1])
      obtain ⟨n2, h3⟩ := ih hn
      exact ⟨max n1 n2, fun m hm => by rw [h2 m (by omega), h1]; exact h3 m (by omega)⟩
    | _ =>
      obtain ⟨n1, h2⟩ := reval_of_run o (e := e) (b := b) (fr := []) (by simp [h1])
      exact ⟨n1, fun m hm => by rw [h2 m hm, h1]⟩

/-- Put a value in front of a list result. -/
def Res.consV (v : Val) : Res → Res
  | .ok (.list l) b fr => .ok (.list (v :: l)) b fr
  | r => r

theorem starR_acc (ev : Bytes → Res) (fr : Frame) (n : Nat) (v : Val) (acc : List Val) (b : Bytes) :
    starR ev fr n (v :: acc) b = (starR ev fr n acc b).consV v := by
  induction n generalizing acc b with
  | zero => rfl
  | succ n ih =>
    simp only [starR]
    cases ev b with
    | ok w b' _ => exact ih (acc ++ [w]) b'
    | _ => rfl

theorem consV_timeout {v : Val} {r : Res} : r.consV v = .timeout ↔ r = .timeout := by
  cases r with
  | ok w b fr => cases w <;> simp [Res.consV]
  | _ => simp [Res.consV]

/-- The equation of a repetition. -/
theorem run_star (e : Ex) (b : Bytes) (fr : Frame) :
    run o (.star e) b fr = match run o e b [] with
      | .ok v b' _ => (run o (.star e) b' fr).consV v
      | .fail => .ok (.list []) b fr
      | r => r := by
  have key : ∀ n, reval o gram (n + 2) (.star e) b fr = match reval o gram (n + 1) e b [] with
      | .ok v b' _ => (starR (fun b => reval o gram (n + 1) e b []) fr n [] b').consV v
      | .fail => .ok (.list []) b fr
      | r => r := by
    intro n
    rw [reval, stepR, starR]
    cases reval o gram (n + 1) e b [] with
    | ok v b' _ => exact starR_acc _ _ _ _ _ _
    | _ => rfl
  have star2 : ∀ n b', reval o gram (n + 1) (.star e) b' fr =
      starR (fun b => reval o gram n e b []) fr n [] b' := fun n b' => rfl
  by_cases h1 : run o e b [] = .timeout
  · rw [h1]
    by_cases h2 : run o (.star e) b fr = .timeout
    · exact h2
    · exfalso
      obtain ⟨n, hn⟩ := reval_of_run o h2
      have := hn (n + 2) (by omega)
      rw [key] at this
      cases h3 : reval o gram (n + 1) e b [] with
      | timeout => rw [h3] at this; exact h2 this.symm
      | _ =>
        have h4 := run_of_reval o (n := n + 1) (e := e) (b := b) (fr := []) (by simp [h3])
        rw [h1, h3] at h4; cases h4
  · obtain ⟨n1, hn1⟩ := reval_of_run o h1
    have h4 := hn1
    cases h5 : run o e b [] with
    | timeout => exact absurd h5 h1
    | fail =>
      rw [run_of_reval o (n := n1 + 2) (by rw [key, hn1 _ (by omega), h5]; simp), key,
        hn1 _ (by omega), h5]
    | abort =>
      rw [run_of_reval o (n := n1 + 2) (by rw [key, hn1 _ (by omega), h5]; simp), key,
        hn1 _ (by omega), h5]
    | ok v b' fr' =>
      simp only
      by_cases h6 : run o (.star e) b' fr = .timeout
      · rw [h6]
        by_cases h2 : run o (.star e) b fr = .timeout
        · rw [h2]; rfl
        · exfalso
          obtain ⟨n2, hn2⟩ := reval_of_run o h2
          have := hn2 (n1 + n2 + 2) (by omega)
          rw [key, hn1 _ (by omega), h5] at this
          simp only at this
          have h7 : starR (fun b => reval o gram (n1 + n2 + 1) e b []) fr (n1 + n2) [] b' ≠ .timeout := by
            intro hh; rw [hh] at this; exact h2 this.symm
          have h8 := starR_mono (reval_mono o gram (n1 + n2 + 1) (n1 + n2 + 1) (by omega)) e fr (n1 + n2)
            (n1 + n2 + 1) (by omega) [] b' h7
          rw [← h8, ← star2] at h7
          rw [run_of_reval o h7] at h6
          exact h7 h6
      · obtain ⟨n2, hn2⟩ := reval_of_run o h6
        have h7 := hn2 (n1 + n2 + 1) (by omega)
        rw [star2] at h7
        have h8 := starR_mono (reval_mono o gram (n1 + n2) (n1 + n2 + 1) (by omega)) e fr (n1 + n2)
            (n1 + n2) (by omega) [] b' (by rw [h7]; exact h6)
        rw [h7] at h8
        have h9 := key (n1 + n2)
        rw [hn1 _ (by omega), h5] at h9
        simp only [h8] at h9
        rw [run_of_reval o (n := n1 + n2 + 2) (by rw [h9]; exact fun hh => h6 (consV_timeout.1 hh)), h9]

/-- The equation of a repetition with at least one occurrence. -/
theorem run_plus (e : Ex) (b : Bytes) (fr : Frame) :
    run o (.plus e) b fr = match run o e b [] with
      | .ok v b' _ => (run o (.star e) b' fr).consV v
      | r => r := by
  have key : ∀ n, reval o gram (n + 1) (.plus e) b fr = match reval o gram n e b [] with
      | .ok v b' _ => (reval o gram (n + 1) (.star e) b' fr).consV v
      | r => r := by
    intro n
    rw [reval, stepR]
    cases reval o gram n e b [] with
    | ok v b' _ => exact starR_acc _ _ _ _ _ _
    | _ => rfl
  by_cases h1 : run o e b [] = .timeout
  · rw [h1]
    by_cases h2 : run o (.plus e) b fr = .timeout
    · exact h2
    · exfalso
      obtain ⟨n, hn⟩ := reval_of_run o h2
      have := hn (n + 1) (by omega)
      rw [key] at this
      cases h3 : reval o gram n e b [] with
      | timeout => rw [h3] at this; exact h2 this.symm
      | _ =>
        have h4 := run_of_reval o (n := n) (e := e) (b := b) (fr := []) (by simp [h3])
        rw [h1, h3] at h4; cases h4
  · obtain ⟨n1, hn1⟩ := reval_of_run o h1
    cases h5 : run o e b [] with
    | timeout => exact absurd h5 h1
    | fail =>
      rw [run_of_reval o (n := n1 + 1) (by rw [key, hn1 _ (by omega), h5]; simp), key,
        hn1 _ (by omega), h5]
    | abort =>
      rw [run_of_reval o (n := n1 + 1) (by rw [key, hn1 _ (by omega), h5]; simp), key,
        hn1 _ (by omega), h5]
    | ok v b' fr' =>
      simp only
      by_cases h6 : run o (.star e) b' fr = .timeout
      · rw [h6]
        by_cases h2 : run o (.plus e) b fr = .timeout
        · rw [h2]; rfl
        · exfalso
          obtain ⟨n2, hn2⟩ := reval_of_run o h2
          have := hn2 (n1 + n2 + 1) (by omega)
          rw [key, hn1 _ (by omega), h5] at this
          simp only at this
          have h7 : reval o gram (n1 + n2 + 1) (.star e) b' fr ≠ .timeout := by
            intro hh; rw [hh] at this; exact h2 this.symm
          rw [run_of_reval o h7] at h6
          exact h7 h6
      · obtain ⟨n2, hn2⟩ := reval_of_run o h6
        have h9 := key (n1 + n2)
        rw [hn1 _ (by omega), h5] at h9
        simp only [hn2 (n1 + n2 + 1) (by omega)] at h9
        rw [run_of_reval o (n := n1 + n2 + 1) (by rw [h9]; exact fun hh => h6 (consV_timeout.1 hh)), h9]

/-- Is this a repetition? -/
def Ex.isRep : Ex → Bool
  | .star _ => true
  | .plus _ => true
  | _ => false

/-- The equation of every expression that is not a repetition. -/
theorem run_step (e : Ex) (he : e.isRep = false) (b : Bytes) (fr : Frame) :
    run o e b fr = stepR o gram (run o) 0 e b fr := by
  have nn : ∀ ev n, stepR o gram ev n e b fr = stepR o gram ev 0 e b fr := by
    intro ev n
    cases e <;> first | rfl | (simp [Ex.isRep] at he; done) | (rename_i c; cases c <;> rfl)
  by_cases hX : stepR o gram (run o) 0 e b fr = .timeout
  · rw [hX]
    by_cases h2 : run o e b fr = .timeout
    · exact h2
    · exfalso
      obtain ⟨n, hn⟩ := reval_of_run o h2
      have h3 := hn (n + 1) (by omega)
      rw [reval] at h3
      have h4 : stepR o gram (reval o gram n) n e b fr ≠ .timeout := by rw [h3]; exact h2
      have h5 := stepR_mono o gram (below_run o n) n n (by omega) e b fr h4
      rw [nn, hX] at h5
      exact h4 h5.symm
  · have hc : ∃ n, ∀ m, n ≤ m → stepR o gram (reval o gram m) 0 e b fr = stepR o gram (run o) 0 e b fr := by
      have one : ∀ e' b' fr', run o e' b' fr' ≠ .timeout →
          ∃ n, ∀ m, n ≤ m → reval o gram m e' b' fr' = run o e' b' fr' := fun _ _ _ h => reval_of_run o h
      unfold stepR at hX ⊢
      cases e with
      | choice alts => exact choiceR_compact o alts b fr hX
      | seq es => exact seqR_compact o es [] b fr hX
      | star e => simp [Ex.isRep] at he
      | plus e => simp [Ex.isRep] at he
      | action a e =>
        obtain ⟨n, hn⟩ := one e b fr (by intro hh; simp only [hh] at hX; exact hX trivial)
        exact ⟨n, fun m hm => by simp only [hn m hm]⟩
      | ref r =>
        obtain ⟨n, hn⟩ := one (gram r) b [] (by intro hh; simp only [hh] at hX; exact hX trivial)
        exact ⟨n, fun m hm => by simp only [hn m hm]⟩
      | labeled l e =>
        obtain ⟨n, hn⟩ := one e b [] (by intro hh; simp only [hh] at hX; exact hX trivial)
        exact ⟨n, fun m hm => by simp only [hn m hm]⟩
      | not e =>
        obtain ⟨n, hn⟩ := one e b [] (by intro hh; simp only [hh] at hX; exact hX trivial)
        exact ⟨n, fun m hm => by simp only [hn m hm]⟩
      | opt e =>
        obtain ⟨n, hn⟩ := one e b [] (by intro hh; simp only [hh] at hX; exact hX trivial)
        exact ⟨n, fun m hm => by simp only [hn m hm]⟩
      | andCode c => exact ⟨0, fun _ _ => by cases c <;> rfl⟩
      | _ => exact ⟨0, fun _ _ => rfl⟩
    obtain ⟨n, hn⟩ := hc
    have h1 : reval o gram (n + 1) e b fr = stepR o gram (run o) 0 e b fr := by
      rw [reval, nn, hn n (by omega)]
    rw [run_of_reval o (by rw [h1]; exact hX), h1]

end

end Verif
