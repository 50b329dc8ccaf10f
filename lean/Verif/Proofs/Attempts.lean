import Verif.Spec.Attempts
import Verif.Proofs.RunIff
/-
The bookkeeping of `maxFailPos` and `maxFailExpected` against the list of failed attempts of Spec/Attempts.lean.
-/
namespace Verif
open Spec

theorem past_tail (b : Bytes) : tailChar b = nextB b := rfl

theorem inClass_iff (i : Bool) (c : List Nat) (g : List (Nat × Nat)) (r : Nat) :
    clsMatches i c g r = true ↔ InClass i c g r := by
  unfold clsMatches InClass
  have h : (c.contains r || g.any (fun p => decide (p.1 ≤ r) && decide (r ≤ p.2))) = true ↔
      (r ∈ c ∨ ∃ p ∈ g, p.1 ≤ r ∧ r ≤ p.2) := by simp
  rw [← h]
  generalize (c.contains r || g.any (fun p => decide (p.1 ≤ r) && decide (r ≤ p.2))) = x
  cases x <;> cases i <;> simp

/-- The bookkeeping: farthest offset and tokens there; the last construct and the expectations not met. -/
abbrev Book := (Int × List Bytes) × (Nat × Bytes) × List Unmet

/-- The bookkeeping of tokens. -/
def rec1 (N : Nat) (f : Int × List Bytes) : Event → Int × List Bytes
  | .missed rest want =>
    let k : Int := ((N - rest.length : Nat) : Int)
    if k < f.1 then f else if k > f.1 then (k, [want]) else (f.1, f.2 ++ [want])
  | _ => f

/-- The bookkeeping of one event, in a text as long as `data`. -/
def Book.step (data : Bytes) (f : Book) (e : Event) : Book := (rec1 data.length f.1 e, note data f.2 e)

def St.bk (s : St) : Book :=
  ((s.mfPos.offset, s.mfExp), (s.curPos.offset.toNat, s.curText), s.hist.map FF.view)

/-- The place is in a text as long as `data`. -/
def At (data : Bytes) (s : St) : Prop := s.pt.offset + s.pt.rest.length = data.length

theorem failAt_bk {data : Bytes} (s : St) (f : Bool) (p : Pt) (w : Bytes) (hp : p.offset + p.rest.length = data.length) :
    (s.failAt f p.pos w).bk = (attempt s.mfInv f p.rest w).foldl (Book.step data) s.bk := by
  have hk : (data.length - p.rest.length : Nat) = p.offset := by omega
  unfold St.failAt attempt
  cases f <;> cases hi : s.mfInv <;>
    simp only [List.foldl, Book.step, rec1, note, St.bk, Pt.pos, hk] <;> first | rfl | skip
  all_goals
    simp only [beq_self_eq_true, if_true]
    by_cases h1 : (p.offset : Int) < s.mfPos.offset
    · simp [h1]
    · by_cases h2 : (p.offset : Int) > s.mfPos.offset
      · simp [h1, h2, hi]
      · have : (p.offset : Int) = s.mfPos.offset := by omega
        simp [h1, h2, hi]

theorem failAt_inv (s : St) (f : Bool) (p : Pos) (w : Bytes) : (s.failAt f p w).mfInv = s.mfInv := by
  unfold St.failAt
  split
  · split
    · rfl
    · simp only; split <;> rfl
  · rfl

theorem read_bk (o : Opts) (s : St) : (s.read o).bk = s.bk ∧ (s.read o).mfInv = s.mfInv := by
  unfold St.read
  cases h : s.pt.next.invalid && !o.allowInvalid <;> simp [h, St.addErr, St.addErrAt, St.bk]

theorem next_at (p : Pt) (data : Bytes) (h : p.offset + p.rest.length = data.length) :
    p.next.offset + p.next.rest.length = data.length := by
  have hw := decodeRune_width_le p.rest
  unfold Pt.next Pt.moveTo Pt.w
  split <;> simp only [List.length_drop] <;> omega


theorem read_at (o : Opts) {s : St} {data : Bytes} (h : At data s) : At data (s.read o) := by
  unfold At
  rw [(read_fields o s).1]
  exact next_at s.pt data h

/-- The outcome agrees with the list of events. -/
def Tried (data : Bytes) (neg : Bool) (e : Ex) (b : Bytes) (f : Book) : Out → Prop
  | .ok _ t => ∃ l, Tries neg e b l (.ok t.pt.rest) ∧ t.bk = l.foldl (Book.step data) f ∧ t.mfInv = neg ∧ At data t
  | .fail t => ∃ l, Tries neg e b l .fail ∧ t.bk = l.foldl (Book.step data) f ∧ t.mfInv = neg ∧ At data t
  | .panic m t => m = maxExprMsg ∨ m = convMsg ∨ ∃ l, Tries neg e b l .fatal ∧ t.bk = l.foldl (Book.step data) f
  | .timeout => True

theorem tried_of {data : Bytes} {a b : Bool} {e : Ex} {x y : Bytes} {f : Book} {r : Out} (h : a = b) (h' : x = y)
    (ht : Tried data a e x f r) : Tried data b e y f r := by
  subst h; subst h'; exact ht

theorem tried_panic {data : Bytes} {a b : Bool} {e e' : Ex} {x y : Bytes} {f f' : Book} {m : Bytes} {t u : St}
    (ht : Tried data a e x f (.panic m t)) (hu : u = t)
    (h : ∀ l, Tries a e x l .fatal → t.bk = l.foldl (Book.step data) f →
      ∃ l', Tries b e' y l' .fatal ∧ t.bk = l'.foldl (Book.step data) f') :
    Tried data b e' y f' (.panic m u) := by
  subst hu
  rcases ht with ht | ht | ⟨l, h1, h2⟩
  · exact .inl ht
  · exact .inr (.inl ht)
  · exact .inr (.inr (h l h1 h2))

theorem litLoop_tried {o : Opts} {data : Bytes} (want : Bytes) (start : Pt)
    (hst : start.offset + start.rest.length = data.length) (cs : Bytes) (s : St) (hs : At data s) :
    match litLoop o want start cs s with
    | .ok _ t => past cs s.pt.rest = some t.pt.rest ∧
        t.bk = (attempt s.mfInv true start.rest want).foldl (Book.step data) s.bk ∧ t.mfInv = s.mfInv ∧ At data t
    | .fail t => past cs s.pt.rest = none ∧
        t.bk = (attempt s.mfInv false start.rest want).foldl (Book.step data) s.bk ∧ t.mfInv = s.mfInv ∧ At data t
    | _ => False := by
  induction cs generalizing s with
  | nil =>
    simp only [litLoop, past]
    refine ⟨by rw [(failAt_fields _ _ _ _).1], failAt_bk s true start want hst, failAt_inv .., ?_⟩
    unfold At; rw [(failAt_fields _ _ _ _).1]; exact hs
  | cons c cs ih =>
    simp only [litLoop, past]
    have : s.pt.rn = (decodeRune s.pt.rest).1 := rfl
    rw [this]
    by_cases hc : (decodeRune s.pt.rest).1 = c.toNat
    · have := ih (s.read o) (read_at o hs)
      rw [(read_fields o s).1, Pt.next_rest, (read_bk o s).1, (read_bk o s).2] at this
      simp only [if_pos hc]
      exact this
    · simp only [if_neg hc]
      exact ⟨trivial, failAt_bk s false start want hst, failAt_inv .., hst⟩

section
variable {o : Opts} {data : Bytes} {ev : Ex → St → Out}

/-- Evaluation of sub-expressions agrees with the list of events. -/
def EvT (data : Bytes) (ev : Ex → St → Out) : Prop :=
  ∀ e s, At data s → Tried data s.mfInv e s.pt.rest s.bk (ev e s)

/-- The bookkeeping of two lists of events, one after the other. -/
theorem book_append {l l' : List Event} {x y z : Book} (h1 : y = l.foldl (Book.step data) x)
    (h2 : z = l'.foldl (Book.step data) y) : z = (l ++ l').foldl (Book.step data) x := by
  rw [List.foldl_append, ← h1, h2]

theorem seqLoop_tried (h : EvT data ev) (s0 : St) (h0 : At data s0) (es : List Ex) (acc : List Val) (s : St)
    (hs : At data s) : Tried data s.mfInv (.seq es) s.pt.rest s.bk (seqLoop ev s0 es acc s) := by
  induction es generalizing acc s with
  | nil => exact ⟨[], .seqNil, rfl, rfl, hs⟩
  | cons e es ih =>
    simp only [seqLoop]
    have h1 := h e s hs
    cases hr : ev e s with
    | timeout => exact True.intro
    | panic m t => rw [hr] at h1; exact tried_panic h1 rfl fun l h2 h3 => ⟨l, .seqNo (by simp) h2, h3⟩
    | fail t =>
      rw [hr] at h1; obtain ⟨l, h1, h2, h3, h4⟩ := h1
      exact ⟨l, .seqNo (by simp) h1, h2, h3, h0⟩
    | ok v t =>
      rw [hr] at h1; obtain ⟨l, h1, h2, h3, h4⟩ := h1
      simp only
      have h5 := ih (acc ++ [v]) t h4
      cases hq : seqLoop ev s0 es (acc ++ [v]) t with
      | timeout => exact True.intro
      | panic m u =>
        rw [hq, h3] at h5
        exact tried_panic h5 rfl fun l' h6 h7 => ⟨l ++ l', .seq h1 h6, book_append h2 h7⟩
      | fail u =>
        rw [hq, h3] at h5; obtain ⟨l', h5, h6, h7, h8⟩ := h5
        exact ⟨l ++ l', .seq h1 h5, book_append h2 h6, h7, h8⟩
      | ok w u =>
        rw [hq, h3] at h5; obtain ⟨l', h5, h6, h7, h8⟩ := h5
        exact ⟨l ++ l', .seq h1 h5, book_append h2 h6, h7, h8⟩

theorem choiceLoop_tried (h : EvT data ev) (hp : ∀ e s t, ev e s = .fail t → t.pt = s.pt) (es : List Ex) (s : St)
    (hs : At data s) : Tried data s.mfInv (.choice es) s.pt.rest s.bk (choiceLoop ev es s) := by
  induction es generalizing s with
  | nil => exact ⟨[], .choiceNil, rfl, rfl, hs⟩
  | cons e es ih =>
    simp only [choiceLoop]
    have h1 : Tried data s.mfInv e s.pt.rest s.bk (ev e { s with frame := [] }) := h e { s with frame := [] } hs
    cases hr : ev e { s with frame := [] } with
    | timeout => exact True.intro
    | panic m t => rw [hr] at h1; exact tried_panic h1 rfl fun l h2 h3 => ⟨l, .choice (by simp) h2, h3⟩
    | ok v t =>
      rw [hr] at h1; obtain ⟨l, h1, h2, h3, h4⟩ := h1
      exact ⟨l, .choice (by simp) h1, h2, h3, h4⟩
    | fail t =>
      have hpt := hp _ _ _ hr
      rw [hr] at h1; obtain ⟨l, h1, h2, h3, h4⟩ := h1
      simp only at hpt ⊢
      have h5 : Tried data s.mfInv (.choice es) s.pt.rest t.bk
          (choiceLoop ev es { t with frame := s.frame, warns := s.warns }) :=
        tried_of h3 (congrArg Pt.rest hpt) (ih { t with frame := s.frame, warns := s.warns } h4)
      cases hq : choiceLoop ev es { t with frame := s.frame, warns := s.warns } with
      | timeout => exact True.intro
      | panic m u =>
        rw [hq] at h5
        exact tried_panic h5 rfl fun l' h6 h7 => ⟨l ++ l', .choiceNext h1 h6, book_append h2 h7⟩
      | fail u =>
        rw [hq] at h5; obtain ⟨l', h5, h6, h7, h8⟩ := h5
        exact ⟨l ++ l', .choiceNext h1 h5, book_append h2 h6, h7, h8⟩
      | ok w u =>
        rw [hq] at h5; obtain ⟨l', h5, h6, h7, h8⟩ := h5
        exact ⟨l ++ l', .choiceNext h1 h5, book_append h2 h6, h7, h8⟩

theorem starLoop_tried (h : EvT data ev) (hp : ∀ e s t, ev e s = .fail t → t.pt = s.pt) (e : Ex) (n : Nat)
    (acc : List Val) (s : St) (hs : At data s) :
    Tried data s.mfInv (.star e) s.pt.rest s.bk (starLoop (ev e) n acc s) := by
  induction n generalizing acc s with
  | zero => exact True.intro
  | succ n ih =>
    simp only [starLoop]
    have h1 : Tried data s.mfInv e s.pt.rest s.bk (ev e { s with frame := [] }) := h e { s with frame := [] } hs
    cases hr : ev e { s with frame := [] } with
    | timeout => exact True.intro
    | panic m t => rw [hr] at h1; exact tried_panic h1 rfl fun l h2 h3 => ⟨l, .starFatal h2, h3⟩
    | fail t =>
      have hpt := hp _ _ _ hr
      rw [hr] at h1; obtain ⟨l, h1, h2, h3, h4⟩ := h1
      simp only at hpt ⊢
      refine ⟨l, ?_, h2, h3, h4⟩
      simp only [hpt]
      exact .starEnd h1
    | ok v t =>
      rw [hr] at h1; obtain ⟨l, h1, h2, h3, h4⟩ := h1
      simp only
      have h5 : Tried data s.mfInv (.star e) t.pt.rest t.bk
          (starLoop (ev e) n (acc ++ [v]) { t with frame := s.frame }) :=
        tried_of h3 rfl (ih (acc ++ [v]) { t with frame := s.frame } h4)
      cases hq : starLoop (ev e) n (acc ++ [v]) { t with frame := s.frame } with
      | timeout => exact True.intro
      | panic m u =>
        rw [hq] at h5
        exact tried_panic h5 rfl fun l' h6 h7 => ⟨l ++ l', .star h1 h6, book_append h2 h7⟩
      | fail u =>
        rw [hq] at h5; obtain ⟨l', h5, h6, h7, h8⟩ := h5
        exact ⟨l ++ l', .star h1 h5, book_append h2 h6, h7, h8⟩
      | ok w u =>
        rw [hq] at h5; obtain ⟨l', h5, h6, h7, h8⟩ := h5
        exact ⟨l ++ l', .star h1 h5, book_append h2 h6, h7, h8⟩

theorem step_tried (n : Nat) (ih : EvT data (eval o gram n)) (e : Ex) (s : St) (hs : At data s) :
    Tried data s.mfInv e s.pt.rest s.bk (step o gram (eval o gram n) n e s) := by
  have hp : ∀ e s t, eval o gram n e s = .fail t → t.pt = s.pt := by
    intro e s t h
    have := eval_good o gram n e s
    rw [h] at this
    exact this.2.1
  unfold step
  cases e with
  | action a e =>
    simp only
    have h1 := ih e s hs
    cases hr : eval o gram n e s with
    | timeout => exact True.intro
    | panic m t => rw [hr] at h1; exact tried_panic h1 rfl fun l h2 h3 => ⟨l, .actionNo (by simp) h2, h3⟩
    | fail t => rw [hr] at h1; obtain ⟨l, h1, h2⟩ := h1; exact ⟨l, .actionNo (by simp) h1, h2⟩
    | ok v t =>
      rw [hr] at h1; obtain ⟨l, h1, h2, h3, h4⟩ := h1
      simp only
      have hb : ({ t with curPos := s.pt.pos, curText := sliceFrom s.pt t.pt } : St).bk =
          (l ++ [Event.built s.pt.rest t.pt.rest]).foldl (Book.step data) s.bk := by
        rw [List.foldl_append, ← h2]
        simp only [List.foldl, Book.step, rec1, note, St.bk, Pt.pos, sliceFrom]
        unfold At at hs h4
        have e1 : data.length - s.pt.rest.length = s.pt.offset := by omega
        have e2 : t.pt.offset - s.pt.offset = s.pt.rest.length - t.pt.rest.length := by omega
        rw [e1, e2]; rfl
      cases hact : runAct o a t.frame s.pt.pos (sliceFrom s.pt t.pt) t.warns with
      | val v => exact ⟨_, .action h1, hb, h3, h4⟩
      | err v m => exact ⟨_, .action h1, hb, h3, h4⟩
      | panic m => exact .inr (.inl ((runAct_msgs _ _ _ _ _ _).2 _ hact))
  | andCode c =>
    cases c with
    | initParser => exact ⟨_, .initParser, rfl, rfl, hs⟩
    | pushError m =>
      refine ⟨_, .pushError, ?_, rfl, hs⟩
      simp [St.bk, Book.step, rec1, note, FF.view, St.errPos]
    | fatalError m =>
      refine .inr (.inr ⟨_, .fatalError, ?_⟩)
      simp [St.bk, Book.step, rec1, note, FF.view, St.errPos]
  | any =>
    simp only
    by_cases hx : s.pt.rest = []
    · rw [if_pos ((Pt.atEof_iff _).2 hx)]
      refine ⟨_, ?_, failAt_bk s false s.pt _ hs, failAt_inv .., ?_⟩
      · rw [hx]; exact .anyEnd
      · unfold At; rw [(failAt_fields _ _ _ _).1]; exact hs
    · rw [if_neg (fun h => hx ((Pt.atEof_iff _).1 h))]
      refine ⟨attempt s.mfInv true s.pt.rest b!".", ?_, ?_, ?_, ?_⟩
      · rw [(failAt_fields _ _ _ _).1, (read_fields o s).1, Pt.next_rest]; exact .any hx
      · rw [failAt_bk (s.read o) true s.pt _ hs, (read_bk o s).1, (read_bk o s).2]
      · rw [failAt_inv, (read_bk o s).2]
      · unfold At; rw [(failAt_fields _ _ _ _).1]; exact read_at o hs
  | cls val inv chars ranges =>
    simp only
    have hrn : s.pt.rn = (decodeRune s.pt.rest).1 := rfl
    by_cases hx : s.pt.rest = []
    · rw [if_pos ((Pt.atEof_iff _).2 hx)]
      refine ⟨_, .clsNo (.inl hx), failAt_bk s false s.pt _ hs, failAt_inv .., ?_⟩
      unfold At; rw [(failAt_fields _ _ _ _).1]; exact hs
    · rw [if_neg (fun h => hx ((Pt.atEof_iff _).1 h)), hrn]
      split
      · rename_i hc
        refine ⟨attempt s.mfInv true s.pt.rest val, ?_, ?_, ?_, ?_⟩
        · rw [(failAt_fields _ _ _ _).1, (read_fields o s).1, Pt.next_rest]
          exact .cls hx ((inClass_iff ..).1 hc)
        · rw [failAt_bk (s.read o) true s.pt _ hs, (read_bk o s).1, (read_bk o s).2]
        · rw [failAt_inv, (read_bk o s).2]
        · unfold At; rw [(failAt_fields _ _ _ _).1]; exact read_at o hs
      · rename_i hc
        refine ⟨_, .clsNo (.inr (fun h => hc ((inClass_iff ..).2 h))), failAt_bk s false s.pt _ hs, failAt_inv .., ?_⟩
        unfold At; rw [(failAt_fields _ _ _ _).1]; exact hs
  | choice alts => exact choiceLoop_tried ih hp alts s hs
  | labeled l e =>
    simp only
    have h1 : Tried data s.mfInv e s.pt.rest s.bk (eval o gram n e { s with frame := [] }) := ih e { s with frame := [] } hs
    cases hr : eval o gram n e { s with frame := [] } with
    | timeout => exact True.intro
    | panic m t => rw [hr] at h1; exact tried_panic h1 rfl fun l h2 h3 => ⟨l, .labeled h2, h3⟩
    | ok v t => rw [hr] at h1; obtain ⟨l, h1, h2⟩ := h1; exact ⟨l, .labeled h1, h2⟩
    | fail t => rw [hr] at h1; obtain ⟨l, h1, h2⟩ := h1; exact ⟨l, .labeled h1, h2⟩
  | lit v =>
    have h1 := litLoop_tried (o := o) (data := data) (litWant v) s.pt hs v s hs
    simp only
    cases hr : litLoop o (litWant v) s.pt v s with
    | timeout => exact True.intro
    | panic m t => rw [hr] at h1; exact h1.elim
    | ok w t => rw [hr] at h1; exact ⟨_, .lit h1.1, h1.2⟩
    | fail t => rw [hr] at h1; exact ⟨_, .litNo h1.1, h1.2⟩
  | not e =>
    simp only
    have h1 : Tried data (!s.mfInv) e s.pt.rest s.bk (eval o gram n e { s with frame := [], mfInv := !s.mfInv }) :=
      ih e { s with frame := [], mfInv := !s.mfInv } hs
    cases hr : eval o gram n e { s with frame := [], mfInv := !s.mfInv } with
    | timeout => exact True.intro
    | panic m t => rw [hr] at h1; exact tried_panic h1 rfl fun l h2 h3 => ⟨l, .notFatal h2, h3⟩
    | ok v t => rw [hr] at h1; obtain ⟨l, h1, h2, h3, h4⟩ := h1; exact ⟨l, .not h1, h2, rfl, hs⟩
    | fail t => rw [hr] at h1; obtain ⟨l, h1, h2, h3, h4⟩ := h1; exact ⟨l, .notNo h1, h2, rfl, hs⟩
  | plus e =>
    simp only
    have h1 : Tried data s.mfInv e s.pt.rest s.bk (eval o gram n e { s with frame := [] }) := ih e { s with frame := [] } hs
    cases hr : eval o gram n e { s with frame := [] } with
    | timeout => exact True.intro
    | panic m t => rw [hr] at h1; exact tried_panic h1 rfl fun l h2 h3 => ⟨l, .plusNo (by simp) h2, h3⟩
    | fail t => rw [hr] at h1; obtain ⟨l, h1, h2⟩ := h1; exact ⟨l, .plusNo (by simp) h1, h2⟩
    | ok v t =>
      rw [hr] at h1; obtain ⟨l, h1, h2, h3, h4⟩ := h1
      simp only
      have h5 : Tried data s.mfInv (.star e) t.pt.rest t.bk
          (starLoop (eval o gram n e) n [v] { t with frame := s.frame }) :=
        tried_of h3 rfl (starLoop_tried ih hp e n [v] { t with frame := s.frame } h4)
      cases hq : starLoop (eval o gram n e) n [v] { t with frame := s.frame } with
      | timeout => exact True.intro
      | panic m u =>
        rw [hq] at h5
        exact tried_panic h5 rfl fun l' h6 h7 => ⟨l ++ l', .plus h1 h6, book_append h2 h7⟩
      | fail u =>
        rw [hq] at h5; obtain ⟨l', h5, h6, h7, h8⟩ := h5
        exact ⟨l ++ l', .plus h1 h5, book_append h2 h6, h7, h8⟩
      | ok w u =>
        rw [hq] at h5; obtain ⟨l', h5, h6, h7, h8⟩ := h5
        exact ⟨l ++ l', .plus h1 h5, book_append h2 h6, h7, h8⟩
  | ref r =>
    simp only [evalRule]
    have h1 : Tried data s.mfInv (gram r) s.pt.rest s.bk
        (eval o gram n (gram r) { s with rstack := r :: s.rstack, frame := [] }) :=
      ih (gram r) { s with rstack := r :: s.rstack, frame := [] } hs
    cases hr : eval o gram n (gram r) { s with rstack := r :: s.rstack, frame := [] } with
    | timeout => exact True.intro
    | panic m t => rw [hr] at h1; exact tried_panic h1 rfl fun l h2 h3 => ⟨l, .ref h2, h3⟩
    | ok v t => rw [hr] at h1; obtain ⟨l, h1, h2⟩ := h1; exact ⟨l, .ref h1, h2⟩
    | fail t => rw [hr] at h1; obtain ⟨l, h1, h2⟩ := h1; exact ⟨l, .ref h1, h2⟩
  | seq es => exact seqLoop_tried ih s hs es [] s hs
  | state c =>
    have h1 : (runState o c s).pt = s.pt ∧ (runState o c s).bk = s.bk ∧ (runState o c s).mfInv = s.mfInv := by
      cases c <;> simp only [runState] <;> first | (split <;> simp [St.bk]) | simp
    refine ⟨[], ?_, h1.2.1, h1.2.2, ?_⟩
    · rw [h1.1]; exact .state
    · unfold At; rw [h1.1]; exact hs
  | star e => exact starLoop_tried ih hp e n [] s hs
  | opt e =>
    simp only
    have h1 : Tried data s.mfInv e s.pt.rest s.bk (eval o gram n e { s with frame := [] }) := ih e { s with frame := [] } hs
    cases hr : eval o gram n e { s with frame := [] } with
    | timeout => exact True.intro
    | panic m t => rw [hr] at h1; exact tried_panic h1 rfl fun l h2 h3 => ⟨l, .opt (by simp) h2, h3⟩
    | ok v t => rw [hr] at h1; obtain ⟨l, h1, h2⟩ := h1; exact ⟨l, .opt (by simp) h1, h2⟩
    | fail t =>
      have hpt := hp _ _ _ hr
      rw [hr] at h1; obtain ⟨l, h1, h2⟩ := h1
      refine ⟨l, ?_, h2⟩
      simp only at hpt ⊢
      rw [hpt]
      exact .optNo h1

theorem eval_tried (n : Nat) : EvT data (eval o gram n) := by
  induction n with
  | zero => intro e s hs; exact True.intro
  | succ n ih =>
    intro e s hs
    simp only [eval]
    split
    · exact .inl rfl
    · exact step_tried n ih e { s with cnt := s.cnt + 1 } hs

end

/-! ### The tokens kept -/

/-- What the bookkeeping of tokens holds after the events `log`: the farthest offset and the tokens tried there. -/
structure KeptFar (N : Nat) (log : List Event) (f : Int × List Bytes) : Prop where
  far : ∀ b w, .missed b w ∈ log → ((N - b.length : Nat) : Int) ≤ f.1
  here : f.1 = 0 ∨ ∃ b w, .missed b w ∈ log ∧ ((N - b.length : Nat) : Int) = f.1
  exp : ∀ w, w ∈ f.2 ↔ ∃ b, .missed b w ∈ log ∧ ((N - b.length : Nat) : Int) = f.1

theorem kept_step {N : Nat} {log : List Event} {f : Int × List Bytes} (h : KeptFar N log f) (e : Event) :
    KeptFar N (log ++ [e]) (rec1 N f e) := by
  obtain ⟨h1, h2, h3⟩ := h
  cases e with
  | missed r x =>
    simp only [rec1]
    generalize hk : ((N - r.length : Nat) : Int) = k
    have h0 : 0 ≤ k := by omega
    have hf0 : 0 ≤ f.1 := by
      rcases h2 with h2 | ⟨_, _, _, h2⟩ <;> omega
    by_cases hlt : k < f.1
    · rw [if_pos hlt]
      refine ⟨?_, ?_, ?_⟩
      · intro b w hx
        rcases List.mem_append.1 hx with hx | hx
        · exact h1 b w hx
        · simp only [List.mem_singleton] at hx; cases hx; omega
      · rcases h2 with h2 | ⟨b, w, hx, h2⟩
        · exact .inl h2
        · exact .inr ⟨b, w, List.mem_append.2 (.inl hx), h2⟩
      · intro w
        rw [h3 w]
        constructor
        · rintro ⟨b, hx, h⟩; exact ⟨b, List.mem_append.2 (.inl hx), h⟩
        · rintro ⟨b, hx, h⟩
          rcases List.mem_append.1 hx with hx | hx
          · exact ⟨b, hx, h⟩
          · simp only [List.mem_singleton] at hx; cases hx; omega
    · rw [if_neg hlt]
      by_cases hgt : k > f.1
      · rw [if_pos hgt]
        refine ⟨?_, .inr ⟨r, x, by simp, hk⟩, ?_⟩
        · intro b w hx
          rcases List.mem_append.1 hx with hx | hx
          · have := h1 b w hx; simp only; omega
          · simp only [List.mem_singleton] at hx; cases hx; simp only; omega
        · intro w
          simp only [List.mem_singleton]
          constructor
          · rintro rfl; exact ⟨r, by simp, hk⟩
          · rintro ⟨b, hx, h⟩
            rcases List.mem_append.1 hx with hx | hx
            · have := h1 b w hx; omega
            · simp only [List.mem_singleton] at hx; cases hx; rfl
      · rw [if_neg hgt]
        have hke : k = f.1 := by omega
        refine ⟨?_, .inr ⟨r, x, by simp, hk.trans hke⟩, ?_⟩
        · intro b w hx
          rcases List.mem_append.1 hx with hx | hx
          · exact h1 b w hx
          · simp only [List.mem_singleton] at hx; cases hx; simp only; omega
        · intro w
          simp only [List.mem_append, List.mem_singleton]
          rw [h3 w]
          constructor
          · rintro (⟨b, hx, h⟩ | rfl)
            · exact ⟨b, .inl hx, h⟩
            · exact ⟨r, .inr rfl, hk.trans hke⟩
          · rintro ⟨b, hx | hx, h⟩
            · exact .inl ⟨b, hx, h⟩
            · cases hx; exact .inr rfl
  | _ =>
    simp only [rec1]
    exact ⟨fun b w hx => h1 b w (by simpa using hx), by simpa using h2, fun w => by rw [h3 w]; simp⟩

theorem kept_foldl {data : Bytes} (l : List Event) {log : List Event} {f : Book} (h : KeptFar data.length log f.1) :
    KeptFar data.length (log ++ l) (l.foldl (Book.step data) f).1 := by
  induction l generalizing log f with
  | nil => simpa using h
  | cons m l ih =>
    have := ih (f := Book.step data f m) (kept_step h m)
    simpa using this

theorem kept_start (N : Nat) : KeptFar N [] (0, []) := ⟨by simp, .inl rfl, by simp⟩

/-! ### The expectations kept -/

theorem book_notes {data : Bytes} (l : List Event) (f : Book) :
    (l.foldl (Book.step data) f).2 = l.foldl (note data) f.2 := by
  induction l generalizing f with
  | nil => rfl
  | cons e l ih => exact ih (Book.step data f e)

/-! ### The message -/

theorem bytesLE_iff (a b : Bytes) : bytesLE a b = true ↔ a = b ∨ Before a b := by
  induction a generalizing b with
  | nil =>
    simp only [bytesLE, true_iff]
    cases b with
    | nil => exact .inl rfl
    | cons y ys => exact .inr (.inl ⟨y, ys, rfl⟩)
  | cons x xs ih =>
    cases b with
    | nil =>
      simp only [bytesLE, Bool.false_eq_true, false_iff]
      rintro (h | ⟨y, r, h⟩ | ⟨p, y, z, r, r', h, h', _⟩)
      · cases h
      · cases h
      · cases p <;> cases h'
    | cons y ys =>
      simp only [bytesLE]
      by_cases h1 : x < y
      · rw [if_pos h1]
        simp only [true_iff]
        exact .inr (.inr ⟨[], x, y, xs, ys, rfl, rfl, h1⟩)
      · rw [if_neg h1]
        by_cases h2 : y < x
        · rw [if_pos h2]
          simp only [Bool.false_eq_true, false_iff]
          rintro (h | ⟨z, r, h⟩ | ⟨p, u, v, r, r', h, h', h3⟩)
          · cases h; exact h1 h2
          · cases h; exact h1 h2
          · cases p with
            | nil => cases h; cases h'; exact h1 h3
            | cons q p => cases h; cases h'; exact h1 h2
        · rw [if_neg h2, ih ys]
          have hxy : x = y := UInt8.le_antisymm (UInt8.not_lt.1 h2) (UInt8.not_lt.1 h1)
          subst hxy
          constructor
          · rintro (rfl | ⟨z, r, h⟩ | ⟨p, u, v, r, r', h, h', h3⟩)
            · exact .inl rfl
            · exact .inr (.inl ⟨z, r, by rw [h]; rfl⟩)
            · exact .inr (.inr ⟨x :: p, u, v, r, r', by rw [h]; rfl, by rw [h']; rfl, h3⟩)
          · rintro (h | ⟨z, r, h⟩ | ⟨p, u, v, r, r', h, h', h3⟩)
            · cases h; exact .inl rfl
            · cases h; exact .inr (.inl ⟨z, r, rfl⟩)
            · cases p with
              | nil => cases h; cases h'; exact absurd h3 h1
              | cons q p => cases h; cases h'; exact .inr (.inr ⟨p, u, v, r, r', rfl, rfl, h3⟩)

theorem before_total (a b : Bytes) : a = b ∨ Before a b ∨ Before b a := by
  induction a generalizing b with
  | nil =>
    cases b with
    | nil => exact .inl rfl
    | cons y ys => exact .inr (.inl (.inl ⟨y, ys, rfl⟩))
  | cons x xs ih =>
    cases b with
    | nil => exact .inr (.inr (.inl ⟨x, xs, rfl⟩))
    | cons y ys =>
      by_cases h1 : x < y
      · exact .inr (.inl (.inr ⟨[], x, y, xs, ys, rfl, rfl, h1⟩))
      by_cases h2 : y < x
      · exact .inr (.inr (.inr ⟨[], y, x, ys, xs, rfl, rfl, h2⟩))
      have hxy : x = y := UInt8.le_antisymm (UInt8.not_lt.1 h2) (UInt8.not_lt.1 h1)
      subst hxy
      have lift : ∀ {a b : Bytes}, Before a b → Before (x :: a) (x :: b) := by
        rintro a b (⟨z, r, h⟩ | ⟨p, u, v, r, r', h, h', h3⟩)
        · exact .inl ⟨z, r, by rw [h]; rfl⟩
        · exact .inr ⟨x :: p, u, v, r, r', by rw [h]; rfl, by rw [h']; rfl, h3⟩
      rcases ih ys with rfl | h | h
      · exact .inl rfl
      · exact .inr (.inl (lift h))
      · exact .inr (.inr (lift h))

theorem mem_insertUniq (x w : Bytes) (l : List Bytes) : w ∈ insertUniq x l ↔ w = x ∨ w ∈ l := by
  induction l with
  | nil => simp [insertUniq]
  | cons y ys ih =>
    simp only [insertUniq]
    split
    · rename_i h; subst h; simp
    · split
      · simp
      · simp [ih]; grind

theorem bytesLE_trans {a b c : Bytes} (h : bytesLE a b = true) (h' : bytesLE b c = true) : bytesLE a c = true := by
  induction a generalizing b c with
  | nil => rfl
  | cons x xs ih =>
    cases b with
    | nil => cases h
    | cons y ys =>
      cases c with
      | nil => cases h'
      | cons z zs =>
        simp only [bytesLE] at h h' ⊢
        by_cases h1 : x < y
        · have : x < z := by
            by_cases h2 : y < z
            · exact UInt8.lt_trans h1 h2
            · rw [if_neg h2] at h'
              by_cases h3 : z < y
              · rw [if_pos h3] at h'; cases h'
              · rw [← UInt8.le_antisymm (UInt8.not_lt.1 h3) (UInt8.not_lt.1 h2)]; exact h1
          rw [if_pos this]
        · rw [if_neg h1] at h
          by_cases h2 : y < x
          · rw [if_pos h2] at h; cases h
          rw [if_neg h2] at h
          have hxy : x = y := UInt8.le_antisymm (UInt8.not_lt.1 h2) (UInt8.not_lt.1 h1)
          subst hxy
          by_cases h3 : x < z
          · rw [if_pos h3]
          · rw [if_neg h3] at h' ⊢
            by_cases h4 : z < x
            · rw [if_pos h4] at h'; cases h'
            · rw [if_neg h4] at h' ⊢
              exact ih h h'

/-- `Before` is "less or equal and different". -/
theorem before_iff (a b : Bytes) : Before a b ↔ bytesLE a b = true ∧ a ≠ b := by
  rw [bytesLE_iff]
  constructor
  · intro h
    refine ⟨.inr h, ?_⟩
    rintro rfl
    rcases h with ⟨x, r, h⟩ | ⟨p, x, y, r, r', h, h', h3⟩
    · have := congrArg List.length h; simp at this
    · rw [h] at h'
      have := List.append_cancel_left h'
      cases this
      exact UInt8.lt_irrefl _ h3
  · rintro ⟨h | h, hn⟩
    · exact absurd h hn
    · exact h

theorem le_antisymm_bytes {a b : Bytes} (h : bytesLE a b = true) (h' : bytesLE b a = true) : a = b := by
  induction a generalizing b with
  | nil => cases b with
    | nil => rfl
    | cons y ys => cases h'
  | cons x xs ih =>
    cases b with
    | nil => cases h
    | cons y ys =>
      simp only [bytesLE] at h h'
      by_cases h1 : x < y
      · rw [if_neg (UInt8.lt_asymm h1), if_pos h1] at h'; cases h'
      · by_cases h2 : y < x
        · rw [if_neg h1, if_pos h2] at h; cases h
        · rw [if_neg h1, if_neg h2] at h
          rw [if_neg h2, if_neg h1] at h'
          rw [ih h h', UInt8.le_antisymm (UInt8.not_lt.1 h2) (UInt8.not_lt.1 h1)]

theorem sorted_insertUniq (x : Bytes) (l : List Bytes) (h : l.Pairwise Before) : (insertUniq x l).Pairwise Before := by
  induction l with
  | nil => simp [insertUniq]
  | cons y ys ih =>
    obtain ⟨h1, h2⟩ := List.pairwise_cons.1 h
    simp only [insertUniq]
    split
    · exact h
    · rename_i hxy
      split
      · rename_i hle
        have hb : Before x y := (before_iff x y).2 ⟨hle, hxy⟩
        refine List.pairwise_cons.2 ⟨?_, h⟩
        intro z hz
        rcases List.mem_cons.1 hz with rfl | hz
        · exact hb
        · have hyz := h1 z hz
          refine (before_iff x z).2 ⟨bytesLE_trans hle ((before_iff y z).1 hyz).1, ?_⟩
          rintro rfl
          have h5 := (before_iff y x).1 hyz
          rcases before_total x y with h6 | h6 | h6
          · exact hxy h6
          · -- both directions
            exact absurd (le_antisymm_bytes hle h5.1) hxy
          · exact absurd (le_antisymm_bytes hle h5.1) hxy
      · rename_i hle
        refine List.pairwise_cons.2 ⟨?_, ih h2⟩
        intro z hz
        rcases (mem_insertUniq x z ys).1 hz with rfl | hz
        · rcases before_total y z with h6 | h6 | h6
          · exact absurd h6.symm hxy
          · exact h6
          · exact absurd ((before_iff z y).1 h6).1 hle
        · exact h1 z hz

theorem enumerates_listJoin (l : List Bytes) : Enumerates l (listJoin l) := by
  induction l with
  | nil => exact .none
  | cons x l ih =>
    cases l with
    | nil => exact .one x
    | cons y l =>
      cases l with
      | nil => exact .last x y
      | cons z l =>
        have : listJoin (x :: y :: z :: l) = x ++ b!", " ++ listJoin (y :: z :: l) := by
          simp [listJoin, joinSep, List.dropLast]
        rw [this]
        exact .more x y z l _ ih

theorem noMatch_sentence (exp : List Bytes) : Sentence (· ∈ exp) (noMatchMsg exp) := by
  refine ⟨(exp.filter (· != b!"!.")).foldr insertUniq [],
    listJoin (if exp.contains b!"!." then (exp.filter (· != b!"!.")).foldr insertUniq [] ++ [b!"EOF"]
      else (exp.filter (· != b!"!.")).foldr insertUniq []), ?_, ?_, ?_, rfl⟩
  · generalize exp.filter (· != b!"!.") = l
    induction l with
    | nil => exact .nil
    | cons x l ih => exact sorted_insertUniq x _ ih
  · intro w
    have : ∀ l : List Bytes, w ∈ l.foldr insertUniq [] ↔ w ∈ l := by
      intro l
      induction l with
      | nil => simp
      | cons x l ih => simp [mem_insertUniq, ih]
    rw [this, List.mem_filter]
    simp
  · by_cases h : b!"!." ∈ exp
    · left
      rw [if_pos (by simpa using h)]
      exact ⟨h, enumerates_listJoin _⟩
    · right
      rw [if_neg (by simpa using h)]
      exact ⟨h, enumerates_listJoin _⟩

end Verif
