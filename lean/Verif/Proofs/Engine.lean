import Verif.Model.Parse
import Verif.Proofs.Bytes
/-
Basic facts about the parsing engine: how a run moves the read position and what it
leaves unchanged.
-/
namespace Verif

/-- `Adv ok p q`: the point `q` is reached from `p` by reading runes; when `ok` is set no
point reached on the way (after `p`) shows an invalid byte. -/
inductive Adv (ok : Bool) : Pt → Pt → Prop
  | refl (p : Pt) : Adv ok p p
  | step (p q : Pt) : p.rest ≠ [] → (ok = true → p.next.invalid = false) → Adv ok p.next q → Adv ok p q

theorem Adv.trans {ok : Bool} {p q r : Pt} (h1 : Adv ok p q) (h2 : Adv ok q r) : Adv ok p r := by
  induction h1 with
  | refl => exact h2
  | step p q hne hv _ ih => exact .step p r hne hv (ih h2)

theorem Adv.weaken {ok : Bool} {p q : Pt} (h : Adv ok p q) : Adv false p q := by
  induction h with
  | refl => exact .refl _
  | step p q hne hv _ ih => exact .step p q hne (by simp) ih

theorem width_pos_of_ne {s : Bytes} (h : s ≠ []) : 0 < (decodeRune s).2 := by
  cases s with
  | nil => exact absurd rfl h
  | cons b t => exact decodeRune_width_pos b t

theorem Pt.w_pos (p : Pt) (h : p.rest ≠ []) : 0 < p.w := width_pos_of_ne h

theorem Pt.w_le (p : Pt) : p.w ≤ p.rest.length := decodeRune_width_le p.rest

theorem Pt.next_rest (p : Pt) : p.next.rest = p.rest.drop p.w := by
  unfold Pt.next Pt.moveTo; split <;> rfl

theorem Pt.next_offset (p : Pt) : p.next.offset = p.offset + p.w := by
  unfold Pt.next Pt.moveTo; split <;> rfl

theorem Pt.next_length (p : Pt) (h : p.rest ≠ []) : p.next.rest.length < p.rest.length := by
  rw [Pt.next_rest, List.length_drop]
  have := p.w_pos h
  have := p.w_le
  omega

theorem Pt.atEof_iff (p : Pt) : p.atEof = true ↔ p.rest = [] := by
  unfold Pt.atEof Pt.rn Pt.w
  constructor
  · intro h
    simp only [Bool.and_eq_true, beq_iff_eq] at h
    exact Classical.byContradiction fun hn => by
      have := width_pos_of_ne hn
      omega
  · intro h; simp [h, decodeRune, runeError]

theorem Pt.rest_ne_of_not_atEof {p : Pt} (h : ¬ p.atEof = true) : p.rest ≠ [] :=
  fun hn => h ((Pt.atEof_iff p).2 hn)

/-- A point at a rune below U+FFFD is not at the end. -/
theorem Pt.rest_ne_of_rn {p : Pt} {c : UInt8} (h : p.rn = c.toNat) : p.rest ≠ [] := by
  intro hn
  have : p.rn = runeError := by simp [Pt.rn, hn, decodeRune]
  rw [this] at h
  have := c.toNat_lt
  simp [runeError] at h
  omega

theorem Adv.offset_le {ok : Bool} {p q : Pt} (h : Adv ok p q) :
    p.offset ≤ q.offset ∧ q.offset - p.offset ≤ p.rest.length ∧
      q.rest = p.rest.drop (q.offset - p.offset) := by
  induction h with
  | refl p => simp
  | step p q hne _ _ ih =>
    obtain ⟨h1, h2, h3⟩ := ih
    rw [Pt.next_offset] at h1 h2 h3
    rw [Pt.next_rest] at h2 h3
    have hw := p.w_le
    rw [List.length_drop] at h2
    refine ⟨by omega, by omega, ?_⟩
    rw [h3, List.drop_drop]
    congr 1
    omega

/-- The text between two points. -/
theorem Adv.slice {ok : Bool} {p q : Pt} (h : Adv ok p q) : p.rest = sliceFrom p q ++ q.rest := by
  obtain ⟨h1, h2, h3⟩ := h.offset_le
  rw [sliceFrom, h3, List.take_append_drop]

theorem Adv.length_le {ok : Bool} {p q : Pt} (h : Adv ok p q) : q.rest.length ≤ p.rest.length := by
  obtain ⟨_, _, h3⟩ := h.offset_le
  rw [h3, List.length_drop]; omega

/-- What every evaluation leaves unchanged or only extends. -/
structure Ext (o : Opts) (s s' : St) : Prop where
  rstack : s'.rstack = s.rstack
  mfInv : s'.mfInv = s.mfInv
  errs : ∃ x, s'.errs = s.errs ++ x
  frame : ∃ x, s'.frame = x ++ s.frame

/-- What holds after the evaluation of an expression in state `s`. -/
def Good (o : Opts) (s : St) : Out → Prop
  | .ok _ s' => Ext o s s' ∧ Adv false s.pt s'.pt ∧
      (s'.errs = s.errs → o.allowInvalid = false → Adv true s.pt s'.pt)
  | .fail s' => Ext o s s' ∧ s'.pt = s.pt ∧ s'.warns = s.warns
  | .panic _ s' => ∃ x, s'.errs = s.errs ++ x
  | .timeout => True

theorem Ext.rfl' (o : Opts) (s : St) : Ext o s s := ⟨rfl, rfl, ⟨[], by simp⟩, ⟨[], by simp⟩⟩

theorem Ext.trans {o : Opts} {s t u : St} (h1 : Ext o s t) (h2 : Ext o t u) : Ext o s u := by
  obtain ⟨a1, b1, ⟨x1, c1⟩, ⟨y1, d1⟩⟩ := h1
  obtain ⟨a2, b2, ⟨x2, c2⟩, ⟨y2, d2⟩⟩ := h2
  exact ⟨a2.trans a1, b2.trans b1, ⟨x1 ++ x2, by simp [c2, c1]⟩, ⟨y2 ++ y1, by simp [d2, d1]⟩⟩

/-- If nothing was added over two steps then nothing was added in either. -/
theorem errs_split {a b c x y : List PErr} (h1 : b = a ++ x) (h2 : c = b ++ y) (h : c = a) :
    b = a ∧ c = b := by
  subst h1 h2
  have : x ++ y = [] := by
    have := congrArg List.length h
    simp at this
    exact List.append_eq_nil_iff.2 this
  obtain ⟨rfl, rfl⟩ := List.append_eq_nil_iff.1 this
  simp

theorem failAt_fields (s : St) (f : Bool) (p : Pos) (w : Bytes) :
    (s.failAt f p w).pt = s.pt ∧ (s.failAt f p w).errs = s.errs ∧
    (s.failAt f p w).warns = s.warns ∧ (s.failAt f p w).frame = s.frame ∧
    (s.failAt f p w).rstack = s.rstack ∧ (s.failAt f p w).mfInv = s.mfInv ∧
    (s.failAt f p w).ff = s.ff ∧ (s.failAt f p w).curPos = s.curPos ∧
    (s.failAt f p w).curText = s.curText ∧ (s.failAt f p w).cnt = s.cnt := by
  unfold St.failAt
  split
  · split
    · simp
    · simp only; split <;> simp
  · simp

theorem Ext.failAt (o : Opts) (s : St) (f : Bool) (p : Pos) (w : Bytes) :
    Ext o s (s.failAt f p w) := by
  obtain ⟨h1, h2, h3, h4, h5, h6, -⟩ := failAt_fields s f p w
  exact ⟨h5, h6, ⟨[], by simp [h2]⟩, ⟨[], by simp [h4]⟩⟩

/-- `read` moves the point to the next rune and changes nothing else but the errors. -/
theorem read_fields (o : Opts) (s : St) :
    (s.read o).pt = s.pt.next ∧ (s.read o).warns = s.warns ∧ (s.read o).frame = s.frame ∧
    (s.read o).rstack = s.rstack ∧ (s.read o).mfInv = s.mfInv ∧
    ((s.pt.next.invalid && !o.allowInvalid) = false → (s.read o).errs = s.errs) ∧
    ((s.pt.next.invalid && !o.allowInvalid) = true →
      (s.read o).errs = s.errs ++ [⟨s.pt.next.pos, s.rstack.head?, invalidEncoding⟩]) := by
  unfold St.read
  cases h : s.pt.next.invalid && !o.allowInvalid <;> simp [h, St.addErr, St.addErrAt]

theorem read_errs (o : Opts) (s : St) : ∃ x, (s.read o).errs = s.errs ++ x := by
  obtain ⟨-, -, -, -, -, h1, h2⟩ := read_fields o s
  cases h : s.pt.next.invalid && !o.allowInvalid
  · exact ⟨[], by simp [h1 h]⟩
  · exact ⟨_, h2 h⟩

theorem read_noerr (o : Opts) (s : St) (h : (s.read o).errs = s.errs) (ha : o.allowInvalid = false) :
    s.pt.next.invalid = false := by
  obtain ⟨-, -, -, -, -, h1, h2⟩ := read_fields o s
  cases hi : s.pt.next.invalid
  · rfl
  · have := h2 (by simp [hi, ha])
    rw [h] at this
    have := congrArg List.length this
    simp at this

theorem Good.read (o : Opts) (s : St) (hne : s.pt.rest ≠ []) (v : Val) : Good o s (.ok v (s.read o)) := by
  obtain ⟨h1, h2, h3, h4, h5, -, -⟩ := read_fields o s
  refine ⟨⟨h4, h5, read_errs o s, ⟨[], by simp [h3]⟩⟩, ?_, ?_⟩
  · rw [h1]; exact .step _ _ hne (by simp) (.refl _)
  · intro he ha
    rw [h1]; exact .step _ _ hne (fun _ => read_noerr o s he ha) (.refl _)

theorem Good.seqOk {o : Opts} {s t u : St} {v w : Val} (h1 : Good o s (.ok v t)) (h2 : Good o t (.ok w u)) :
    Good o s (.ok w u) := by
  obtain ⟨e1, a1, b1⟩ := h1
  obtain ⟨e2, a2, b2⟩ := h2
  refine ⟨e1.trans e2, a1.trans a2, fun he ha => ?_⟩
  obtain ⟨x, hx⟩ := e1.errs
  obtain ⟨y, hy⟩ := e2.errs
  obtain ⟨h1, h2⟩ := errs_split hx hy he
  exact (b1 h1 ha).trans (b2 h2 ha)

/-- Composition: after `t`, reached well from `s`, an outcome good for `t` is good for `s`
(for failures the position must be put back by the caller). -/
theorem Good.after {o : Opts} {s t : St} {v : Val} {r : Out} (h1 : Good o s (.ok v t)) (h2 : Good o t r)
    (hf : ∀ u, r ≠ .fail u) : Good o s r := by
  cases r with
  | ok w u => exact h1.seqOk h2
  | fail u => exact absurd rfl (hf u)
  | panic m u =>
    obtain ⟨x, hx⟩ := h1.1.errs
    obtain ⟨y, hy⟩ := h2
    exact ⟨x ++ y, by simp [hy, hx]⟩
  | timeout => trivial

theorem litLoop_good (o : Opts) (want : Bytes) (s0 : St) (cs : Bytes) (s : St) (v : Val)
    (h : Good o s0 (.ok v s)) (hw : s.warns = s0.warns) : Good o s0 (litLoop o want s0.pt cs s) := by
  induction cs generalizing s v with
  | nil =>
    simp only [litLoop]
    obtain ⟨h1, h2, h3, h4, h5, h6, -⟩ := failAt_fields s true s0.pt.pos want
    refine ⟨h.1.trans (Ext.failAt o s true s0.pt.pos want), ?_, ?_⟩
    · rw [h1]; exact h.2.1
    · intro he ha; rw [h1]; rw [h2] at he; exact h.2.2 he ha
  | cons c cs ih =>
    simp only [litLoop]
    split
    · rename_i hc
      refine ih (s.read o) .nil (h.seqOk (Good.read o s (Pt.rest_ne_of_rn hc) .nil)) ?_
      rw [(read_fields o s).2.1, hw]
    · obtain ⟨h1, h2, h3, h4, h5, h6, -⟩ := failAt_fields s false s0.pt.pos want
      have e := h.1.trans (Ext.failAt o s false s0.pt.pos want)
      exact ⟨⟨e.rstack, e.mfInv, e.errs, e.frame⟩, rfl, by simp [h3, hw]⟩

theorem seqLoop_good (o : Opts) (ev : Ex → St → Out) (hev : ∀ e s, Good o s (ev e s)) (s0 : St) (es : List Ex)
    (acc : List Val) (s : St) (v : Val) (h : Good o s0 (.ok v s)) : Good o s0 (seqLoop ev s0 es acc s) := by
  induction es generalizing acc s v with
  | nil => exact h
  | cons e es ih =>
    simp only [seqLoop]
    have he := hev e s
    cases hr : ev e s with
    | ok w u => rw [hr] at he; exact ih _ u w (h.seqOk he)
    | fail u =>
      rw [hr] at he
      have := h.1.trans he.1
      exact ⟨⟨this.rstack, this.mfInv, this.errs, this.frame⟩, rfl, rfl⟩
    | panic m u => rw [hr] at he; exact h.after he (by simp)
    | timeout => trivial

/-- Running with an empty variable set and putting the old one back. -/
theorem Good.pushV {o : Opts} {s : St} {v : Val} {t : St} (h : Good o { s with frame := [] } (.ok v t))
    (fr : Frame) : Good o s (.ok v { t with frame := fr ++ s.frame }) := by
  obtain ⟨e, a, b⟩ := h
  exact ⟨⟨e.rstack, e.mfInv, e.errs, ⟨fr, rfl⟩⟩, a, b⟩

theorem Good.popFail {o : Opts} {s : St} {t : St} (h : Good o { s with frame := [] } (.fail t)) :
    Good o s (.fail { t with frame := s.frame }) := by
  obtain ⟨e, a, b⟩ := h
  exact ⟨⟨e.rstack, e.mfInv, e.errs, ⟨[], rfl⟩⟩, a, b⟩

theorem Good.failOk {o : Opts} {s : St} {t : St} (h : Good o s (.fail t)) (v : Val) :
    Good o s (.ok v t) := by
  obtain ⟨e, a, b⟩ := h
  exact ⟨e, by rw [a]; exact .refl _, fun _ _ => by rw [a]; exact .refl _⟩

theorem choiceLoop_good (o : Opts) (ev : Ex → St → Out) (hev : ∀ e s, Good o s (ev e s)) (alts : List Ex) (s : St) :
    Good o s (choiceLoop ev alts s) := by
  induction alts generalizing s with
  | nil => exact ⟨Ext.rfl' o s, rfl, rfl⟩
  | cons e es ih =>
    simp only [choiceLoop]
    have he := hev e { s with frame := [] }
    cases hr : ev e { s with frame := [] } with
    | ok w u => rw [hr] at he; exact he.pushV []
    | fail u =>
      rw [hr] at he
      have h1 := he.popFail
      have h2 := ih { u with frame := s.frame, warns := s.warns }
      have hw : u.warns = s.warns := h1.2.2
      have hu : ({ u with frame := s.frame, warns := s.warns } : St) = { u with frame := s.frame } := by
        rw [← hw]
      rw [hu] at h2
      simp only [hu]
      have hp : ({ u with frame := s.frame } : St).pt = s.pt := h1.2.1
      cases hc : choiceLoop ev es { u with frame := s.frame } with
      | ok v t =>
        rw [hc] at h2
        exact (h1.failOk .nil).seqOk h2
      | fail t =>
        rw [hc] at h2
        exact ⟨h1.1.trans h2.1, h2.2.1.trans hp, h2.2.2.trans h1.2.2⟩
      | panic m t =>
        rw [hc] at h2
        exact (h1.failOk .nil).after h2 (by simp)
      | timeout => trivial
    | panic m u => rw [hr] at he; exact he
    | timeout => trivial

theorem starLoop_good (o : Opts) (ev : St → Out) (hev : ∀ s, Good o s (ev s)) (n : Nat) (acc : List Val) (s : St) :
    Good o s (starLoop ev n acc s) ∧ ∀ t, starLoop ev n acc s ≠ .fail t := by
  induction n generalizing acc s with
  | zero => exact ⟨trivial, by simp [starLoop]⟩
  | succ n ih =>
    simp only [starLoop]
    have he := hev { s with frame := [] }
    cases hr : ev { s with frame := [] } with
    | ok w u =>
      rw [hr] at he
      have h1 := he.pushV []
      have h2 := ih (acc ++ [w]) { u with frame := [] ++ s.frame }
      exact ⟨h1.after h2.1 h2.2, h2.2⟩
    | fail u => rw [hr] at he; exact ⟨he.popFail.failOk _, by simp⟩
    | panic m u => rw [hr] at he; exact ⟨he, by simp⟩
    | timeout => exact ⟨trivial, by simp⟩

theorem runState_fields (o : Opts) (c : StCode) (s : St) :
    (runState o c s).pt = s.pt ∧ (runState o c s).errs = s.errs ∧ (runState o c s).frame = s.frame ∧
    (runState o c s).rstack = s.rstack ∧ (runState o c s).mfInv = s.mfInv ∧
    (runState o c s).ff = s.ff ∧ (runState o c s).cnt = s.cnt := by
  cases c <;> simp only [runState] <;> (try split) <;> simp

theorem Good.cnt {o : Opts} {s : St} {k : Nat} {r : Out} (h : Good o { s with cnt := k } r) : Good o s r := by
  cases r with
  | ok v t => exact ⟨⟨h.1.rstack, h.1.mfInv, h.1.errs, h.1.frame⟩, h.2⟩
  | fail t => exact ⟨⟨h.1.rstack, h.1.mfInv, h.1.errs, h.1.frame⟩, h.2⟩
  | panic m t => exact h
  | timeout => trivial

/-- One step of evaluation is well behaved if the evaluation of sub-expressions is. -/
theorem step_good (o : Opts) (G : Gram) (ev : Ex → St → Out) (ih : ∀ e s, Good o s (ev e s))
    (n : Nat) (e : Ex) (s : St) : Good o s (step o G ev n e s) := by
  unfold step
  cases e with
  | action a e =>
    simp only
    have he := ih e s
    cases hr : ev e s with
    | ok v t =>
      rw [hr] at he
      simp only
      obtain ⟨ex, ad, av⟩ := he
      split
      · exact ⟨⟨ex.rstack, ex.mfInv, ex.errs, ex.frame⟩, ad, av⟩
      · rename_i v' msg _
        obtain ⟨x, hx⟩ := ex.errs
        refine ⟨⟨ex.rstack, ex.mfInv, ?_, ex.frame⟩, ad, ?_⟩
        · exact ⟨x ++ [⟨s.pt.pos, t.rstack.head?, msg⟩], by simp [St.addErrAt, hx]⟩
        · intro h
          simp only [St.addErrAt, hx] at h
          have := congrArg List.length h
          simp at this
      · exact ex.errs
    | fail t => rw [hr] at he; exact he
    | panic m t => rw [hr] at he; exact he
    | timeout => trivial
  | andCode c =>
    cases c with
    | initParser => exact ⟨⟨rfl, rfl, ⟨[], by simp⟩, ⟨[], by simp⟩⟩, .refl _, fun _ _ => .refl _⟩
    | pushError m => exact ⟨⟨rfl, rfl, ⟨[], by simp⟩, ⟨[], by simp⟩⟩, rfl, rfl⟩
    | fatalError m => exact ⟨[], by simp⟩
  | any =>
    simp only
    split
    · obtain ⟨h1, h2, h3, h4, h5, h6, -⟩ := failAt_fields s false s.pt.pos b!"."
      exact ⟨Ext.failAt _ _ _ _ _, h1, h3⟩
    · rename_i hn
      have hg := Good.read o s (Pt.rest_ne_of_not_atEof hn) .nil
      obtain ⟨h1, h2, -⟩ := failAt_fields (s.read o) true s.pt.pos b!"."
      exact ⟨hg.1.trans (Ext.failAt _ _ _ _ _), by rw [h1]; exact hg.2.1,
        by rw [h1, h2]; exact hg.2.2⟩
  | cls val inv chars ranges =>
    simp only
    split
    · obtain ⟨h1, h2, h3, h4, h5, h6, -⟩ := failAt_fields s false s.pt.pos val
      exact ⟨Ext.failAt _ _ _ _ _, h1, h3⟩
    · rename_i hn
      split
      · have hg := Good.read o s (Pt.rest_ne_of_not_atEof hn) .nil
        obtain ⟨h1, h2, -⟩ := failAt_fields (s.read o) true s.pt.pos val
        exact ⟨hg.1.trans (Ext.failAt _ _ _ _ _), by rw [h1]; exact hg.2.1,
          by rw [h1, h2]; exact hg.2.2⟩
      · obtain ⟨h1, h2, h3, h4, h5, h6, -⟩ := failAt_fields s false s.pt.pos val
        exact ⟨Ext.failAt _ _ _ _ _, h1, h3⟩
  | choice alts => exact choiceLoop_good o _ (fun e s => ih e s) alts s
  | labeled l e =>
    simp only
    have he := ih e { s with frame := [] }
    cases hr : ev e { s with frame := [] } with
    | ok v t => rw [hr] at he; exact he.pushV [(l, v)]
    | fail t => rw [hr] at he; exact he.popFail
    | panic m t => rw [hr] at he; exact he
    | timeout => trivial
  | lit v =>
    exact litLoop_good o _ s v s .nil ⟨Ext.rfl' o s, .refl _, fun _ _ => .refl _⟩ rfl
  | not e =>
    simp only
    have he := ih e { s with frame := [], mfInv := !s.mfInv }
    cases hr : ev e { s with frame := [], mfInv := !s.mfInv } with
    | ok v t =>
      rw [hr] at he
      exact ⟨⟨he.1.rstack, rfl, he.1.errs, ⟨[], rfl⟩⟩, rfl, rfl⟩
    | fail t =>
      rw [hr] at he
      exact ⟨⟨he.1.rstack, rfl, he.1.errs, ⟨[], rfl⟩⟩, .refl _, fun _ _ => .refl _⟩
    | panic m t => rw [hr] at he; exact he
    | timeout => trivial
  | plus e =>
    simp only
    have he := ih e { s with frame := [] }
    cases hr : ev e { s with frame := [] } with
    | ok v t =>
      rw [hr] at he
      have h1 := he.pushV []
      have h2 := starLoop_good o (ev e) (fun s => ih e s) n [v] { t with frame := [] ++ s.frame }
      exact h1.after h2.1 h2.2
    | fail t => rw [hr] at he; exact he.popFail
    | panic m t => rw [hr] at he; exact he
    | timeout => trivial
  | ref r =>
    simp only [evalRule]
    have he := ih (G r) { s with rstack := r :: s.rstack, frame := [] }
    cases hr : ev (G r) { s with rstack := r :: s.rstack, frame := [] } with
    | ok v t =>
      rw [hr] at he
      exact ⟨⟨rfl, he.1.mfInv, he.1.errs, ⟨[], rfl⟩⟩, he.2⟩
    | fail t =>
      rw [hr] at he
      exact ⟨⟨rfl, he.1.mfInv, he.1.errs, ⟨[], rfl⟩⟩, he.2⟩
    | panic m t => rw [hr] at he; exact he
    | timeout => trivial
  | seq es =>
    exact seqLoop_good o _ (fun e s => ih e s) s es [] s .nil
      ⟨Ext.rfl' o s, .refl _, fun _ _ => .refl _⟩
  | state c =>
    obtain ⟨h1, h2, h3, h4, h5, -⟩ := runState_fields o c s
    exact ⟨⟨h4, h5, ⟨[], by simp [h2]⟩, ⟨[], by simp [h3]⟩⟩, by rw [h1]; exact .refl _,
      by rw [h1]; exact fun _ _ => .refl _⟩
  | star e => exact (starLoop_good o (ev e) (fun s => ih e s) n [] s).1
  | opt e =>
    simp only
    have he := ih e { s with frame := [] }
    cases hr : ev e { s with frame := [] } with
    | ok v t => rw [hr] at he; exact he.pushV []
    | fail t => rw [hr] at he; exact he.popFail.failOk _
    | panic m t => rw [hr] at he; exact he
    | timeout => trivial

/-- The main lemma: every evaluation is well behaved. -/
theorem eval_good (o : Opts) (G : Gram) (n : Nat) (e : Ex) (s : St) : Good o s (eval o G n e s) := by
  induction n generalizing e s with
  | zero => trivial
  | succ n ih =>
    rw [eval]
    split
    · exact ⟨[], by simp⟩
    · exact (step_good o G _ ih n e _).cnt

end Verif
