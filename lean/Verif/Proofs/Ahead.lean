import Verif.Proofs.Engine
import Verif.Proofs.Term
/-
How far the engine looks ahead: a run on an input is the same as the run on another input that agrees with it on the first ten
bytes behind the farthest place where the final state is or has recorded a failure.
-/
namespace Verif.Ahead
open Verif

/-! ### Which expressions record their failures -/

mutual
/-- Does the expression record, when it fails, a failure at or behind the place where it starts? -/
def recs : Ex → Bool
  | .action _ e => recs e
  | .andCode (.pushError _) => false
  | .choice alts => recsAny alts
  | .labeled _ e => recs e
  | .plus e => recs e
  | _ => true
/-- Some expression of the list does. -/
def recsAny : List Ex → Bool
  | [] => false
  | e :: es => recs e || recsAny es
end

/-- Expressions that read at most six ASCII characters, or one character. -/
def term : Ex → Bool
  | .any => true
  | .cls .. => true
  | .lit v => v.all (· < 128) && v.length ≤ 6
  | _ => false

mutual
/-- All terminals are short, predicates look at one terminal, and all parts of sequences record their failures. -/
def wf : Ex → Bool
  | .action _ e => wf e
  | .andCode _ => true
  | .any => true
  | .cls .. => true
  | .choice alts => wfAll alts
  | .labeled _ e => wf e
  | .lit v => term (.lit v)
  | .not e => term e
  | .plus e => wf e
  | .ref _ => true
  | .seq es => wfSeq es
  | .state _ => true
  | .star e => wf e
  | .opt e => wf e
def wfAll : List Ex → Bool
  | [] => true
  | e :: es => wf e && wfAll es
def wfSeq : List Ex → Bool
  | [] => true
  | e :: es => wf e && recs e && wfSeq es
end

theorem gram_wf (r : Rule) : wf (gram r) = true ∧ recs (gram r) = true := by
  cases r <;> decide +kernel

/-! ### Inputs that agree at the start -/

theorem decodeRune_take4 (s : Bytes) : decodeRune (s.take 4) = decodeRune s := by
  match s with
  | [] => rfl
  | [_] => rfl
  | [_, _] => rfl
  | [_, _, _] => rfl
  | b0 :: b1 :: b2 :: b3 :: t => simp only [List.take, decodeRune]

theorem decodeRune_width4 (s : Bytes) : (decodeRune s).2 ≤ 4 := by
  rw [← decodeRune_take4]
  have := decodeRune_width_le (s.take 4)
  have := List.length_take_le 4 s
  omega

theorem agree_slice {d1 d2 : Bytes} {N : Nat} (h : d1.take N = d2.take N) {a n : Nat} (hn : a + n ≤ N) :
    (d1.drop a).take n = (d2.drop a).take n := by
  have h1 : ∀ d : Bytes, (d.drop a).take n = (((d.take N).drop a)).take n := by
    intro d
    rw [List.drop_take, List.take_take]
    congr 1
    omega
  rw [h1 d1, h1 d2, h]

theorem agree_rune {d1 d2 : Bytes} {N : Nat} (h : d1.take N = d2.take N) {a : Nat} (hn : a + 4 ≤ N) :
    decodeRune (d1.drop a) = decodeRune (d2.drop a) := by
  rw [← decodeRune_take4 (d1.drop a), ← decodeRune_take4 (d2.drop a), agree_slice h hn]

/-! ### The same state on the other input -/

def swP (d : Bytes) (p : Pt) : Pt := { p with rest := d.drop p.offset }
def sw (d : Bytes) (s : St) : St := { s with pt := swP d s.pt }
def swO (d : Bytes) : Out → Out
  | .ok v s => .ok v (sw d s)
  | .fail s => .fail (sw d s)
  | .panic m s => .panic m (sw d s)
  | .timeout => .timeout

/-- The point is one of the input. -/
def At (d : Bytes) (s : St) : Prop := s.pt.rest = d.drop s.pt.offset

theorem rn_sw {d1 d2 : Bytes} {N : Nat} (h : d1.take N = d2.take N) {p : Pt} (hp : p.rest = d1.drop p.offset) (hN : p.offset + 4 ≤ N) :
    decodeRune (swP d2 p).rest = decodeRune p.rest := by
  rw [hp]; exact (agree_rune h hN).symm

theorem next_at {d : Bytes} {p : Pt} (hp : p.rest = d.drop p.offset) : p.next.rest = d.drop p.next.offset := by
  rw [Pt.next_rest, Pt.next_offset, hp, List.drop_drop]

theorem next_sw {d1 d2 : Bytes} {N : Nat} (h : d1.take N = d2.take N) {p : Pt} (hp : p.rest = d1.drop p.offset)
    (hN : p.offset + p.w + 4 ≤ N) : (swP d2 p).next = swP d2 p.next := by
  have h1 := rn_sw h hp (by omega)
  have h2 : (swP d2 p).w = p.w := by unfold Pt.w; rw [h1]
  have h3 : decodeRune ((swP d2 p).rest.drop p.w) = decodeRune (p.rest.drop p.w) := by
    have := rn_sw h (next_at hp) (by rw [Pt.next_offset]; exact hN)
    rw [Pt.next_rest] at this
    rw [← this]
    simp only [swP, Pt.next_offset, List.drop_drop]
  unfold Pt.next
  rw [h2]
  unfold Pt.moveTo
  rw [h3]
  split <;> simp only [swP, List.drop_drop]

theorem read_at {o : Opts} {d : Bytes} {s : St} (hs : At d s) : At d (s.read o) := by
  unfold St.read
  have := next_at hs
  dsimp only
  split <;> exact this

theorem read_pt (o : Opts) (s : St) : (s.read o).pt = s.pt.next := by
  unfold St.read; dsimp only; split <;> rfl

theorem read_mf (o : Opts) (s : St) : (s.read o).mfPos = s.mfPos ∧ (s.read o).mfInv = s.mfInv := by
  unfold St.read; dsimp only; split <;> exact ⟨rfl, rfl⟩

theorem read_sw {d1 d2 : Bytes} {N : Nat} (h : d1.take N = d2.take N) (o : Opts) {s : St} (hs : At d1 s)
    (hN : s.pt.offset + s.pt.w + 4 ≤ N) : (sw d2 s).read o = sw d2 (s.read o) := by
  have h1 := next_sw h hs hN
  have h2 : (swP d2 s.pt.next).invalid = s.pt.next.invalid := by
    unfold Pt.invalid Pt.rn Pt.w
    rw [rn_sw h (next_at hs) (by rw [Pt.next_offset]; exact hN)]
  unfold St.read
  simp only [sw, h1, h2]
  split <;> rfl

theorem failAt_pt (s : St) (f : Bool) (p : Pos) (w : Bytes) : (s.failAt f p w).pt = s.pt := by
  unfold St.failAt; dsimp only; repeat' split
  all_goals rfl

theorem failAt_inv (s : St) (f : Bool) (p : Pos) (w : Bytes) : (s.failAt f p w).mfInv = s.mfInv := by
  unfold St.failAt; dsimp only; repeat' split
  all_goals rfl

theorem failAt_le (s : St) (f : Bool) (p : Pos) (w : Bytes) : s.mfPos.offset ≤ (s.failAt f p w).mfPos.offset := by
  unfold St.failAt; dsimp only
  split
  · split
    · exact Int.le_refl _
    · split
      · dsimp only; omega
      · exact Int.le_refl _
  · exact Int.le_refl _

theorem failAt_ge (s : St) (f : Bool) (p : Pos) (w : Bytes) (h : f = s.mfInv) : p.offset ≤ (s.failAt f p w).mfPos.offset := by
  unfold St.failAt; dsimp only
  rw [if_pos (by simp [h])]
  split
  · omega
  · split <;> dsimp only <;> omega

theorem failAt_sw (d : Bytes) (s : St) (f : Bool) (p : Pos) (w : Bytes) : (sw d s).failAt f p w = sw d (s.failAt f p w) := by
  unfold St.failAt sw; dsimp only
  repeat' split
  all_goals rfl

theorem slice_sw {d1 d2 : Bytes} {N : Nat} (h : d1.take N = d2.take N) {p q : Pt} (hp : p.rest = d1.drop p.offset)
    (hle : p.offset ≤ q.offset) (hq : q.offset ≤ N) : sliceFrom (swP d2 p) (swP d2 q) = sliceFrom p q := by
  unfold sliceFrom
  rw [hp]
  exact (agree_slice h (by simp only [swP]; omega)).symm

/-! ### Terminals -/

theorem litLoop_sw {d1 d2 : Bytes} {N : Nat} (h : d1.take N = d2.take N) (o : Opts) (want : Bytes) {start : Pt}
    (hst : start.rest = d1.drop start.offset) : ∀ (cs : Bytes) (s : St), (∀ c ∈ cs, c < 128) → At d1 s → start.offset ≤ s.pt.offset →
    s.pt.offset + cs.length + 4 ≤ N → litLoop o want (swP d2 start) cs (sw d2 s) = swO d2 (litLoop o want start cs s)
  | [], s, _, _, hle, hN => by
    simp only [List.length_nil] at hN
    have h1 := slice_sw (d2 := d2) h hst hle (by omega)
    have h2 := failAt_sw d2 s true start.pos want
    simp only [litLoop, swO, failAt_pt]
    rw [← h1, ← h2]
    rfl
  | c :: cs, s, hc, hs, hle, hN => by
    simp only [List.length_cons] at hN
    have h1 := rn_sw h hs (by omega)
    have h2 : (sw d2 s).pt.rn = s.pt.rn := by unfold Pt.rn sw; rw [h1]
    simp only [litLoop, h2]
    split
    · next hr =>
      have hw : s.pt.w = 1 := by
        have := Pt.rest_ne_of_rn hr
        have hlt := hc c (List.mem_cons_self ..)
        cases hre : s.pt.rest with
        | nil => exact absurd hre this
        | cons b t =>
          unfold Pt.rn at hr
          unfold Pt.w
          rw [hre] at hr ⊢
          by_cases hb : b < 128
          · rw [decodeRune_ascii hb]
          · exfalso
            rcases decodeRune_multi b t (by simpa [UInt8.not_lt] using hb) with h | h
            · rw [h] at hr; simp [runeError] at hr
              have := c.toNat_lt; omega
            · obtain ⟨p, u, r, he, _, _, _, h80, hd⟩ := h
              rw [he, hd u] at hr
              have : c.toNat < 128 := hlt
              simp only at hr
              omega
      have hoff : (s.read o).pt.offset = s.pt.offset + 1 := by rw [read_pt, Pt.next_offset, hw]
      rw [read_sw h o hs (by omega)]
      exact litLoop_sw h o want hst cs _ (fun x hx => hc x (List.mem_cons_of_mem _ hx)) (read_at hs) (by omega) (by omega)
    · simp only [swO, failAt_sw]
      rfl

theorem term_sw {d1 d2 : Bytes} {N : Nat} (h : d1.take N = d2.take N) (o : Opts) (G : Gram) {e : Ex} (he : term e = true) (n : Nat) {s : St}
    (hs : At d1 s) (hN : s.pt.offset + 10 ≤ N) : eval o G n e (sw d2 s) = swO d2 (eval o G n e s) := by
  cases n with
  | zero => rfl
  | succ n =>
    have hr := rn_sw h hs (by omega)
    have hw : s.pt.w ≤ 4 := decodeRune_width4 _
    have hread := read_sw h o (s := { s with cnt := s.cnt + 1 }) hs (by dsimp only; omega)
    have h1 : (swP d2 s.pt).atEof = s.pt.atEof := by unfold Pt.atEof Pt.rn Pt.w; rw [hr]
    have h2 : (swP d2 s.pt).rn = s.pt.rn := by unfold Pt.rn; rw [hr]
    have hsl : sliceFrom (swP d2 s.pt) (swP d2 s.pt.next) = sliceFrom s.pt s.pt.next :=
      slice_sw h hs (by rw [Pt.next_offset]; omega) (by rw [Pt.next_offset]; omega)
    have hpt : (swP d2 s.pt).pos = s.pt.pos := rfl
    unfold eval
    have hc : (sw d2 s).cnt = s.cnt := rfl
    rw [hc]
    split
    · rfl
    · have hsw : ({ sw d2 s with cnt := s.cnt + 1 } : St) = sw d2 { s with cnt := s.cnt + 1 } := rfl
      rw [hsw]
      have hp2 : (sw d2 { s with cnt := s.cnt + 1 }).pt = swP d2 s.pt := rfl
      cases e with
      | any =>
        simp only [step, hread, hp2, h1, hpt]
        split
        · rw [failAt_sw]; rfl
        · rw [failAt_sw]
          simp only [swO]
          congr 2
          simp only [sw, failAt_pt, read_pt]
          exact hsl
      | cls val inv chars ranges =>
        simp only [step, hread, hp2, h1, h2, hpt]
        split
        · rw [failAt_sw]; rfl
        · split
          · rw [failAt_sw]
            simp only [swO]
            congr 2
            simp only [sw, failAt_pt, read_pt]
            exact hsl
          · rw [failAt_sw]; rfl
      | lit v =>
        simp only [term, Bool.and_eq_true, List.all_eq_true, decide_eq_true_eq] at he
        simp only [step, hp2]
        exact litLoop_sw h o _ hs v _ he.1 hs (Nat.le_refl _) (by dsimp only; omega)
      | _ => cases he

/-- The final state is not before the first. -/
abbrev Le (s t : St) : Prop := s.pt.offset ≤ t.pt.offset ∧ s.mfPos.offset ≤ t.mfPos.offset

theorem Le.refl (s : St) : Le s s := ⟨Nat.le_refl _, Int.le_refl _⟩
theorem Le.trans {s t u : St} (h : Le s t) (h' : Le t u) : Le s u := ⟨Nat.le_trans h.1 h'.1, Int.le_trans h.2 h'.2⟩

/-- What evaluating a terminal does to the record of failures. -/
def Fact (d : Bytes) (s : St) : Out → Prop
  | .ok _ t => At d t ∧ t.mfInv = s.mfInv ∧ Le s t ∧ (s.mfInv = true → (s.pt.offset : Int) ≤ t.mfPos.offset)
  | .fail t => At d t ∧ t.mfInv = s.mfInv ∧ Le s t ∧ t.pt = s.pt ∧ (s.mfInv = false → (s.pt.offset : Int) ≤ t.mfPos.offset)
  | .panic _ t => t.pt = s.pt ∧ Le s t
  | .timeout => True

theorem litLoop_fact (o : Opts) (want : Bytes) {d : Bytes} (s0 : St) (hst : At d s0) : ∀ (cs : Bytes) (s : St), At d s →
    s0.pt.offset ≤ s.pt.offset → s.mfPos = s0.mfPos → s.mfInv = s0.mfInv → Fact d s0 (litLoop o want s0.pt cs s)
  | [], s, hs, h1, h2, h3 => by
    simp only [litLoop, Fact]
    refine ⟨?_, by rw [failAt_inv, h3], ⟨by rw [failAt_pt]; exact h1, by rw [← h2]; exact failAt_le ..⟩, fun hi => ?_⟩
    · unfold At; rw [failAt_pt]; exact hs
    · exact failAt_ge s true s0.pt.pos want (by rw [h3, hi])
  | c :: cs, s, hs, h1, h2, h3 => by
    simp only [litLoop]
    split
    · refine litLoop_fact o want s0 hst cs _ (read_at hs) ?_ ?_ ?_
      · rw [read_pt, Pt.next_offset]; omega
      · rw [(read_mf o s).1, h2]
      · rw [(read_mf o s).2, h3]
    · refine ⟨hst, ?_, ⟨Nat.le_refl _, ?_⟩, rfl, fun hi => ?_⟩
      · show (s.failAt false s0.pt.pos want).mfInv = _; rw [failAt_inv, h3]
      · show s0.mfPos.offset ≤ (s.failAt false s0.pt.pos want).mfPos.offset; rw [← h2]; exact failAt_le ..
      · exact failAt_ge s false s0.pt.pos want (by rw [h3, hi])

theorem term_fact (o : Opts) (G : Gram) {e : Ex} (he : term e = true) (n : Nat) {d : Bytes} {s : St} (hs : At d s) :
    Fact d s (eval o G n e s) := by
  cases n with
  | zero => exact trivial
  | succ n =>
    unfold eval
    split
    · exact ⟨rfl, Nat.le_refl _, Int.le_refl _⟩
    · have key : ∀ (s : St), At d s → Fact d s (step o G (eval o G n) n e s) := by
        intro s hs
        have hfail : ∀ w, Fact d s (.fail (s.failAt false s.pt.pos w)) := fun w =>
          ⟨by unfold At; rw [failAt_pt]; exact hs, failAt_inv .., ⟨by rw [failAt_pt]; exact Nat.le_refl _, failAt_le ..⟩,
            failAt_pt .., fun hi => failAt_ge s false s.pt.pos w hi.symm⟩
        have hok : ∀ v w, Fact d s (.ok v ((s.read o).failAt true s.pt.pos w)) := fun v w =>
          ⟨by unfold At; rw [failAt_pt]; exact read_at hs, by rw [failAt_inv, (read_mf o s).2],
            ⟨by rw [failAt_pt, read_pt, Pt.next_offset]; omega, by rw [← (read_mf o s).1]; exact failAt_le ..⟩,
            fun hi => failAt_ge _ true s.pt.pos w (by rw [(read_mf o s).2, hi])⟩
        cases e with
        | any =>
          simp only [step]
          split
          · exact hfail _
          · exact hok _ _
        | cls val inv chars ranges =>
          simp only [step]
          split
          · exact hfail _
          · split
            · exact hok _ _
            · exact hfail _
        | lit v => simp only [step]; exact litLoop_fact o _ s hs v s hs (Nat.le_refl _) rfl rfl
        | _ => cases he
      exact key { s with cnt := s.cnt + 1 } hs

/-! ### All expressions -/

/-- The places that the state knows are ten bytes before `N`. -/
def Within (N : Nat) (s : St) : Prop := s.pt.offset + 10 ≤ N ∧ s.mfPos.offset + 10 ≤ (N : Int)

/-- A run from `s` with outcome `r` and the run on the other input with outcome `r'`. -/
def Sim (d1 d2 : Bytes) (N : Nat) (rec : Bool) (s : St) (r r' : Out) : Prop :=
  match r with
  | .ok v t => At d1 t ∧ t.mfInv = false ∧ Le s t ∧ (Within N t → r' = .ok v (sw d2 t))
  | .fail t => At d1 t ∧ t.mfInv = false ∧ t.pt = s.pt ∧ s.mfPos.offset ≤ t.mfPos.offset ∧
      (rec = true → (s.pt.offset : Int) ≤ t.mfPos.offset) ∧ (Within N t → r' = .fail (sw d2 t))
  | .panic m t => Le s t ∧ (Within N t → r' = .panic m (sw d2 t))
  | .timeout => True

theorem Within.le {N : Nat} {s t : St} (h : Within N t) (hl : Le s t) : Within N s := by
  obtain ⟨h1, h2⟩ := h
  obtain ⟨h3, h4⟩ := hl
  exact ⟨by omega, by omega⟩

theorem Sim.weak {d1 d2 : Bytes} {N : Nat} {s : St} {r r' : Out} {b : Bool} (h : Sim d1 d2 N true s r r') : Sim d1 d2 N b s r r' := by
  cases r with
  | fail t => obtain ⟨h1, h2, h3, h4, h5, h6⟩ := h; exact ⟨h1, h2, h3, h4, fun _ => h5 rfl, h6⟩
  | _ => exact h

/-- The evaluator and the same on the other input. -/
def SimEv (d1 d2 : Bytes) (N : Nat) (ev : Ex → St → Out) : Prop :=
  ∀ e s, wf e = true → At d1 s → s.mfInv = false → Sim d1 d2 N (recs e) s (ev e s) (ev e (sw d2 s))

/-- The outcome of the rest of a sequence that began in `s0`. -/
def SimSeq (d1 d2 : Bytes) (N : Nat) (s0 s : St) (r r' : Out) : Prop :=
  match r with
  | .ok v t => At d1 t ∧ t.mfInv = false ∧ Le s t ∧ (Within N t → r' = .ok v (sw d2 t))
  | .fail t => At d1 t ∧ t.mfInv = false ∧ t.pt = s0.pt ∧ s.mfPos.offset ≤ t.mfPos.offset ∧
      (s.pt.offset : Int) ≤ t.mfPos.offset ∧ (Within N t → r' = .fail (sw d2 t))
  | .panic m t => Le s t ∧ (Within N t → r' = .panic m (sw d2 t))
  | .timeout => True

theorem seqLoop_sw {d1 d2 : Bytes} {N : Nat} {ev : Ex → St → Out} (hev : SimEv d1 d2 N ev) {s0 : St} (h0 : At d1 s0) :
    ∀ (es : List Ex) (acc : List Val) (s : St), wfSeq es = true → At d1 s → s.mfInv = false →
    SimSeq d1 d2 N s0 s (seqLoop ev s0 es acc s) (seqLoop ev (sw d2 s0) es acc (sw d2 s))
  | [], acc, s, _, hs, hi => ⟨hs, hi, Le.refl s, fun _ => rfl⟩
  | e :: es, acc, s, hw, hs, hi => by
    simp only [wfSeq, Bool.and_eq_true] at hw
    have h1 := hev e s hw.1.1 hs hi
    simp only [seqLoop]
    cases hr : ev e s with
    | ok v t =>
      rw [hr] at h1
      obtain ⟨h2, h3, h4, h5⟩ := h1
      have ih := seqLoop_sw hev h0 es (acc ++ [v]) t hw.2 h2 h3
      dsimp only
      cases hr2 : seqLoop ev s0 es (acc ++ [v]) t with
      | ok v' u =>
        rw [hr2] at ih
        obtain ⟨i1, i2, i3, i4⟩ := ih
        exact ⟨i1, i2, h4.trans i3, fun hN => by rw [h5 (hN.le i3)]; exact i4 hN⟩
      | fail u =>
        rw [hr2] at ih
        obtain ⟨i1, i2, i3, i4, i5, i6⟩ := ih
        obtain ⟨h41, h42⟩ := h4
        refine ⟨i1, i2, i3, by omega, by omega, fun hN => ?_⟩
        rw [h5 ⟨by have := hN.2; omega, by have := hN.2; omega⟩]; exact i6 hN
      | panic m u =>
        rw [hr2] at ih
        obtain ⟨i3, i4⟩ := ih
        exact ⟨h4.trans i3, fun hN => by rw [h5 (hN.le i3)]; exact i4 hN⟩
      | timeout => exact trivial
    | fail t =>
      rw [hr] at h1
      obtain ⟨h2, h3, h4, h5, h6, h7⟩ := h1
      have h6 := h6 hw.1.2
      refine ⟨h0, h3, rfl, h5, h6, fun hN => ?_⟩
      rw [h7 ⟨by have : t.mfPos.offset + 10 ≤ N := hN.2; rw [h4]; omega, hN.2⟩]; rfl
    | panic m t =>
      rw [hr] at h1
      exact ⟨h1.1, fun hN => by rw [h1.2 hN]⟩
    | timeout => exact trivial

theorem choiceLoop_sw {d1 d2 : Bytes} {N : Nat} {ev : Ex → St → Out} (hev : SimEv d1 d2 N ev) :
    ∀ (es : List Ex) (s : St), wfAll es = true → At d1 s → s.mfInv = false →
    Sim d1 d2 N (recsAny es) s (choiceLoop ev es s) (choiceLoop ev es (sw d2 s))
  | [], s, _, hs, hi => ⟨hs, hi, rfl, Int.le_refl _, fun h => (nomatch h), fun _ => rfl⟩
  | e :: es, s, hw, hs, hi => by
    simp only [wfAll, Bool.and_eq_true] at hw
    have h1 := hev e { s with frame := [] } hw.1 hs hi
    have hsw : ({ sw d2 s with frame := [] } : St) = sw d2 { s with frame := [] } := rfl
    simp only [choiceLoop, hsw]
    cases hr : ev e { s with frame := [] } with
    | ok v t =>
      rw [hr] at h1
      obtain ⟨h2, h3, h4, h5⟩ := h1
      exact ⟨h2, h3, h4, fun hN => by rw [h5 hN]; rfl⟩
    | fail t =>
      rw [hr] at h1
      obtain ⟨h2, h3, h4, h5, h6, h7⟩ := h1
      have h4' : t.pt = s.pt := h4
      have h5' : s.mfPos.offset ≤ t.mfPos.offset := h5
      have h6' : recs e = true → (s.pt.offset : Int) ≤ t.mfPos.offset := h6
      have ih := choiceLoop_sw hev es { t with frame := s.frame, warns := s.warns } hw.2 h2 h3
      have hgo : Within N t → ∀ x, choiceLoop ev es (sw d2 { t with frame := s.frame, warns := s.warns }) = x →
          (match ev e (sw d2 { s with frame := [] }) with
            | .ok v s' => Out.ok v { s' with frame := s.frame }
            | .fail s' => choiceLoop ev es { s' with frame := s.frame, warns := s.warns }
            | .panic m s' => .panic m s'
            | .timeout => .timeout) = x := by
        intro hN x hx
        rw [h7 hN]
        exact hx
      dsimp only
      cases hr2 : choiceLoop ev es { t with frame := s.frame, warns := s.warns } with
      | ok v' u =>
        rw [hr2] at ih
        obtain ⟨i1, i2, i3, i4⟩ := ih
        have i3' : Le t u := i3
        exact ⟨i1, i2, ⟨by rw [← h4']; exact i3'.1, by have := i3'.2; omega⟩, fun hN => hgo (hN.le i3') _ (i4 hN)⟩
      | fail u =>
        rw [hr2] at ih
        obtain ⟨i1, i2, i3, i4, i5, i6⟩ := ih
        have i3' : u.pt = t.pt := i3
        have i4' : t.mfPos.offset ≤ u.mfPos.offset := i4
        have i5' : recsAny es = true → (t.pt.offset : Int) ≤ u.mfPos.offset := i5
        refine ⟨i1, i2, by rw [i3', h4'], by omega, fun h => ?_, fun hN => hgo (hN.le ⟨by rw [i3']; exact Nat.le_refl _, i4'⟩) _ (i6 hN)⟩
        simp only [recsAny, Bool.or_eq_true] at h
        rcases h with h | h
        · have := h6' h; omega
        · rw [← h4']; exact i5' h
      | panic m u =>
        rw [hr2] at ih
        obtain ⟨i3, i4⟩ := ih
        have i3' : Le t u := i3
        exact ⟨⟨by rw [← h4']; exact i3'.1, by have := i3'.2; omega⟩, fun hN => hgo (hN.le i3') _ (i4 hN)⟩
      | timeout => exact trivial
    | panic m t =>
      rw [hr] at h1
      exact ⟨h1.1, fun hN => by rw [h1.2 hN]⟩
    | timeout => exact trivial

/-- The outcome of a repetition, which does not fail. -/
def SimStar (d1 d2 : Bytes) (N : Nat) (s : St) (r r' : Out) : Prop :=
  match r with
  | .ok v t => At d1 t ∧ t.mfInv = false ∧ Le s t ∧ (Within N t → r' = .ok v (sw d2 t))
  | .fail _ => False
  | .panic m t => Le s t ∧ (Within N t → r' = .panic m (sw d2 t))
  | .timeout => True

theorem SimStar.sim {d1 d2 : Bytes} {N : Nat} {s : St} {r r' : Out} {b : Bool} (h : SimStar d1 d2 N s r r') : Sim d1 d2 N b s r r' := by
  cases r with
  | fail t => cases h
  | _ => exact h

theorem starLoop_sw {d1 d2 : Bytes} {N : Nat} {ev : Ex → St → Out} (hev : SimEv d1 d2 N ev) {e : Ex} (he : wf e = true) :
    ∀ (n : Nat) (acc : List Val) (s : St), At d1 s → s.mfInv = false →
    SimStar d1 d2 N s (starLoop (ev e) n acc s) (starLoop (ev e) n acc (sw d2 s))
  | 0, acc, s, _, _ => trivial
  | n + 1, acc, s, hs, hi => by
    have h1 := hev e { s with frame := [] } he hs hi
    have hsw : ({ sw d2 s with frame := [] } : St) = sw d2 { s with frame := [] } := rfl
    simp only [starLoop, hsw]
    cases hr : ev e { s with frame := [] } with
    | ok v t =>
      rw [hr] at h1
      obtain ⟨h2, h3, h4, h5⟩ := h1
      have h4' : Le s t := h4
      have ih := starLoop_sw hev he n (acc ++ [v]) { t with frame := s.frame } h2 h3
      have hgo : Within N t → ∀ x, starLoop (ev e) n (acc ++ [v]) (sw d2 { t with frame := s.frame }) = x →
          (match ev e (sw d2 { s with frame := [] }) with
            | .ok v s' => starLoop (ev e) n (acc ++ [v]) { s' with frame := s.frame }
            | .fail s' => Out.ok (.list acc) { s' with frame := s.frame }
            | .panic m s' => .panic m s'
            | .timeout => .timeout) = x := by
        intro hN x hx
        rw [h5 hN]
        exact hx
      dsimp only
      cases hr2 : starLoop (ev e) n (acc ++ [v]) { t with frame := s.frame } with
      | ok v' u =>
        rw [hr2] at ih
        obtain ⟨i1, i2, i3, i4⟩ := ih
        have i3' : Le t u := i3
        exact ⟨i1, i2, h4'.trans i3', fun hN => hgo (hN.le i3') _ (i4 hN)⟩
      | fail u => rw [hr2] at ih; cases ih
      | panic m u =>
        rw [hr2] at ih
        obtain ⟨i3, i4⟩ := ih
        have i3' : Le t u := i3
        exact ⟨h4'.trans i3', fun hN => hgo (hN.le i3') _ (i4 hN)⟩
      | timeout => exact trivial
    | fail t =>
      rw [hr] at h1
      obtain ⟨h2, h3, h4, h5, h6, h7⟩ := h1
      have h4' : t.pt = s.pt := h4
      have h5' : s.mfPos.offset ≤ t.mfPos.offset := h5
      exact ⟨h2, h3, ⟨by rw [← h4']; exact Nat.le_refl _, h5'⟩, fun hN => by rw [h7 hN]; rfl⟩
    | panic m t =>
      rw [hr] at h1
      exact ⟨h1.1, fun hN => by rw [h1.2 hN]⟩
    | timeout => exact trivial

theorem step_sw {d1 d2 : Bytes} {N : Nat} (h : d1.take N = d2.take N) (o : Opts) (G : Gram) (hG : ∀ r, wf (G r) = true ∧ recs (G r) = true)
    (n : Nat) (hev : SimEv d1 d2 N (eval o G n)) (e : Ex) (s : St) (he : wf e = true) (hs : At d1 s) (hi : s.mfInv = false)
    (ht : term e = false) : Sim d1 d2 N (recs e) s (step o G (eval o G n) n e s) (step o G (eval o G n) n e (sw d2 s)) := by
  have hsw : ({ sw d2 s with frame := [] } : St) = sw d2 { s with frame := [] } := rfl
  cases e with
  | any => cases ht
  | cls => cases ht
  | lit v => simp only [wf] at he; rw [he] at ht; cases ht
  | action a e =>
    have h1 := hev e s he hs hi
    simp only [step]
    cases hr : eval o G n e s with
    | ok v t =>
      rw [hr] at h1
      obtain ⟨h2, h3, h4, h5⟩ := h1
      have hsl : Within N t → sliceFrom (sw d2 s).pt (sw d2 t).pt = sliceFrom s.pt t.pt := fun hN =>
        slice_sw h hs h4.1 (by have := hN.1; omega)
      have hpp : (sw d2 s).pt.pos = s.pt.pos := rfl
      dsimp only
      cases hact : runAct o a t.frame s.pt.pos (sliceFrom s.pt t.pt) t.warns with
      | val v' =>
        refine ⟨h2, h3, h4, fun hN => ?_⟩
        rw [h5 hN]; dsimp only
        rw [hsl hN, hpp]
        have : (sw d2 t).frame = t.frame ∧ (sw d2 t).warns = t.warns := ⟨rfl, rfl⟩
        rw [this.1, this.2, hact]; rfl
      | err v' m =>
        refine ⟨h2, h3, h4, fun hN => ?_⟩
        rw [h5 hN]; dsimp only
        rw [hsl hN, hpp]
        have : (sw d2 t).frame = t.frame ∧ (sw d2 t).warns = t.warns := ⟨rfl, rfl⟩
        rw [this.1, this.2, hact]; rfl
      | panic m =>
        refine ⟨h4, fun hN => ?_⟩
        have hN : Within N t := hN
        rw [h5 hN]; dsimp only
        rw [hsl hN, hpp]
        have : (sw d2 t).frame = t.frame ∧ (sw d2 t).warns = t.warns := ⟨rfl, rfl⟩
        rw [this.1, this.2, hact]; rfl
    | fail t =>
      rw [hr] at h1
      obtain ⟨h2, h3, h4, h5, h6, h7⟩ := h1
      exact ⟨h2, h3, h4, h5, h6, fun hN => by rw [h7 hN]⟩
    | panic m t =>
      rw [hr] at h1
      exact ⟨h1.1, fun hN => by rw [h1.2 hN]⟩
    | timeout => exact trivial
  | andCode c =>
    cases c with
    | initParser => exact ⟨hs, hi, Le.refl s, fun _ => rfl⟩
    | pushError msg => exact ⟨hs, hi, rfl, Int.le_refl _, fun h => (nomatch h), fun _ => rfl⟩
    | fatalError msg => exact ⟨Le.refl s, fun _ => rfl⟩
  | choice alts => exact choiceLoop_sw hev alts s he hs hi
  | labeled l e =>
    have h1 := hev e { s with frame := [] } he hs hi
    simp only [step, hsw]
    cases hr : eval o G n e { s with frame := [] } with
    | ok v t =>
      rw [hr] at h1
      obtain ⟨h2, h3, h4, h5⟩ := h1
      exact ⟨h2, h3, h4, fun hN => by rw [h5 hN]; rfl⟩
    | fail t =>
      rw [hr] at h1
      obtain ⟨h2, h3, h4, h5, h6, h7⟩ := h1
      exact ⟨h2, h3, h4, h5, h6, fun hN => by rw [h7 hN]; rfl⟩
    | panic m t =>
      rw [hr] at h1
      exact ⟨h1.1, fun hN => by rw [h1.2 hN]⟩
    | timeout => exact trivial
  | not e =>
    simp only [wf] at he
    have hs' : At d1 { s with frame := [], mfInv := !s.mfInv } := hs
    have hf := term_fact o G he n hs'
    have ht := fun hN => term_sw h o G he n (d2 := d2) hs' hN
    have hsw' : ({ sw d2 s with frame := [], mfInv := !(sw d2 s).mfInv } : St) = sw d2 { s with frame := [], mfInv := !s.mfInv } := rfl
    simp only [step]
    rw [hsw']
    cases hr : eval o G n e { s with frame := [], mfInv := !s.mfInv } with
    | ok v t =>
      rw [hr] at hf ht
      obtain ⟨f1, f2, f3, f4⟩ := hf
      refine ⟨hs, hi, rfl, f3.2, fun _ => f4 (by simp [hi]), fun hN => ?_⟩
      rw [ht hN.1]; rfl
    | fail t =>
      rw [hr] at hf ht
      obtain ⟨f1, f2, f3, f4, _⟩ := hf
      refine ⟨hs, hi, ⟨Nat.le_refl _, f3.2⟩, fun hN => ?_⟩
      rw [ht hN.1]; rfl
    | panic m t =>
      rw [hr] at hf ht
      refine ⟨hf.2, fun hN => ?_⟩
      have hN1 : t.pt.offset + 10 ≤ N := hN.1
      have : t.pt = s.pt := hf.1
      rw [this] at hN1
      rw [ht hN1]; rfl
    | timeout => exact trivial
  | plus e =>
    have he : wf e = true := he
    have h1 := hev e { s with frame := [] } he hs hi
    simp only [step, hsw]
    cases hr : eval o G n e { s with frame := [] } with
    | ok v t =>
      rw [hr] at h1
      obtain ⟨h2, h3, h4, h5⟩ := h1
      have h4' : Le s t := h4
      have ih := starLoop_sw hev he n [v] { t with frame := s.frame } h2 h3
      dsimp only
      have hgo : Within N t → ∀ x, starLoop (eval o G n e) n [v] (sw d2 { t with frame := s.frame }) = x →
          (match eval o G n e (sw d2 { s with frame := [] }) with
            | .ok v s' => starLoop (eval o G n e) n [v] { s' with frame := s.frame }
            | .fail s' => Out.fail { s' with frame := s.frame }
            | r => r) = x := by
        intro hN x hx
        rw [h5 hN]
        exact hx
      cases hr2 : starLoop (eval o G n e) n [v] { t with frame := s.frame } with
      | ok v' u =>
        rw [hr2] at ih
        obtain ⟨i1, i2, i3, i4⟩ := ih
        have i3' : Le t u := i3
        exact ⟨i1, i2, h4'.trans i3', fun hN => hgo (hN.le i3') _ (i4 hN)⟩
      | fail u => rw [hr2] at ih; cases ih
      | panic m u =>
        rw [hr2] at ih
        obtain ⟨i3, i4⟩ := ih
        have i3' : Le t u := i3
        exact ⟨h4'.trans i3', fun hN => hgo (hN.le i3') _ (i4 hN)⟩
      | timeout => exact trivial
    | fail t =>
      rw [hr] at h1
      obtain ⟨h2, h3, h4, h5, h6, h7⟩ := h1
      exact ⟨h2, h3, h4, h5, h6, fun hN => by rw [h7 hN]; rfl⟩
    | panic m t =>
      rw [hr] at h1
      exact ⟨h1.1, fun hN => by rw [h1.2 hN]⟩
    | timeout => exact trivial
  | ref r =>
    have h1 := hev (G r) { s with rstack := r :: s.rstack, frame := [] } (hG r).1 hs hi
    rw [(hG r).2] at h1
    have hsw' : ({ sw d2 s with rstack := r :: (sw d2 s).rstack, frame := [] } : St) = sw d2 { s with rstack := r :: s.rstack, frame := [] } := rfl
    simp only [step, evalRule]
    rw [hsw']
    cases hr : eval o G n (G r) { s with rstack := r :: s.rstack, frame := [] } with
    | ok v t =>
      rw [hr] at h1
      obtain ⟨h2, h3, h4, h5⟩ := h1
      exact ⟨h2, h3, h4, fun hN => by rw [h5 hN]; rfl⟩
    | fail t =>
      rw [hr] at h1
      obtain ⟨h2, h3, h4, h5, h6, h7⟩ := h1
      exact ⟨h2, h3, h4, h5, fun _ => h6 rfl, fun hN => by rw [h7 hN]; rfl⟩
    | panic m t =>
      rw [hr] at h1
      exact ⟨h1.1, fun hN => by rw [h1.2 hN]⟩
    | timeout => exact trivial
  | seq es =>
    have h1 := seqLoop_sw hev hs es [] s he hs hi
    simp only [step]
    cases hr : seqLoop (eval o G n) s es [] s with
    | ok v t => rw [hr] at h1; exact h1
    | fail t =>
      rw [hr] at h1
      obtain ⟨h2, h3, h4, h5, h6, h7⟩ := h1
      exact ⟨h2, h3, h4, h5, fun _ => h6, h7⟩
    | panic m t => rw [hr] at h1; exact h1
    | timeout => exact trivial
  | state c =>
    have h1 : runState o c (sw d2 s) = sw d2 (runState o c s) := by
      cases c with
      | initState => rfl
      | warnComment =>
        by_cases hc : (o.excWarn && s.curText.contains 35) = true
        · simp only [runState, sw, hc]; rfl
        · simp only [runState, sw, hc]; rfl
    have h2 : (runState o c s).pt = s.pt ∧ (runState o c s).mfInv = s.mfInv ∧ (runState o c s).mfPos = s.mfPos := by
      cases c with
      | initState => exact ⟨rfl, rfl, rfl⟩
      | warnComment =>
        simp only [runState]
        split <;> exact ⟨rfl, rfl, rfl⟩
    simp only [step]
    refine ⟨?_, by rw [h2.2.1, hi], ⟨by rw [h2.1]; exact Nat.le_refl _, by rw [h2.2.2]; exact Int.le_refl _⟩, fun _ => by rw [h1]⟩
    unfold At; rw [h2.1]; exact hs
  | star e =>
    have he : wf e = true := he
    exact (starLoop_sw hev he n [] s hs hi).sim
  | opt e =>
    have h1 := hev e { s with frame := [] } he hs hi
    simp only [step, hsw]
    cases hr : eval o G n e { s with frame := [] } with
    | ok v t =>
      rw [hr] at h1
      obtain ⟨h2, h3, h4, h5⟩ := h1
      exact ⟨h2, h3, h4, fun hN => by rw [h5 hN]; rfl⟩
    | fail t =>
      rw [hr] at h1
      obtain ⟨h2, h3, h4, h5, h6, h7⟩ := h1
      have h4' : t.pt = s.pt := h4
      exact ⟨h2, h3, ⟨by rw [← h4']; exact Nat.le_refl _, h5⟩, fun hN => by rw [h7 hN]; rfl⟩
    | panic m t =>
      rw [hr] at h1
      exact ⟨h1.1, fun hN => by rw [h1.2 hN]⟩
    | timeout => exact trivial

theorem eval_term {d1 d2 : Bytes} {N : Nat} (h : d1.take N = d2.take N) (o : Opts) (G : Gram) (n : Nat) {e : Ex} {s : St} (ht : term e = true)
    (hs : At d1 s) (hi : s.mfInv = false) : Sim d1 d2 N (recs e) s (eval o G n e s) (eval o G n e (sw d2 s)) := by
  have hf := term_fact o G ht n hs
  have hw := fun hN => term_sw h o G ht n (d2 := d2) hs hN
  cases hr : eval o G n e s with
  | ok v t =>
    rw [hr] at hf hw
    obtain ⟨f1, f2, f3, f4⟩ := hf
    exact ⟨f1, by rw [f2, hi], f3, fun hN => hw (hN.le f3).1⟩
  | fail t =>
    rw [hr] at hf hw
    obtain ⟨f1, f2, f3, f4, f5⟩ := hf
    exact ⟨f1, by rw [f2, hi], f4, f3.2, fun _ => f5 hi, fun hN => hw (hN.le f3).1⟩
  | panic m t =>
    rw [hr] at hf hw
    exact ⟨hf.2, fun hN => hw (hN.le hf.2).1⟩
  | timeout => exact trivial

theorem eval_sw {d1 d2 : Bytes} {N : Nat} (h : d1.take N = d2.take N) (o : Opts) (G : Gram) (hG : ∀ r, wf (G r) = true ∧ recs (G r) = true) :
    ∀ n, SimEv d1 d2 N (eval o G n)
  | 0 => fun _ _ _ _ _ => trivial
  | n + 1 => fun e s he hs hi => by
    cases ht : term e with
    | true => exact eval_term h o G (n + 1) ht hs hi
    | false =>
      have h1 := step_sw h o G hG n (eval_sw h o G hG n) e { s with cnt := s.cnt + 1 } he hs hi ht
      unfold eval
      have hc : (sw d2 s).cnt = s.cnt := rfl
      rw [hc]
      split
      · exact ⟨Le.refl s, fun _ => rfl⟩
      · revert h1
        have hsw : ({ sw d2 s with cnt := s.cnt + 1 } : St) = sw d2 { s with cnt := s.cnt + 1 } := rfl
        rw [hsw]
        generalize step o G (eval o G n) n e { s with cnt := s.cnt + 1 } = r
        intro h1
        cases r <;> exact h1

/-! ### Parse -/

theorem initSt_sw {d1 d2 : Bytes} {N : Nat} (h : d1.take N = d2.take N) (hN : 4 ≤ N) (o : Opts) (ff : List FF) :
    initSt o d2 ff = sw d2 (initSt o d1 ff) := by
  have hr : decodeRune d2 = decodeRune d1 := by
    have := agree_rune h (a := 0) (by omega)
    simpa using this.symm
  have h1 : ((⟨1, 0, 0, d2⟩ : Pt).moveTo 0 d2) = swP d2 ((⟨1, 0, 0, d1⟩ : Pt).moveTo 0 d1) := by
    unfold Pt.moveTo
    rw [hr]
    split <;> rfl
  have h2 : (swP d2 ((⟨1, 0, 0, d1⟩ : Pt).moveTo 0 d1)).invalid = ((⟨1, 0, 0, d1⟩ : Pt).moveTo 0 d1).invalid := by
    rw [← h1]
    unfold Pt.invalid Pt.rn Pt.w
    rw [Pt.moveTo_rest, Pt.moveTo_rest, hr]
  unfold initSt St.firstRead
  cases hc : ((⟨1, 0, 0, d1⟩ : Pt).moveTo 0 d1).invalid && !o.allowInvalid
  · simp only [St.start, h1, h2, hc, Bool.false_eq_true, if_false]; rfl
  · simp only [St.start, h1, h2, hc, if_true]; rfl

theorem initSt_at (o : Opts) (d : Bytes) (ff : List FF) : At d (initSt o d ff) ∧ (initSt o d ff).mfInv = false ∧
    (initSt o d ff).pt.offset = 0 ∧ (initSt o d ff).mfPos.offset = 0 := by
  have h := firstRead_fields o (St.start d ff)
  have h0 : ((⟨1, 0, 0, d⟩ : Pt).moveTo 0 d).offset = 0 := by unfold Pt.moveTo; split <;> rfl
  refine ⟨?_, h.2.2.2.2.2.2.1, ?_, ?_⟩
  · unfold At
    rw [initSt_rest]
    show d = d.drop (St.firstRead o (St.start d ff)).pt.offset
    rw [h.1]
    simp only [St.start, h0, List.drop_zero]
  · show (St.firstRead o (St.start d ff)).pt.offset = 0
    rw [h.1]; exact h0
  · show (St.firstRead o (St.start d ff)).mfPos.offset = 0
    rw [h.2.2.2.2.2.2.2.1]; rfl

/-- A failed run of the start rule is the same on every input that agrees with this one up to ten bytes behind the farthest
recorded failure. -/
theorem evalInit_fail_sw {d1 d2 : Bytes} {N : Nat} (h : d1.take N = d2.take N) (o : Opts) (ff : List FF) (n : Nat) {t : St}
    (ht : evalInit n o d1 ff = .fail t) (hN : t.mfPos.offset + 10 ≤ (N : Int)) : evalInit n o d2 ff = .fail (sw d2 t) := by
  obtain ⟨h1, h2, h3, h4⟩ := initSt_at o d1 ff
  have hs := eval_sw h o gram gram_wf n (gram .init) (initSt o d1 ff) (gram_wf .init).1 h1 h2
  rw [evalInit_eq] at ht ⊢
  have hg : gram .init = G.init := rfl
  rw [hg] at hs
  cases he : eval o gram n G.init (initSt o d1 ff) with
  | ok v u => rw [he] at ht; cases ht
  | panic m u => rw [he] at ht; cases ht
  | timeout => rw [he] at ht; cases ht
  | fail u =>
    rw [he] at ht hs
    injection ht with ht
    subst ht
    obtain ⟨s1, s2, s3, s4, s5, s6⟩ := hs
    have hN' : u.mfPos.offset + 10 ≤ (N : Int) := hN
    rw [h4] at s4
    have hoff : u.pt.offset = 0 := by rw [s3, h3]
    rw [initSt_sw h (by omega), s6 ⟨by omega, hN'⟩]
    rfl

end Verif.Ahead
