import Verif.Proofs.Parse
import Verif.Proofs.Positions
/-
An invariant of the parser's state: where errors are located and what failure reports quote.
-/
namespace Verif
open Spec

/-- What is known about read points, positions and error messages. -/
structure ErrInv (o : Opts) (data : Bytes) where
  /-- of a read point -/
  I : Pt → Prop
  /-- of a position -/
  R : Pos → Prop
  /-- of an error -/
  E : PErr → Prop
  adv : ∀ p q, I p → Adv false p q → I q
  le : ∀ p, I p → p.offset ≤ data.length
  rest : ∀ p, I p → p.rest = data.drop p.offset
  pos : ∀ p, I p → R p.pos
  inval : ∀ p r, I p → p.invalid = true → o.allowInvalid = false → E ⟨p.pos, r, invalidEncoding⟩
  other : ∀ p r m, R p → m ≠ invalidEncoding → E ⟨p, r, m⟩

/-- The text of the last action and its position: the text is that part of the input. -/
def CurOk (R : Pos → Prop) (data : Bytes) (p : Pos) (text : Bytes) : Prop :=
  (R p ∨ p = Pos.zero) ∧ 0 ≤ p.offset ∧ p.offset.toNat + text.length ≤ data.length ∧
    text = (data.drop p.offset.toNat).take text.length

/-- A recorded failure quotes the input. -/
def FFQuote (R : Pos → Prop) (data : Bytes) (e : FF) : Prop :=
  CurOk R data e.cpos e.ctext ∧ e.pos = e.cpos.offset.toNat + e.ctext.length

namespace ErrInv
variable {o : Opts} {data : Bytes} (V : ErrInv o data)

/-- The invariant of states. -/
structure Ok (s : St) : Prop where
  pt : V.I s.pt
  errs : ∀ e ∈ s.errs, V.E e
  mf : V.R s.mfPos
  cur : CurOk V.R data s.curPos s.curText
  ff : ∀ e ∈ s.ff, FFQuote V.R data e

/-- The invariant of outcomes. -/
def OkO : Out → Prop
  | .ok _ t => V.Ok t
  | .fail t => V.Ok t
  | .panic m t => V.Ok t ∧ m ≠ invalidEncoding
  | .timeout => True

theorem ok_failAt {s : St} (h : V.Ok s) {f : Bool} {p : Pos} (hp : V.R p) (w : Bytes) : V.Ok (s.failAt f p w) := by
  obtain ⟨h1, h2, h3, h4, h5, h6, h7, h8, h9, h10⟩ := failAt_fields s f p w
  refine ⟨by rw [h1]; exact h.pt, by rw [h2]; exact h.errs, ?_, by rw [h8, h9]; exact h.cur, by rw [h7]; exact h.ff⟩
  unfold St.failAt
  split
  · split
    · exact h.mf
    · simp only
      split
      · exact hp
      · exact h.mf
  · exact h.mf

theorem ok_read {s : St} (h : V.Ok s) (hne : s.pt.rest ≠ []) : V.Ok (s.read o) := by
  have hI : V.I s.pt.next := V.adv _ _ h.pt (.step _ _ hne (by simp) (.refl _))
  unfold St.read
  simp only
  split
  · rename_i hi
    simp only [Bool.and_eq_true, Bool.not_eq_true'] at hi
    refine ⟨hI, ?_, h.mf, h.cur, h.ff⟩
    intro e he
    simp only [St.addErr, St.addErrAt, List.mem_append, List.mem_singleton] at he
    rcases he with he | rfl
    · exact h.errs e he
    · exact V.inval _ _ hI hi.1 hi.2
  · exact ⟨hI, h.errs, h.mf, h.cur, h.ff⟩

theorem ok_frame {s : St} (h : V.Ok s) (f : Frame) : V.Ok { s with frame := f } := ⟨h.pt, h.errs, h.mf, h.cur, h.ff⟩

theorem runState_ok {s : St} (h : V.Ok s) (c : StCode) : V.Ok (runState o c s) := by
  cases c with
  | initState => exact h
  | warnComment =>
    simp only [runState]
    split
    · exact ⟨h.pt, h.errs, h.mf, h.cur, h.ff⟩
    · exact h

theorem pushFF_ok {ff : List FF} {e : FF} (h : ∀ x ∈ ff, FFQuote V.R data x) (he : FFQuote V.R data e) :
    ∀ x ∈ pushFF ff e, FFQuote V.R data x := by
  unfold pushFF
  cases ff with
  | nil => simpa using he
  | cons f r =>
    simp only
    split
    · simpa using he
    · split
      · split
        · exact h
        · intro x hx
          rcases List.mem_append.1 hx with hx | hx
          · exact h x hx
          · simp at hx; subst hx; exact he
      · exact h

theorem fatal_ne (p : Pos) (n : Nat) (t m : Bytes) : ffHeader p n t ++ ffLine m ≠ invalidEncoding := by
  unfold ffHeader invalidEncoding
  intro h
  have := congrArg List.head? h
  simp at this

theorem runCode_ok {s : St} (h : V.Ok s) (c : Code) : V.OkO (runCode c s) := by
  have he : ∀ m, FFQuote V.R data ⟨m, s.curPos, s.curText, s.errPos⟩ := fun m => ⟨h.cur, rfl⟩
  cases c with
  | initParser => exact ⟨h.pt, h.errs, h.mf, h.cur, by simp⟩
  | pushError m => exact ⟨h.pt, h.errs, h.mf, h.cur, V.pushFF_ok h.ff (he m)⟩
  | fatalError m =>
    refine ⟨⟨h.pt, h.errs, h.mf, h.cur, ?_⟩, fatal_ne _ _ _ _⟩
    simpa using he m

/-- No message of an action is the one about the encoding. -/
def ActRes.msgOk : ActRes → Prop
  | .val _ => True
  | .err _ m => m ≠ invalidEncoding
  | .panic m => m ≠ invalidEncoding

theorem runAct_msgOk (o : Opts) (a : Act) (fr : Frame) (pos : Pos) (text : Bytes) (ws : List Bytes) :
    ActRes.msgOk (runAct o a fr pos text ws) := by
  cases a <;> simp only [runAct, attributeAction, badAssert] <;> (repeat' split) <;>
    first | trivial | (simp only [ActRes.msgOk]; decide)

theorem runAct_msgs (o : Opts) (a : Act) (fr : Frame) (pos : Pos) (text : Bytes) (ws : List Bytes) :
    (∀ v m, runAct o a fr pos text ws = .err v m → m ≠ invalidEncoding) ∧
    (∀ m, runAct o a fr pos text ws = .panic m → m ≠ invalidEncoding) := by
  have := runAct_msgOk o a fr pos text ws
  constructor
  · intro v m h; rw [h] at this; exact this
  · intro m h; rw [h] at this; exact this

theorem eval_ok (G : Gram) (n : Nat) (e : Ex) (s : St) (hs : V.Ok s) : V.OkO (eval o G n e s) := by
  induction n generalizing e s with
  | zero => trivial
  | succ n ih =>
    simp only [eval]
    split
    · exact ⟨⟨hs.pt, hs.errs, hs.mf, hs.cur, hs.ff⟩, by decide⟩
    · have hs : V.Ok ({ s with cnt := s.cnt + 1 } : St) := ⟨hs.pt, hs.errs, hs.mf, hs.cur, hs.ff⟩
      generalize ({ s with cnt := s.cnt + 1 } : St) = s at hs
      have hstar : ∀ e m acc s, V.Ok s → V.OkO (starLoop (eval o G n e) m acc s) := by
        intro e m
        induction m with
        | zero => intros; trivial
        | succ m ihm =>
          intro acc s hs
          simp only [starLoop]
          have := ih e { s with frame := [] } (V.ok_frame hs _)
          cases h : eval o G n e { s with frame := [] } with
          | ok v t => rw [h] at this; exact ihm _ _ (V.ok_frame this _)
          | fail t => rw [h] at this; exact V.ok_frame this _
          | panic m t => rw [h] at this; exact this
          | timeout => trivial
      unfold step
      cases e with
      | action a e =>
        simp only
        have := ih e s hs
        have hg := eval_good o G n e s
        cases h : eval o G n e s with
        | ok v t =>
          rw [h] at this hg
          simp only
          have hcur : CurOk V.R data s.pt.pos (sliceFrom s.pt t.pt) := by
            obtain ⟨h1, h2, h3⟩ := hg.2.1.offset_le
            have hl := V.le _ this.pt
            have hr := V.rest _ hs.pt
            have hle := V.le _ hs.pt
            have hlen : (sliceFrom s.pt t.pt).length = t.pt.offset - s.pt.offset := by
              rw [sliceFrom, List.length_take]; omega
            refine ⟨.inl (V.pos _ hs.pt), by simp [Pt.pos], ?_, ?_⟩
            · rw [hlen]; simp only [Pt.pos, Int.toNat_natCast]; omega
            · rw [hlen, sliceFrom, hr]; simp [Pt.pos]
          obtain ⟨hm1, hm2⟩ := runAct_msgs o a t.frame s.pt.pos (sliceFrom s.pt t.pt) t.warns
          split
          · exact ⟨this.pt, this.errs, this.mf, hcur, this.ff⟩
          · rename_i v' m heq
            refine ⟨this.pt, ?_, this.mf, hcur, this.ff⟩
            intro e he
            simp only [St.addErrAt, List.mem_append, List.mem_singleton] at he
            rcases he with he | rfl
            · exact this.errs e he
            · exact V.other _ _ _ (V.pos _ hs.pt) (hm1 _ _ heq)
          · rename_i m heq
            exact ⟨⟨this.pt, this.errs, this.mf, hcur, this.ff⟩, hm2 _ heq⟩
        | fail t => rw [h] at this; exact this
        | panic m t => rw [h] at this; exact this
        | timeout => trivial
      | andCode c => exact V.runCode_ok hs c
      | any =>
        simp only
        split
        · exact V.ok_failAt hs (V.pos _ hs.pt) _
        · rename_i hn
          exact V.ok_failAt (V.ok_read hs (Pt.rest_ne_of_not_atEof hn)) (V.pos _ hs.pt) _
      | cls val inv chars ranges =>
        simp only
        split
        · exact V.ok_failAt hs (V.pos _ hs.pt) _
        · rename_i hn
          split
          · exact V.ok_failAt (V.ok_read hs (Pt.rest_ne_of_not_atEof hn)) (V.pos _ hs.pt) _
          · exact V.ok_failAt hs (V.pos _ hs.pt) _
      | choice alts =>
        simp only
        induction alts generalizing s with
        | nil => exact hs
        | cons e es ihl =>
          simp only [choiceLoop]
          have := ih e { s with frame := [] } (V.ok_frame hs _)
          cases h : eval o G n e { s with frame := [] } with
          | ok v t => rw [h] at this; exact V.ok_frame this _
          | fail t =>
            rw [h] at this
            exact ihl _ ⟨this.pt, this.errs, this.mf, this.cur, this.ff⟩
          | panic m t => rw [h] at this; exact this
          | timeout => trivial
      | labeled l e =>
        simp only
        have := ih e { s with frame := [] } (V.ok_frame hs _)
        cases h : eval o G n e { s with frame := [] } with
        | ok v t => rw [h] at this; exact V.ok_frame this _
        | fail t => rw [h] at this; exact V.ok_frame this _
        | panic m t => rw [h] at this; exact this
        | timeout => trivial
      | lit v =>
        simp only
        generalize litWant v = w
        have hI := hs.pt
        generalize s.pt = p at hI
        induction v generalizing s with
        | nil => exact V.ok_failAt hs (V.pos _ hI) _
        | cons c cs ihv =>
          simp only [litLoop]
          split
          · rename_i hc
            exact ihv _ (V.ok_read hs (Pt.rest_ne_of_rn hc))
          · have := V.ok_failAt hs (f := false) (V.pos _ hI) w
            exact ⟨hI, this.errs, this.mf, this.cur, this.ff⟩
      | not e =>
        simp only
        have := ih e { s with frame := [], mfInv := !s.mfInv } ⟨hs.pt, hs.errs, hs.mf, hs.cur, hs.ff⟩
        cases h : eval o G n e { s with frame := [], mfInv := !s.mfInv } with
        | ok v t => rw [h] at this; exact ⟨hs.pt, this.errs, this.mf, this.cur, this.ff⟩
        | fail t => rw [h] at this; exact ⟨hs.pt, this.errs, this.mf, this.cur, this.ff⟩
        | panic m t => rw [h] at this; exact this
        | timeout => trivial
      | plus e =>
        simp only
        have := ih e { s with frame := [] } (V.ok_frame hs _)
        cases h : eval o G n e { s with frame := [] } with
        | ok v t => rw [h] at this; exact hstar e n _ _ (V.ok_frame this _)
        | fail t => rw [h] at this; exact V.ok_frame this _
        | panic m t => rw [h] at this; exact this
        | timeout => trivial
      | ref r =>
        simp only [evalRule]
        have := ih (G r) { s with rstack := r :: s.rstack, frame := [] } ⟨hs.pt, hs.errs, hs.mf, hs.cur, hs.ff⟩
        cases h : eval o G n (G r) { s with rstack := r :: s.rstack, frame := [] } with
        | ok v t => rw [h] at this; exact ⟨this.pt, this.errs, this.mf, this.cur, this.ff⟩
        | fail t => rw [h] at this; exact ⟨this.pt, this.errs, this.mf, this.cur, this.ff⟩
        | panic m t => rw [h] at this; exact this
        | timeout => trivial
      | seq es =>
        simp only
        suffices H : ∀ s0 acc s, V.I s0.pt → V.Ok s →
            V.OkO (seqLoop (eval o G n) s0 es acc s) from H s [] s hs.pt hs
        intro s0
        induction es with
        | nil => intro acc s _ hs; exact hs
        | cons e es ihl =>
          intro acc s h0 hs
          simp only [seqLoop]
          have := ih e s hs
          cases h : eval o G n e s with
          | ok v t => rw [h] at this; exact ihl _ _ h0 this
          | fail t => rw [h] at this; exact ⟨h0, this.errs, this.mf, this.cur, this.ff⟩
          | panic m t => rw [h] at this; exact this
          | timeout => trivial
      | state c => exact V.runState_ok hs c
      | star e => exact hstar e n _ _ hs
      | opt e =>
        simp only
        have := ih e { s with frame := [] } (V.ok_frame hs _)
        cases h : eval o G n e { s with frame := [] } with
        | ok v t => rw [h] at this; exact V.ok_frame this _
        | fail t => rw [h] at this; exact V.ok_frame this _
        | panic m t => rw [h] at this; exact this
        | timeout => trivial

/-- The state in which the start rule is evaluated. -/
theorem init_ok (ff : List FF) (hI : V.I (initSt o data ff).pt) (h1 : V.R ⟨1, 1, 0⟩)
    (hff : ∀ e ∈ ff, FFQuote V.R data e) : V.Ok (initSt o data ff) := by
  have hcur : CurOk V.R data Pos.zero [] := ⟨.inr rfl, by decide, by simp [Pos.zero], by simp⟩
  have key : ∀ s : St, V.I s.pt → s.errs = [] → s.mfPos = ⟨1, 1, 0⟩ → s.curPos = Pos.zero → s.curText = [] → s.ff = ff →
      V.Ok (if s.pt.invalid && !o.allowInvalid then s.addErr invalidEncoding else s) := by
    intro s a1 a2 a3 a4 a5 a6
    split
    · rename_i hi
      simp only [Bool.and_eq_true, Bool.not_eq_true'] at hi
      refine ⟨a1, ?_, by simp only [St.addErr, St.addErrAt]; rw [a3]; exact h1, by simp only [St.addErr, St.addErrAt]; rw [a4, a5]; exact hcur,
        by simp only [St.addErr, St.addErrAt]; rw [a6]; exact hff⟩
      intro e he
      simp only [St.addErr, St.addErrAt, a2, List.nil_append, List.mem_singleton] at he
      subst he
      exact V.inval _ _ a1 hi.1 hi.2
    · exact ⟨a1, by rw [a2]; simp, by rw [a3]; exact h1, by rw [a4, a5]; exact hcur, by rw [a6]; exact hff⟩
  have hpt := (firstRead_fields o (St.start data ff)).1
  have hI' : V.I ({ St.start data ff with pt := (St.start data ff).pt.moveTo 0 (St.start data ff).pt.rest } : St).pt := by
    have : (initSt o data ff).pt = _ := hpt
    rw [this] at hI; exact hI
  have := key { St.start data ff with pt := (St.start data ff).pt.moveTo 0 (St.start data ff).pt.rest } hI' rfl rfl rfl rfl rfl
  exact ⟨this.pt, this.errs, this.mf, this.cur, this.ff⟩

end ErrInv
end Verif
