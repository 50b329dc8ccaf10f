import Verif.Proofs.Peg
import Verif.Proofs.RunParse
/-
The grammar of the parser without its code: actions, labels, state blocks and error predicates
erased.  Where the engine does not abort, it agrees with the plain semantics of the erased grammar.
-/
namespace Verif
open Spec Spec.Treetop

/-- Is this a state block? -/
def Ex.isState : Ex → Bool
  | .state _ => true
  | _ => false

/-- Is this an error predicate? -/
def Ex.isErr : Ex → Bool
  | .andCode (.pushError _) => true
  | .andCode (.fatalError _) => true
  | _ => false

/-- The expression that never matches. -/
def never {R : Type} : PEx R := .cls false [] []

mutual
/-- The expression without code. -/
def Ex.erase : Ex → PEx Rule
  | .action _ e => e.erase
  | .andCode .initParser => .lit []
  | .andCode _ => never
  | .any => .any
  | .cls _ inv chars ranges =>
    .cls inv (chars.map Char.ofNat) (ranges.map fun r => (Char.ofNat r.1, Char.ofNat r.2))
  | .choice es => Ex.eraseAlt es
  | .labeled _ e => e.erase
  | .lit v => .lit (v.map fun b => Char.ofNat b.toNat)
  | .not e => .not e.erase
  | .plus e => .plus e.erase
  | .ref r => .ref r
  | .seq es => Ex.eraseSeq es
  | .state _ => .lit []
  | .star e => .star e.erase
  | .opt e => .opt e.erase
/-- A sequence without its state blocks. -/
def Ex.eraseSeq : List Ex → PEx Rule
  | [] => .lit []
  | e :: es =>
    if e.isState then Ex.eraseSeq es
    else if es.all Ex.isState then e.erase
    else .seq e.erase (Ex.eraseSeq es)
/-- A choice without its error predicates. -/
def Ex.eraseAlt : List Ex → PEx Rule
  | [] => never
  | e :: es =>
    if e.isErr then Ex.eraseAlt es
    else if es.all Ex.isErr then e.erase
    else .alt e.erase (Ex.eraseAlt es)
end

/-- The erased grammar. -/
def plain (r : Rule) : PEx Rule := (gram r).erase

mutual
/-- All characters of classes are below U+D800. -/
def Ex.small : Ex → Bool
  | .action _ e => e.small
  | .andCode _ => true
  | .any => true
  | .cls _ _ chars ranges =>
    chars.all (· < 0xd800) && ranges.all fun r => r.1 < 0xd800 && r.2 < 0xd800
  | .choice es => Ex.smallL es
  | .labeled _ e => e.small
  | .lit _ => true
  | .not e => e.small
  | .plus e => e.small
  | .ref _ => true
  | .seq es => Ex.smallL es
  | .state _ => true
  | .star e => e.small
  | .opt e => e.small
/-- The same for lists. -/
def Ex.smallL : List Ex → Bool
  | [] => true
  | e :: es => e.small && Ex.smallL es
end

theorem gram_small (r : Rule) : (gram r).small = true := by
  cases r <;> decide +kernel

/-! ### Characters -/

theorem encode_cons (c : Char) (cs : List Char) :
    encode (c :: cs) = String.utf8EncodeChar c ++ encode cs := by
  simp [encode]

theorem decode_cons (c : Char) (cs : List Char) : (decodeRune (encode (c :: cs))).1 = c.toNat := by
  rw [encode_cons, decodeRune_encode]; rfl

theorem nextB_cons (c : Char) (cs : List Char) : nextB (encode (c :: cs)) = encode cs := by
  unfold nextB
  rw [encode_cons, decodeRune_encode]
  simp

theorem encode_ne_nil (c : Char) (cs : List Char) : encode (c :: cs) ≠ [] := by
  rw [encode_cons]
  simp [utf8EncodeChar_ne]

theorem toNat_ofNat_small {n : Nat} (h : n < 0xd800) : (Char.ofNat n).toNat = n := by
  have : n.isValidChar := .inl h
  simp [Char.ofNat, this, Char.ofNatAux, Char.toNat, UInt32.toNat]

theorem class_small {inv : Bool} {chars : List Nat} {ranges : List (Nat × Nat)} {c : Char}
    (h : (chars.all (· < 0xd800) && ranges.all fun r => r.1 < 0xd800 && r.2 < 0xd800) = true) :
    inClass inv (chars.map Char.ofNat) (ranges.map fun r => (Char.ofNat r.1, Char.ofNat r.2)) c =
      clsMatches inv chars ranges c.toNat := by
  simp only [Bool.and_eq_true, List.all_eq_true, decide_eq_true_eq] at h
  unfold inClass clsMatches
  have h1 : (chars.map Char.ofNat).contains c = chars.contains c.toNat := by
    rw [Bool.eq_iff_iff]
    simp only [List.contains_iff_mem, List.mem_map]
    constructor
    · rintro ⟨n, hn, rfl⟩
      rw [toNat_ofNat_small (h.1 n hn)]; exact hn
    · intro hn
      exact ⟨c.toNat, hn, Char.ofNat_toNat c⟩
  have h2 : (ranges.map fun r => (Char.ofNat r.1, Char.ofNat r.2)).any
      (fun r => decide (r.1.toNat ≤ c.toNat) && decide (c.toNat ≤ r.2.toNat)) =
      ranges.any fun p => decide (p.1 ≤ c.toNat) && decide (c.toNat ≤ p.2) := by
    rw [Bool.eq_iff_iff]
    simp only [List.any_eq_true, List.mem_map, Bool.and_eq_true, decide_eq_true_eq]
    constructor
    · rintro ⟨_, ⟨r, hr, rfl⟩, h3, h4⟩
      rw [toNat_ofNat_small (h.2 r hr).1] at h3
      rw [toNat_ofNat_small (h.2 r hr).2] at h4
      exact ⟨r, hr, h3, h4⟩
    · rintro ⟨r, hr, h3, h4⟩
      refine ⟨_, ⟨r, hr, rfl⟩, ?_, ?_⟩
      · rw [toNat_ofNat_small (h.2 r hr).1]; exact h3
      · rw [toNat_ofNat_small (h.2 r hr).2]; exact h4
  rw [h1, h2]

/-! ### Agreement -/

/-- An outcome of the engine agrees with the plain semantics; an abort says nothing. -/
def Agr (res : Res) (P : Option (List Char) → Prop) : Prop :=
  match res with
  | .ok _ b _ => ∃ cs, b = encode cs ∧ P (some cs)
  | .fail => P none
  | _ => True

theorem Agr.imp {res : Res} {P Q : Option (List Char) → Prop} (h : Agr res P) (hpq : ∀ x, P x → Q x) :
    Agr res Q := by
  cases res with
  | ok v b fr => obtain ⟨cs, h1, h2⟩ := h; exact ⟨cs, h1, hpq _ h2⟩
  | fail => exact hpq _ h
  | _ => trivial

theorem litR_agr (start : Bytes) (fr : Frame) (v : Bytes) (cs : List Char) :
    Agr (litR start fr v (encode cs)) (fun r => r = strip (v.map fun b => Char.ofNat b.toNat) cs) := by
  induction v generalizing cs with
  | nil => exact ⟨cs, rfl, rfl⟩
  | cons b v ih =>
    have hb : (Char.ofNat b.toNat).toNat = b.toNat :=
      toNat_ofNat_small (by have := b.toNat_lt; omega)
    cases cs with
    | nil =>
      simp only [litR]
      split
      · rename_i h
        exfalso
        have h1 : (decodeRune (encode [])).1 = runeError := by decide
        rw [h1] at h
        have := b.toNat_lt
        simp only [runeError] at h
        omega
      · rfl
    | cons c cs =>
      simp only [litR, decode_cons, nextB_cons, List.map_cons, strip]
      by_cases h : c.toNat = b.toNat
      · rw [if_pos h, if_pos (by rw [← h, Char.ofNat_toNat])]
        exact ih cs
      · rw [if_neg h, if_neg (fun hh => h (by rw [← hh, hb]))]
        rfl

variable {ev : Ex → Bytes → Frame → Res}

/-- The hypothesis about sub-expressions. -/
def EvAgr (ev : Ex → Bytes → Frame → Res) : Prop :=
  ∀ e cs fr, e.small = true → Agr (ev e (encode cs) fr) (Matches plain e.erase cs)

/-- State blocks do nothing. -/
def EvState (ev : Ex → Bytes → Frame → Res) : Prop :=
  ∀ e b fr, e.isState = true → (∃ v, ev e b fr = .ok v b fr) ∨ ev e b fr = .timeout

/-- Error predicates never match. -/
def EvErr (ev : Ex → Bytes → Frame → Res) : Prop :=
  ∀ e b fr, e.isErr = true → ev e b fr = .fail ∨ ev e b fr = .abort ∨ ev e b fr = .timeout

theorem seqR_state (hs : EvState ev) (es : List Ex) (h : es.all Ex.isState = true) (acc : List Val)
    (b : Bytes) (fr : Frame) :
    (∃ v, seqR ev es acc b fr = .ok v b fr) ∨ seqR ev es acc b fr = .timeout := by
  induction es generalizing acc with
  | nil => exact .inl ⟨_, rfl⟩
  | cons e es ih =>
    simp only [List.all_cons, Bool.and_eq_true] at h
    simp only [seqR]
    rcases hs e b fr h.1 with ⟨v, hv⟩ | hv
    · rw [hv]; exact ih h.2 _
    · rw [hv]; exact .inr rfl

theorem choiceR_err (he : EvErr ev) (es : List Ex) (h : es.all Ex.isErr = true) (b : Bytes)
    (fr : Frame) :
    choiceR ev es b fr = .fail ∨ choiceR ev es b fr = .abort ∨ choiceR ev es b fr = .timeout := by
  induction es with
  | nil => exact .inl rfl
  | cons e es ih =>
    simp only [List.all_cons, Bool.and_eq_true] at h
    simp only [choiceR]
    rcases he e b [] h.1 with hv | hv | hv
    · rw [hv]; exact ih h.2
    · rw [hv]; exact .inr (.inl rfl)
    · rw [hv]; exact .inr (.inr rfl)

theorem seqR_agr (hev : EvAgr ev) (hs : EvState ev) (es : List Ex) (h : Ex.smallL es = true)
    (acc : List Val) (cs : List Char) (fr : Frame) :
    Agr (seqR ev es acc (encode cs) fr) (Matches plain (Ex.eraseSeq es) cs) := by
  induction es generalizing acc cs fr with
  | nil => exact ⟨cs, rfl, .lit (s := [])⟩
  | cons e es ih =>
    simp only [Ex.smallL, Bool.and_eq_true] at h
    simp only [seqR, Ex.eraseSeq]
    by_cases h1 : e.isState = true
    · rw [if_pos h1]
      rcases hs e (encode cs) fr h1 with ⟨v, hv⟩ | hv
      · rw [hv]; exact ih h.2 _ _ _
      · rw [hv]; trivial
    · rw [if_neg h1]
      have hE := hev e cs fr h.1
      by_cases h2 : es.all Ex.isState = true
      · rw [if_pos h2]
        cases hr : ev e (encode cs) fr with
        | ok v b fr' =>
          rw [hr] at hE
          obtain ⟨cs', rfl, hm⟩ := hE
          simp only
          rcases seqR_state hs es h2 (acc ++ [v]) (encode cs') fr' with ⟨w, hw⟩ | hw
          · rw [hw]; exact ⟨cs', rfl, hm⟩
          · rw [hw]; trivial
        | fail => rw [hr] at hE; exact hE
        | _ => trivial
      · rw [if_neg h2]
        cases hr : ev e (encode cs) fr with
        | ok v b fr' =>
          rw [hr] at hE
          obtain ⟨cs', rfl, hm⟩ := hE
          exact (ih h.2 (acc ++ [v]) cs' fr').imp fun x hx => .seq hm hx
        | fail => rw [hr] at hE; exact .seqFail hE
        | _ => trivial

theorem choiceR_agr (hev : EvAgr ev) (he : EvErr ev) (es : List Ex) (h : Ex.smallL es = true)
    (cs : List Char) (fr : Frame) :
    Agr (choiceR ev es (encode cs) fr) (Matches plain (Ex.eraseAlt es) cs) := by
  induction es generalizing fr with
  | nil =>
    cases cs with
    | nil => exact .clsEnd
    | cons c cs => exact .clsFail rfl
  | cons e es ih =>
    simp only [Ex.smallL, Bool.and_eq_true] at h
    simp only [choiceR, Ex.eraseAlt]
    by_cases h1 : e.isErr = true
    · rw [if_pos h1]
      rcases he e (encode cs) [] h1 with hv | hv | hv
      · rw [hv]; exact ih h.2 _
      · rw [hv]; trivial
      · rw [hv]; trivial
    · rw [if_neg h1]
      have hE := hev e cs [] h.1
      by_cases h2 : es.all Ex.isErr = true
      · rw [if_pos h2]
        cases hr : ev e (encode cs) [] with
        | ok v b fr' => rw [hr] at hE; exact hE
        | fail =>
          rw [hr] at hE
          simp only
          rcases choiceR_err he es h2 (encode cs) fr with hw | hw | hw
          · rw [hw]; exact hE
          · rw [hw]; trivial
          · rw [hw]; trivial
        | _ => trivial
      · rw [if_neg h2]
        cases hr : ev e (encode cs) [] with
        | ok v b fr' =>
          rw [hr] at hE
          obtain ⟨cs', rfl, hm⟩ := hE
          exact ⟨cs', rfl, .altFirst hm⟩
        | fail => rw [hr] at hE; exact (ih h.2 fr).imp fun x hx => .altSecond hE hx
        | _ => trivial

theorem starR_agr {e : Ex} (hev : EvAgr ev) (h : e.small = true) (n : Nat) (acc : List Val)
    (cs : List Char) (fr : Frame) :
    Agr (starR (fun b => ev e b []) fr n acc (encode cs)) (Matches plain (.star e.erase) cs) := by
  induction n generalizing acc cs with
  | zero => trivial
  | succ n ih =>
    simp only [starR]
    have hE := hev e cs [] h
    cases hr : ev e (encode cs) [] with
    | ok v b fr' =>
      rw [hr] at hE
      obtain ⟨cs', rfl, hm⟩ := hE
      exact (ih (acc ++ [v]) cs').imp fun x hx => .starMore hm hx
    | fail => rw [hr] at hE; exact ⟨cs, rfl, .starEnd hE⟩
    | _ => trivial

theorem reval_state (o : Opts) (n : Nat) : EvState (reval o gram n) := by
  intro e b fr h
  cases n with
  | zero => exact .inr rfl
  | succ n =>
    cases e with
    | state c => exact .inl ⟨_, rfl⟩
    | _ => cases h

theorem reval_err (o : Opts) (n : Nat) : EvErr (reval o gram n) := by
  intro e b fr h
  cases n with
  | zero => exact .inr (.inr rfl)
  | succ n =>
    cases e with
    | andCode c =>
      cases c with
      | initParser => cases h
      | pushError m => exact .inl rfl
      | fatalError m => exact .inr (.inl rfl)
    | _ => cases h

theorem actR_agr {o : Opts} {a : Act} {b : Bytes} {cs : List Char} {fr : Frame}
    {P : Option (List Char) → Prop} (h : P (some cs)) : Agr (actR o a b (encode cs) fr) P := by
  unfold actR
  split
  · exact ⟨cs, rfl, h⟩
  · trivial
  · trivial

theorem reval_agr (o : Opts) (n : Nat) : EvAgr (reval o gram n) := by
  induction n with
  | zero => intro e cs fr _; trivial
  | succ n ih =>
    intro e cs fr h
    rw [reval]
    cases e with
    | action a e =>
      have hE := ih e cs fr h
      simp only [stepR, Ex.erase]
      cases hr : reval o gram n e (encode cs) fr with
      | ok v b fr' =>
        rw [hr] at hE
        obtain ⟨cs', rfl, hm⟩ := hE
        exact actR_agr hm
      | fail => rw [hr] at hE; exact hE
      | _ => trivial
    | andCode c =>
      cases c with
      | initParser => exact ⟨cs, rfl, .lit (s := [])⟩
      | pushError m =>
        cases cs with
        | nil => exact .clsEnd
        | cons c cs => exact .clsFail rfl
      | fatalError m => trivial
    | any =>
      cases cs with
      | nil => exact .anyEnd
      | cons c cs =>
        simp only [stepR, Ex.erase, if_neg (encode_ne_nil c cs), nextB_cons]
        exact ⟨cs, rfl, .any⟩
    | cls x inv chars ranges =>
      cases cs with
      | nil => exact .clsEnd
      | cons c cs =>
        simp only [stepR, Ex.erase, if_neg (encode_ne_nil c cs), nextB_cons, decode_cons]
        rw [← class_small (c := c) (inv := inv) (by simpa [Ex.small] using h)]
        split
        · rename_i hc; exact ⟨cs, rfl, .cls hc⟩
        · rename_i hc; exact .clsFail (by simpa using hc)
    | choice es => exact choiceR_agr ih (reval_err o n) es h cs fr
    | labeled l e =>
      have hE := ih e cs [] h
      simp only [stepR, Ex.erase]
      cases hr : reval o gram n e (encode cs) [] with
      | ok v b fr' => rw [hr] at hE; exact hE
      | fail => rw [hr] at hE; exact hE
      | _ => trivial
    | lit v =>
      refine (litR_agr (encode cs) fr v cs).imp ?_
      rintro x rfl
      simp only [Ex.erase]
      cases hx : strip (v.map fun b => Char.ofNat b.toNat) cs with
      | none => exact .litFail (strip_none hx)
      | some t => have := strip_some hx; subst this; exact .lit
    | not e =>
      have hE := ih e cs [] h
      simp only [stepR, Ex.erase]
      cases hr : reval o gram n e (encode cs) [] with
      | ok v b fr' => rw [hr] at hE; obtain ⟨cs', _, hm⟩ := hE; exact .notFail hm
      | fail => rw [hr] at hE; exact ⟨cs, rfl, .not hE⟩
      | _ => trivial
    | plus e =>
      have hE := ih e cs [] h
      simp only [stepR, Ex.erase]
      cases hr : reval o gram n e (encode cs) [] with
      | ok v b fr' =>
        rw [hr] at hE
        obtain ⟨cs', rfl, hm⟩ := hE
        exact (starR_agr (e := e) ih h n [v] cs' fr).imp fun x hx => .plus hm hx
      | fail => rw [hr] at hE; exact .plusFail hE
      | _ => trivial
    | ref r =>
      have hE := ih (gram r) cs [] (gram_small r)
      simp only [stepR, Ex.erase]
      cases hr : reval o gram n (gram r) (encode cs) [] with
      | ok v b fr' => rw [hr] at hE; obtain ⟨cs', rfl, hm⟩ := hE; exact ⟨cs', rfl, .ref hm⟩
      | fail => rw [hr] at hE; exact .ref hE
      | _ => trivial
    | seq es => exact seqR_agr ih (reval_state o n) es h [] cs fr
    | state c => exact ⟨cs, rfl, .lit (s := [])⟩
    | star e =>
      simp only [stepR, Ex.erase]
      exact starR_agr (e := e) ih h n [] cs fr
    | opt e =>
      have hE := ih e cs [] h
      simp only [stepR, Ex.erase]
      cases hr : reval o gram n e (encode cs) [] with
      | ok v b fr' => rw [hr] at hE; obtain ⟨cs', rfl, hm⟩ := hE; exact ⟨cs', rfl, .opt hm⟩
      | fail => rw [hr] at hE; exact ⟨cs, rfl, .optNone hE⟩
      | _ => trivial

end Verif
