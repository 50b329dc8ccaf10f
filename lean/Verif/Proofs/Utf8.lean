import Verif.Spec.Utf8
import Verif.Proofs.Sim
/-
The decoder of the model is the inverse of Lean's UTF-8 encoder.
-/
namespace Verif
open Spec

theorem UInt8.toNat_ofNat_lt {n : Nat} (h : n < 256) : (UInt8.ofNat n).toNat = n := by
  rw [UInt8.toNat_ofNat']; exact Nat.mod_eq_of_lt h

theorem inRange_of_nat {x lo hi : UInt8} (h1 : lo.toNat ≤ x.toNat) (h2 : x.toNat ≤ hi.toNat) :
    inRange x lo hi = true := by
  simp [inRange, UInt8.le_iff_toNat_le, h1, h2]

theorem inRange_false_of_lt {x lo hi : UInt8} (h1 : x.toNat < lo.toNat) : inRange x lo hi = false := by
  simp [inRange, UInt8.le_iff_toNat_le]; omega

theorem inRange_false_of_gt {x lo hi : UInt8} (h1 : hi.toNat < x.toNat) : inRange x lo hi = false := by
  simp [inRange, UInt8.le_iff_toNat_le]; omega

/-- Decoding inverts encoding. -/
theorem decodeRune_encode (c : Char) (u : Bytes) :
    decodeRune (String.utf8EncodeChar c ++ u) = (c.val.toNat, (String.utf8EncodeChar c).length) := by
  have hv : c.val.toNat < 0xd800 ∨ (0xdfff < c.val.toNat ∧ c.val.toNat < 0x110000) := c.valid
  unfold String.utf8EncodeChar
  generalize c.val.toNat = v at *
  simp only
  split
  · rename_i h
    have h0 : (UInt8.ofNat v).toNat = v := UInt8.toNat_ofNat_lt (by omega)
    have : UInt8.ofNat v < 0x80 := by rw [UInt8.lt_iff_toNat_lt, h0]; simp; omega
    simp only [List.cons_append, List.nil_append]
    rw [decodeRune_ascii this, h0]; rfl
  · split
    · rename_i h1 h2
      have e0 : (UInt8.ofNat (v / 64 % 32 + 192)).toNat = v / 64 % 32 + 192 := UInt8.toNat_ofNat_lt (by omega)
      have e1 : (UInt8.ofNat (v % 64 + 128)).toNat = v % 64 + 128 := UInt8.toNat_ofNat_lt (by omega)
      have hnb : ¬ UInt8.ofNat (v / 64 % 32 + 192) < 0x80 := by
        rw [UInt8.lt_iff_toNat_lt, e0]; simp
      have r0 : inRange (UInt8.ofNat (v / 64 % 32 + 192)) 0xC2 0xDF = true :=
        inRange_of_nat (by rw [e0]; simp; omega) (by rw [e0]; simp; omega)
      have r1 : inRange (UInt8.ofNat (v % 64 + 128)) 0x80 0xBF = true :=
        inRange_of_nat (by rw [e1]; simp) (by rw [e1]; simp; omega)
      simp only [List.cons_append, List.nil_append, decodeRune, if_neg hnb, if_pos r0, if_pos r1, e0, e1]
      simp only [List.length_cons, List.length_nil, Prod.mk.injEq, and_true]
      omega
    · split
      · rename_i h1 h2 h3
        have e0 : (UInt8.ofNat (v / 4096 % 16 + 224)).toNat = v / 4096 % 16 + 224 := UInt8.toNat_ofNat_lt (by omega)
        have e1 : (UInt8.ofNat (v / 64 % 64 + 128)).toNat = v / 64 % 64 + 128 := UInt8.toNat_ofNat_lt (by omega)
        have e2 : (UInt8.ofNat (v % 64 + 128)).toNat = v % 64 + 128 := UInt8.toNat_ofNat_lt (by omega)
        generalize UInt8.ofNat (v / 4096 % 16 + 224) = b0 at *
        generalize UInt8.ofNat (v / 64 % 64 + 128) = b1 at *
        generalize UInt8.ofNat (v % 64 + 128) = b2 at *
        have hnb : ¬ b0 < 0x80 := by rw [UInt8.lt_iff_toNat_lt, e0]; simp
        have q0 : ¬ inRange b0 0xC2 0xDF = true := by
          rw [inRange_false_of_gt (by rw [e0]; simp)]; simp
        have r0 : inRange b0 0xE0 0xEF = true :=
          inRange_of_nat (by rw [e0]; simp) (by rw [e0]; simp; omega)
        have r2 : inRange b2 0x80 0xBF = true :=
          inRange_of_nat (by rw [e2]; simp) (by rw [e2]; simp; omega)
        have r1 : inRange b1 (if b0 = 0xE0 then 0xA0 else 0x80) (if b0 = 0xED then 0x9F else 0xBF) = true := by
          apply inRange_of_nat
          · split
            · rename_i h; have : b0.toNat = 0xE0 := by rw [h]; rfl
              rw [e1]; simp; omega
            · rw [e1]; simp
          · split
            · rename_i h; have : b0.toNat = 0xED := by rw [h]; rfl
              rw [e1]; simp; omega
            · rw [e1]; simp; omega
        simp only [List.cons_append, List.nil_append, decodeRune, if_neg hnb, if_neg q0, if_pos r0, r1, r2,
          Bool.and_self, if_true, e0, e1, e2]
        simp only [List.length_cons, List.length_nil, Prod.mk.injEq, and_true]
        omega
      · rename_i h1 h2 h3
        have e0 : (UInt8.ofNat (v / 262144 % 8 + 240)).toNat = v / 262144 % 8 + 240 := UInt8.toNat_ofNat_lt (by omega)
        have e1 : (UInt8.ofNat (v / 4096 % 64 + 128)).toNat = v / 4096 % 64 + 128 := UInt8.toNat_ofNat_lt (by omega)
        have e2 : (UInt8.ofNat (v / 64 % 64 + 128)).toNat = v / 64 % 64 + 128 := UInt8.toNat_ofNat_lt (by omega)
        have e3 : (UInt8.ofNat (v % 64 + 128)).toNat = v % 64 + 128 := UInt8.toNat_ofNat_lt (by omega)
        generalize UInt8.ofNat (v / 262144 % 8 + 240) = b0 at *
        generalize UInt8.ofNat (v / 4096 % 64 + 128) = b1 at *
        generalize UInt8.ofNat (v / 64 % 64 + 128) = b2 at *
        generalize UInt8.ofNat (v % 64 + 128) = b3 at *
        have hnb : ¬ b0 < 0x80 := by rw [UInt8.lt_iff_toNat_lt, e0]; simp
        have q0 : ¬ inRange b0 0xC2 0xDF = true := by
          rw [inRange_false_of_gt (by rw [e0]; simp)]; simp
        have q1 : ¬ inRange b0 0xE0 0xEF = true := by
          rw [inRange_false_of_gt (by rw [e0]; simp)]; simp
        have r0 : inRange b0 0xF0 0xF4 = true :=
          inRange_of_nat (by rw [e0]; simp) (by rw [e0]; simp; omega)
        have r2 : inRange b2 0x80 0xBF = true :=
          inRange_of_nat (by rw [e2]; simp) (by rw [e2]; simp; omega)
        have r3 : inRange b3 0x80 0xBF = true :=
          inRange_of_nat (by rw [e3]; simp) (by rw [e3]; simp; omega)
        have r1 : inRange b1 (if b0 = 0xF0 then 0x90 else 0x80) (if b0 = 0xF4 then 0x8F else 0xBF) = true := by
          apply inRange_of_nat
          · split
            · rename_i h; have : b0.toNat = 0xF0 := by rw [h]; rfl
              rw [e1]; simp; omega
            · rw [e1]; simp
          · split
            · rename_i h; have : b0.toNat = 0xF4 := by rw [h]; rfl
              rw [e1]; simp; omega
            · rw [e1]; simp; omega
        simp only [List.cons_append, List.nil_append, decodeRune, if_neg hnb, if_neg q0, if_neg q1, if_pos r0, r1,
          r2, r3, Bool.and_self, if_true, e0, e1, e2, e3]
        simp only [List.length_cons, List.length_nil, Prod.mk.injEq, and_true]
        omega

/-- The character with a given scalar value. -/
theorem char_of {v : Nat} (h : v < 0xd800 ∨ (0xdfff < v ∧ v < 0x110000)) :
    ∃ c : Char, c.val.toNat = v := by
  refine ⟨Char.ofNatAux v h, ?_⟩
  rfl

/-- What is not decoded as an invalid byte starts with an encoded character. -/
theorem decodeRune_valid (b : UInt8) (t : Bytes)
    (h : ¬ ((decodeRune (b :: t)).1 = runeError ∧ (decodeRune (b :: t)).2 = 1)) :
    ∃ c u, b :: t = String.utf8EncodeChar c ++ u := by
  have inj : ∀ {x y : UInt8}, x.toNat = y.toNat → x = y := fun h => UInt8.toNat_inj.mp h
  by_cases hb : b < 0x80
  · rw [UInt8.lt_iff_toNat_lt] at hb
    simp at hb
    obtain ⟨c, hc⟩ := char_of (v := b.toNat) (by omega)
    refine ⟨c, t, ?_⟩
    simp only [String.utf8EncodeChar, hc, if_pos (show b.toNat ≤ 127 by omega)]
    simp
  have hbn : 0x80 ≤ b.toNat := by
    simp only [UInt8.lt_iff_toNat_lt] at hb; simp at hb; exact hb
  by_cases h2 : inRange b 0xC2 0xDF = true
  · have n0 := inRange_nat h2
    match t with
    | [] => simp [decodeRune, if_neg hb, if_pos h2] at h
    | b1 :: u =>
      by_cases r : inRange b1 0x80 0xBF = true
      · have n1 := inRange_nat r
        simp at n0 n1
        obtain ⟨c, hc⟩ := char_of (v := (b.toNat - 0xC0) * 64 + (b1.toNat - 0x80)) (by omega)
        refine ⟨c, u, ?_⟩
        simp only [String.utf8EncodeChar, hc]
        rw [if_neg (by omega), if_pos (by omega)]
        simp only [List.cons_append, List.nil_append, List.cons.injEq, and_true]
        constructor <;> apply inj <;> rw [UInt8.toNat_ofNat_lt (by omega)] <;> omega
      · simp [decodeRune, if_neg hb, if_pos h2, if_neg r] at h
  by_cases h3 : inRange b 0xE0 0xEF = true
  · have n0 := inRange_nat h3
    match t with
    | [] => simp [decodeRune, if_neg hb, if_neg h2, if_pos h3] at h
    | [_] => simp [decodeRune, if_neg hb, if_neg h2, if_pos h3] at h
    | b1 :: b2 :: u =>
      by_cases r : (inRange b1 (if b = 0xE0 then 0xA0 else 0x80) (if b = 0xED then 0x9F else 0xBF) &&
          inRange b2 0x80 0xBF) = true
      · have r' := r
        rw [Bool.and_eq_true] at r'
        have n1 := inRange_nat r'.1
        have n2 := inRange_nat r'.2
        have n1' : 0x80 ≤ b1.toNat ∧ b1.toNat ≤ 0xBF ∧ (b.toNat = 0xE0 → 0xA0 ≤ b1.toNat) ∧
            (b.toNat = 0xED → b1.toNat ≤ 0x9F) := by
          obtain ⟨l, g⟩ := n1
          refine ⟨?_, ?_, ?_, ?_⟩
          · split at l <;> simp at l <;> omega
          · split at g <;> simp at g <;> omega
          · intro he
            have : b = 0xE0 := inj (by simpa using he)
            rw [if_pos this] at l; simpa using l
          · intro he
            have : b = 0xED := inj (by simpa using he)
            rw [if_pos this] at g; simpa using g
        simp at n0 n2
        obtain ⟨c, hc⟩ := char_of
          (v := (b.toNat - 0xE0) * 4096 + (b1.toNat - 0x80) * 64 + (b2.toNat - 0x80)) (by omega)
        refine ⟨c, u, ?_⟩
        simp only [String.utf8EncodeChar, hc]
        rw [if_neg (by omega), if_neg (by omega), if_pos (by omega)]
        simp only [List.cons_append, List.nil_append, List.cons.injEq, and_true]
        refine ⟨?_, ?_, ?_⟩ <;> apply inj <;> rw [UInt8.toNat_ofNat_lt (by omega)] <;> omega
      · exact absurd (by simp only [decodeRune, if_neg hb, if_neg h2, if_pos h3, if_neg r]; exact ⟨trivial, trivial⟩) h
  by_cases h4 : inRange b 0xF0 0xF4 = true
  · have n0 := inRange_nat h4
    match t with
    | [] => simp [decodeRune, if_neg hb, if_neg h2, if_neg h3, if_pos h4] at h
    | [_] => simp [decodeRune, if_neg hb, if_neg h2, if_neg h3, if_pos h4] at h
    | [_, _] => simp [decodeRune, if_neg hb, if_neg h2, if_neg h3, if_pos h4] at h
    | b1 :: b2 :: b3 :: u =>
      by_cases r : (inRange b1 (if b = 0xF0 then 0x90 else 0x80) (if b = 0xF4 then 0x8F else 0xBF) &&
          inRange b2 0x80 0xBF && inRange b3 0x80 0xBF) = true
      · have r' := r
        rw [Bool.and_eq_true, Bool.and_eq_true] at r'
        have n1 := inRange_nat r'.1.1
        have n2 := inRange_nat r'.1.2
        have n3 := inRange_nat r'.2
        have n1' : 0x80 ≤ b1.toNat ∧ b1.toNat ≤ 0xBF ∧ (b.toNat = 0xF0 → 0x90 ≤ b1.toNat) ∧
            (b.toNat = 0xF4 → b1.toNat ≤ 0x8F) := by
          obtain ⟨l, g⟩ := n1
          refine ⟨?_, ?_, ?_, ?_⟩
          · split at l <;> simp at l <;> omega
          · split at g <;> simp at g <;> omega
          · intro he
            have : b = 0xF0 := inj (by simpa using he)
            rw [if_pos this] at l; simpa using l
          · intro he
            have : b = 0xF4 := inj (by simpa using he)
            rw [if_pos this] at g; simpa using g
        simp at n0 n2 n3
        obtain ⟨c, hc⟩ := char_of
          (v := (b.toNat - 0xF0) * 262144 + (b1.toNat - 0x80) * 4096
            + (b2.toNat - 0x80) * 64 + (b3.toNat - 0x80)) (by omega)
        refine ⟨c, u, ?_⟩
        simp only [String.utf8EncodeChar, hc]
        rw [if_neg (by omega), if_neg (by omega), if_neg (by omega)]
        simp only [List.cons_append, List.nil_append, List.cons.injEq, and_true]
        refine ⟨?_, ?_, ?_, ?_⟩ <;> apply inj <;> rw [UInt8.toNat_ofNat_lt (by omega)] <;> omega
      · exact absurd (by simp only [decodeRune, if_neg hb, if_neg h2, if_neg h3, if_pos h4, if_neg r]; exact ⟨trivial, trivial⟩) h
  simp [decodeRune, if_neg hb, if_neg h2, if_neg h3, if_neg h4] at h

theorem utf8EncodeChar_ne (c : Char) : String.utf8EncodeChar c ≠ [] := by
  unfold String.utf8EncodeChar
  simp only
  split
  · simp
  · split
    · simp
    · split <;> simp

/-- A byte that is not valid is decoded with rune error and width one. -/
theorem Pt.invalid_iff (p : Pt) : p.invalid = true ↔
    (decodeRune p.rest).1 = runeError ∧ (decodeRune p.rest).2 = 1 := by
  simp [Pt.invalid, Pt.rn, Pt.w]

/-- A point at the start of valid UTF-8 does not show an invalid byte. -/
theorem not_invalid_of_valid {p : Pt} (h : ValidUTF8 p.rest) : p.invalid = false := by
  obtain ⟨cs, hcs⟩ := h
  rw [Bool.eq_false_iff]
  intro hi
  rw [Pt.invalid_iff, hcs] at hi
  cases cs with
  | nil => simp [encode, decodeRune] at hi
  | cons c cs =>
    simp only [encode, List.flatMap_cons] at hi
    rw [decodeRune_encode] at hi
    obtain ⟨h1, h2⟩ := hi
    simp only at h1 h2
    unfold String.utf8EncodeChar at h2
    rw [h1] at h2
    simp [runeError] at h2

theorem validUTF8_drop {s : Bytes} (h : ValidUTF8 s) : ValidUTF8 (s.drop (decodeRune s).2) := by
  obtain ⟨cs, rfl⟩ := h
  cases cs with
  | nil => exact ⟨[], rfl⟩
  | cons c cs =>
    refine ⟨cs, ?_⟩
    simp only [encode, List.flatMap_cons]
    rw [decodeRune_encode]
    simp

/-- Valid UTF-8 shows no invalid byte at any rune boundary. -/
theorem validRest_of_valid {s : Bytes} (h : ValidUTF8 s) : ValidRest s := by
  intro p q hp ha
  have : ValidUTF8 q.rest := by
    rw [← hp] at h
    clear hp
    induction ha with
    | refl p => exact h
    | step p q _ _ _ ih => exact ih (by rw [Pt.next_rest]; exact validUTF8_drop h)
  exact not_invalid_of_valid this

/-- If reading up to the end meets no invalid byte, the text is valid UTF-8. -/
theorem valid_of_adv {p q : Pt} (h : Adv true p q) (h0 : p.invalid = false) (hq : q.rest = []) :
    ValidUTF8 p.rest := by
  induction h with
  | refl p => rw [hq]; exact ⟨[], rfl⟩
  | step p q hne hv _ ih =>
    obtain ⟨cs, hcs⟩ := ih (hv rfl) hq
    cases hr : p.rest with
    | nil => exact absurd hr hne
    | cons b t =>
      have h0' : ¬ ((decodeRune (b :: t)).1 = runeError ∧ (decodeRune (b :: t)).2 = 1) := by
        rw [← hr, ← Pt.invalid_iff, h0]; simp
      obtain ⟨c, u, hu⟩ := decodeRune_valid b t h0'
      have hd := decodeRune_encode c u
      rw [Pt.next_rest, Pt.w, hr, hu, hd] at hcs
      simp only [List.drop_left] at hcs
      exact ⟨c :: cs, by rw [hu, hcs]; rfl⟩

end Verif
