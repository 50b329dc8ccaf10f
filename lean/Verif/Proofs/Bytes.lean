import Verif.Model.Bytes
/-
Facts about byte strings and UTF-8 decoding.
-/
namespace Verif

theorem inRange_ge {b lo hi : UInt8} (h : inRange b lo hi = true) : lo ≤ b := by
  simp [inRange] at h; exact h.1

/-- An ASCII head is decoded as itself. -/
theorem decodeRune_ascii {b : UInt8} {t : Bytes} (h : b < 0x80) :
    decodeRune (b :: t) = (b.toNat, 1) := by
  simp [decodeRune, h]

/-- Quantification over all 256 bytes is decidable. -/
instance decForallUInt8 {P : UInt8 → Prop} [DecidablePred P] : Decidable (∀ b, P b) :=
  decidable_of_iff (∀ n : Fin 256, P (UInt8.ofNat n.val)) (by
    constructor
    · intro h b
      have := h ⟨b.toNat, b.toNat_lt⟩
      simpa using this
    · intro h n; exact h _)

theorem inRange_nat {x lo hi : UInt8} (h : inRange x lo hi = true) :
    lo.toNat ≤ x.toNat ∧ x.toNat ≤ hi.toNat := by
  simp [inRange, UInt8.le_iff_toNat_le] at h
  exact h

/-- A non-ASCII head is either an invalid byte or starts a multi-byte rune whose
decoding only depends on the bytes of the rune. -/
theorem decodeRune_multi (b : UInt8) (t : Bytes) (hb : 0x80 ≤ b) :
    (decodeRune (b :: t) = (runeError, 1)) ∨
    ∃ p u r, b :: t = p ++ u ∧ 2 ≤ p.length ∧ p.length ≤ 4 ∧ (∀ x ∈ p, 0x80 ≤ x) ∧ 0x80 ≤ r ∧
      ∀ u', decodeRune (p ++ u') = (r, p.length) := by
  have lo1 : ∀ (x hi : UInt8) (p : Prop) [Decidable p],
      inRange x (if p then 0xA0 else 0x80) hi = true → 0x80 ≤ x := by
    intro x hi p _ h
    have := inRange_ge h
    split at this
    · exact UInt8.le_trans (by decide) this
    · exact this
  have lo2 : ∀ (x hi : UInt8) (p : Prop) [Decidable p],
      inRange x (if p then 0x90 else 0x80) hi = true → 0x80 ≤ x := by
    intro x hi p _ h
    have := inRange_ge h
    split at this
    · exact UInt8.le_trans (by decide) this
    · exact this
  have hnb : ¬ b < 0x80 := by simpa [UInt8.not_lt] using hb
  by_cases h2 : inRange b 0xC2 0xDF = true
  · match t with
    | [] => left; simp only [decodeRune, if_neg hnb, if_pos h2]
    | b1 :: u =>
      by_cases h : inRange b1 0x80 0xBF = true
      · right
        refine ⟨[b, b1], u, (b.toNat - 0xC0) * 64 + (b1.toNat - 0x80), rfl, by simp, by simp, ?_, ?_, ?_⟩
        · simp [hb, inRange_ge h]
        · have := inRange_nat h2; simp at this ⊢; omega
        · intro u'
          simp only [List.cons_append, decodeRune, if_neg hnb, if_pos h2, if_pos h]; rfl
      · left; simp only [decodeRune, if_neg hnb, if_pos h2, if_neg h]
  by_cases h3 : inRange b 0xE0 0xEF = true
  · match t with
    | [] => left; simp only [decodeRune, if_neg hnb, if_neg h2, if_pos h3]
    | [_] => left; simp only [decodeRune, if_neg hnb, if_neg h2, if_pos h3]
    | b1 :: b2 :: u =>
      by_cases h : (inRange b1 (if b = 0xE0 then 0xA0 else 0x80) (if b = 0xED then 0x9F else 0xBF) &&
          inRange b2 0x80 0xBF) = true
      · right
        have h' := h
        rw [Bool.and_eq_true] at h'
        refine ⟨[b, b1, b2], u,
          (b.toNat - 0xE0) * 4096 + (b1.toNat - 0x80) * 64 + (b2.toNat - 0x80), rfl, by simp, by simp, ?_, ?_, ?_⟩
        · simp [hb, lo1 _ _ _ h'.1, inRange_ge h'.2]
        · have := inRange_nat h3
          by_cases he : b = 0xE0
          · have h1 := inRange_nat h'.1
            rw [if_pos he] at h1
            simp at h1 this ⊢; omega
          · have : b.toNat ≠ 0xE0 := fun hh => he (by
              apply UInt8.toNat_inj.mp; simpa using hh)
            simp at *; omega
        · intro u'
          simp only [List.cons_append, decodeRune, if_neg hnb, if_neg h2, if_pos h3, if_pos h]; rfl
      · left; simp only [decodeRune, if_neg hnb, if_neg h2, if_pos h3, if_neg h]
  by_cases h4 : inRange b 0xF0 0xF4 = true
  · match t with
    | [] => left; simp only [decodeRune, if_neg hnb, if_neg h2, if_neg h3, if_pos h4]
    | [_] => left; simp only [decodeRune, if_neg hnb, if_neg h2, if_neg h3, if_pos h4]
    | [_, _] => left; simp only [decodeRune, if_neg hnb, if_neg h2, if_neg h3, if_pos h4]
    | b1 :: b2 :: b3 :: u =>
      by_cases h : (inRange b1 (if b = 0xF0 then 0x90 else 0x80) (if b = 0xF4 then 0x8F else 0xBF) &&
          inRange b2 0x80 0xBF && inRange b3 0x80 0xBF) = true
      · right
        have h' := h
        rw [Bool.and_eq_true, Bool.and_eq_true] at h'
        refine ⟨[b, b1, b2, b3], u, (b.toNat - 0xF0) * 262144 + (b1.toNat - 0x80) * 4096
            + (b2.toNat - 0x80) * 64 + (b3.toNat - 0x80), rfl, by simp, by simp, ?_, ?_, ?_⟩
        · simp [hb, lo2 _ _ _ h'.1.1, inRange_ge h'.1.2, inRange_ge h'.2]
        · have := inRange_nat h4
          by_cases he : b = 0xF0
          · have h1 := inRange_nat h'.1.1
            rw [if_pos he] at h1
            simp at h1 this ⊢; omega
          · have : b.toNat ≠ 0xF0 := fun hh => he (by
              apply UInt8.toNat_inj.mp; simpa using hh)
            simp at *; omega
        · intro u'
          simp only [List.cons_append, decodeRune, if_neg hnb, if_neg h2, if_neg h3, if_pos h4, if_pos h]
          rfl
      · left; simp only [decodeRune, if_neg hnb, if_neg h2, if_neg h3, if_pos h4, if_neg h]
  left; simp only [decodeRune, if_neg hnb, if_neg h2, if_neg h3, if_neg h4]

/-- A single non-ASCII byte is invalid. -/
theorem decodeRune_single (b : UInt8) (hb : 0x80 ≤ b) : decodeRune [b] = (runeError, 1) := by
  rcases decodeRune_multi b [] hb with h | ⟨p, u, r, h, h2, _⟩
  · exact h
  · have := congrArg List.length h; simp at this; omega

/-- Decoding only depends on the bytes of the first rune, except that an invalid byte
may become part of a rune when more bytes follow. -/
theorem decodeRune_take (s : Bytes) : (decodeRune (s.take (decodeRune s).2)).1 = (decodeRune s).1 := by
  cases s with
  | nil => rfl
  | cons b t =>
    by_cases hb : b < 0x80
    · rw [decodeRune_ascii hb]; simp [decodeRune_ascii hb]
    · have hb' : 0x80 ≤ b := by simpa [UInt8.not_lt] using hb
      rcases decodeRune_multi b t hb' with h | ⟨p, u, r, h, _, _, _, _, hd⟩
      · rw [h]; simp [decodeRune_single b hb']
      · rw [h, hd u]
        have := hd []
        rw [List.append_nil] at this
        simp [this]

/-- The width of a rune: shape of the decoded prefix. -/
theorem decodeRune_width (b : UInt8) (t : Bytes) :
    (decodeRune (b :: t)).2 = 1 ∨
    ∃ p u, b :: t = p ++ u ∧ 2 ≤ p.length ∧ (∀ x ∈ p, 0x80 ≤ x) ∧
      (decodeRune (b :: t)).2 = p.length := by
  by_cases hb : b < 0x80
  · left; rw [decodeRune_ascii hb]
  · rcases decodeRune_multi b t (by simpa [UInt8.not_lt] using hb) with h | ⟨p, u, r, h, h2, _, h3, _, hd⟩
    · left; rw [h]
    · right; exact ⟨p, u, h, h2, h3, by rw [h, hd u]⟩

theorem decodeRune_width_pos (b : UInt8) (t : Bytes) : 1 ≤ (decodeRune (b :: t)).2 := by
  rcases decodeRune_width b t with h | ⟨p, u, _, h2, _, h⟩ <;> omega

theorem decodeRune_width_le (s : Bytes) : (decodeRune s).2 ≤ s.length := by
  cases s with
  | nil => simp [decodeRune]
  | cons b t =>
    rcases decodeRune_width b t with h | ⟨p, u, e, _, _, h⟩
    · rw [h]; simp
    · rw [h, e]; simp

theorem decodeRune_width_zero {s : Bytes} (h : (decodeRune s).2 = 0) : s = [] := by
  cases s with
  | nil => rfl
  | cons b t => have := decodeRune_width_pos b t; omega

/-- A rune chunk is either a single byte or consists of bytes ≥ 0x80 only. -/
theorem decodeRune_chunk (b : UInt8) (t : Bytes) :
    ((decodeRune (b :: t)).2 = 1) ∨
    (∀ x ∈ (b :: t).take (decodeRune (b :: t)).2, 0x80 ≤ x) := by
  rcases decodeRune_width b t with h | ⟨p, u, e, _, hp, h⟩
  · exact .inl h
  · right; rw [h, e]; simpa using hp

theorem runeChunksAux_flatten (n : Nat) (s : Bytes) (h : s.length ≤ n) :
    (runeChunksAux n s).flatten = s := by
  induction n generalizing s with
  | zero => cases s <;> simp_all [runeChunksAux]
  | succ n ih =>
    cases s with
    | nil => simp [runeChunksAux]
    | cons b t =>
      have hw := decodeRune_width_pos b t
      simp only [runeChunksAux, List.flatten_cons]
      rw [ih _ (by simp at *; omega), List.take_append_drop]

theorem runeChunks_flatten (s : Bytes) : (runeChunks s).flatten = s :=
  runeChunksAux_flatten _ _ (Nat.le_refl _)

theorem runeChunksAux_chunk (n : Nat) (s : Bytes) :
    ∀ c ∈ runeChunksAux n s, (∃ b, c = [b]) ∨ (∀ x ∈ c, 0x80 ≤ x) := by
  induction n generalizing s with
  | zero => simp [runeChunksAux]
  | succ n ih =>
    cases s with
    | nil => simp [runeChunksAux]
    | cons b t =>
      simp only [runeChunksAux, List.mem_cons]
      rintro c (rfl | hc)
      · rcases decodeRune_chunk b t with h | h
        · left; exact ⟨b, by simp [h]⟩
        · exact .inr h
      · exact ih _ _ hc

theorem runeChunks_chunk (s : Bytes) :
    ∀ c ∈ runeChunks s, (∃ b, c = [b]) ∨ (∀ x ∈ c, 0x80 ≤ x) := runeChunksAux_chunk _ _

/-! ### Decimal numbers -/

/-- The value of a string of decimal digits. -/
def decVal (acc : Nat) (s : Bytes) : Nat :=
  s.foldl (fun a b => 10 * a + (b.toNat - 48)) acc

theorem decVal_cons (acc : Nat) (b : UInt8) (bs : Bytes) :
    decVal acc (b :: bs) = decVal (10 * acc + (b.toNat - 48)) bs := by
  simp only [decVal, List.foldl_cons]

theorem decVal_digit (n : Nat) : (UInt8.ofNat (48 + n % 10)).toNat - 48 = n % 10 := by
  have h1 : n % 10 < 10 := Nat.mod_lt _ (by omega)
  generalize n % 10 = d at h1 ⊢
  rw [UInt8.toNat_ofNat']
  omega

theorem decVal_natDigitsAux (fuel n : Nat) (acc : Bytes) (h : n < fuel) :
    decVal 0 (natDigitsAux fuel n acc) = decVal n acc := by
  induction fuel generalizing n acc with
  | zero => omega
  | succ f ih =>
    unfold natDigitsAux
    simp only
    split
    · rename_i h0
      rw [decVal_cons, decVal_digit]
      have : 10 * 0 + n % 10 = n := by omega
      rw [this]
    · rename_i h0
      rw [ih (n / 10) _ (by omega), decVal_cons, decVal_digit]
      have : 10 * (n / 10) + n % 10 = n := by omega
      rw [this]

theorem decVal_natToBytes (n : Nat) : decVal 0 (natToBytes n) = n :=
  decVal_natDigitsAux _ _ _ (by omega)

theorem natToBytes_inj {a b : Nat} (h : natToBytes a = natToBytes b) : a = b := by
  rw [← decVal_natToBytes a, ← decVal_natToBytes b, h]

theorem natDigitsAux_digits (fuel n : Nat) (acc : Bytes) (h : ∀ b ∈ acc, 48 ≤ b ∧ b ≤ 57) :
    ∀ b ∈ natDigitsAux fuel n acc, 48 ≤ b ∧ b ≤ 57 := by
  induction fuel generalizing n acc with
  | zero => simpa [natDigitsAux] using h
  | succ f ih =>
    have hd : ∀ d, d < 10 → (48 : UInt8) ≤ UInt8.ofNat (48 + d) ∧ UInt8.ofNat (48 + d) ≤ 57 := by
      decide
    have h' : ∀ b ∈ UInt8.ofNat (48 + n % 10) :: acc, 48 ≤ b ∧ b ≤ 57 := by
      intro b hb
      rcases List.mem_cons.1 hb with rfl | hb
      · exact hd _ (Nat.mod_lt _ (by omega))
      · exact h b hb
    simp only [natDigitsAux]
    split
    · exact h'
    · exact ih _ _ h'

theorem natToBytes_digits (n : Nat) : ∀ b ∈ natToBytes n, 48 ≤ b ∧ b ≤ 57 :=
  natDigitsAux_digits _ _ _ (by simp)

end Verif
