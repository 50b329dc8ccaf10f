import Verif.Proofs.Utf8
/-
Valid UTF-8 and concatenation.
-/
namespace Verif
open Spec

theorem validUTF8_nil : ValidUTF8 [] := ⟨[], rfl⟩

theorem validUTF8_append {a b : Bytes} (ha : ValidUTF8 a) (hb : ValidUTF8 b) : ValidUTF8 (a ++ b) := by
  obtain ⟨cs, rfl⟩ := ha
  obtain ⟨ds, rfl⟩ := hb
  exact ⟨cs ++ ds, by simp [encode]⟩

/-- All bytes are ASCII. -/
def asciiB (b : Bytes) : Bool := b.all (· < 128)

theorem encode_ascii {b : UInt8} (h : b < 128) : ∃ c : Char, String.utf8EncodeChar c = [b] := by
  have hb : b.toNat < 128 := by rw [UInt8.lt_iff_toNat_lt] at h; simpa using h
  obtain ⟨c, hc⟩ := char_of (v := b.toNat) (by left; omega)
  refine ⟨c, ?_⟩
  unfold String.utf8EncodeChar
  rw [hc]
  simp only
  rw [if_pos (by omega)]
  simp

theorem validUTF8_ascii {b : Bytes} (h : asciiB b = true) : ValidUTF8 b := by
  induction b with
  | nil => exact validUTF8_nil
  | cons c b ih =>
    simp only [asciiB, List.all_cons, Bool.and_eq_true, decide_eq_true_eq] at h
    obtain ⟨d, hd⟩ := encode_ascii h.1
    have := validUTF8_append (a := [c]) (b := b) ⟨[d], by simp [encode, hd]⟩ (ih h.2)
    exact this

theorem encode_tail (c : Char) : ∀ b ∈ (String.utf8EncodeChar c).tail, 128 ≤ b := by
  have key : ∀ n : Nat, n < 128 → (128 : UInt8) ≤ UInt8.ofNat (n + 128) := by
    intro n hn
    rw [UInt8.le_iff_toNat_le, UInt8.toNat_ofNat_lt (by omega)]
    simp
  unfold String.utf8EncodeChar
  simp only
  split
  · simp
  · split
    · simp only [List.tail_cons, List.mem_singleton, forall_eq]; exact key _ (by omega)
    · split
      · simp only [List.tail_cons, List.mem_cons, List.not_mem_nil, or_false, forall_eq_or_imp, forall_eq]
        exact ⟨key _ (by omega), key _ (by omega)⟩
      · simp only [List.tail_cons, List.mem_cons, List.not_mem_nil, or_false, forall_eq_or_imp, forall_eq]
        exact ⟨key _ (by omega), key _ (by omega), key _ (by omega)⟩

/-- The text is empty or starts with an ASCII byte. -/
def HeadA (b : Bytes) : Prop := ∀ c r, b = c :: r → c < 128

theorem HeadA.app {a b : Bytes} (ha : HeadA a) (hb : HeadA b) : HeadA (a ++ b) := by
  cases a with
  | nil => exact hb
  | cons c a => intro d r h; injection h with h _; subst h; exact ha _ _ rfl

theorem HeadA.pre {a b : Bytes} (ha : HeadA a) (hne : a ≠ []) : HeadA (a ++ b) := by
  cases a with
  | nil => exact absurd rfl hne
  | cons c a => intro d r h; injection h with h _; subst h; exact ha _ _ rfl

theorem headA_ascii {a : Bytes} (h : asciiB a = true) : HeadA a := by
  rintro c r rfl
  simp only [asciiB, List.all_cons, Bool.and_eq_true, decide_eq_true_eq] at h
  exact h.1

/-- Valid UTF-8 can be cut in front of an ASCII byte. -/
theorem validUTF8_split {a b : Bytes} (hb : HeadA b) (h : ValidUTF8 (a ++ b)) : ValidUTF8 a ∧ ValidUTF8 b := by
  obtain ⟨cs, hcs⟩ := h
  induction cs generalizing a with
  | nil =>
    have : a ++ b = [] := hcs
    simp only [List.append_eq_nil_iff] at this
    rw [this.1, this.2]; exact ⟨validUTF8_nil, validUTF8_nil⟩
  | cons c cs ih =>
    cases ha : a with
    | nil => subst ha; exact ⟨validUTF8_nil, c :: cs, hcs⟩
    | cons x a' =>
      rw [show encode (c :: cs) = String.utf8EncodeChar c ++ encode cs from by simp [encode]] at hcs
      rcases List.append_eq_append_iff.1 hcs with ⟨d, h1, h2⟩ | ⟨d, h1, h2⟩
      · cases d with
        | nil =>
          rw [List.append_nil] at h1
          rw [List.nil_append] at h2
          rw [← ha, ← h1, h2]
          exact ⟨⟨[c], by simp [encode]⟩, cs, rfl⟩
        | cons y d =>
          exfalso
          have hy : y < 128 := hb y _ h2
          have := encode_tail c y (by rw [h1, ha]; simp)
          rw [UInt8.le_iff_toNat_le] at this
          rw [UInt8.lt_iff_toNat_lt] at hy
          omega
      · obtain ⟨h3, h4⟩ := ih (a := d) h2.symm
        refine ⟨?_, h4⟩
        rw [← ha, h1]
        exact validUTF8_append ⟨[c], by simp [encode]⟩ h3

theorem validUTF8_drop_ascii {a b : Bytes} (ha : asciiB a = true) (h : ValidUTF8 (a ++ b)) : ValidUTF8 b := by
  induction a with
  | nil => exact h
  | cons c a ih =>
    simp only [asciiB, List.all_cons, Bool.and_eq_true, decide_eq_true_eq] at ha
    apply ih ha.2
    obtain ⟨cs, hcs⟩ := h
    cases cs with
    | nil => cases hcs
    | cons d cs =>
      rw [show encode (d :: cs) = String.utf8EncodeChar d ++ encode cs from by simp [encode], List.cons_append] at hcs
      have hd := utf8EncodeChar_ne d
      have ht := decodeRune_encode d (encode cs)
      have ht2 := decodeRune_ascii (t := a ++ b) ha.1
      rw [← hcs, ht2] at ht
      have hl : (String.utf8EncodeChar d).length = 1 := (congrArg Prod.snd ht).symm
      obtain ⟨y, hy⟩ := List.length_eq_one_iff.1 hl
      rw [hy] at hcs
      injection hcs with _ hcs
      exact ⟨cs, hcs⟩

theorem validUTF8_drop_right {a b : Bytes} (ha : asciiB b = true) (h : ValidUTF8 (a ++ b)) : ValidUTF8 a :=
  (validUTF8_split (headA_ascii ha) h).1

end Verif
