import Verif.Spec.Rounding
import Verif.Proofs.FloatRound
import Verif.Proofs.FloatFmt
/-
`parseFloat` rounds correctly.
-/
namespace Verif
open Verif.Spec

theorem digitsValue_eq (s : Bytes) : digitsValue s = (digitsVal s : ℚ) := by
  induction s with
  | nil => simp [digitsValue, digitsVal]
  | cons c t ih =>
    rw [digitsValue, ih, digitsVal_eq, digitsVal_eq, decVal_cons, decVal_acc (10 * 0 + _)]
    push_cast
    ring

theorem digitsVal_append (a b : Bytes) : digitsVal (a ++ b) = digitsVal a * 10 ^ b.length + digitsVal b := by
  rw [digitsVal_eq, decVal_append, decVal_acc, ← digitsVal_eq, ← digitsVal_eq]

/-- What `parseFloat` does with a literal. -/
theorem parse_lit {l : NumLit} (h : l.Ok) : ∃ a b : Nat, 0 < b ∧ (a : ℚ) / b = l.value ∧ parseFloat l.text = roundPos l.neg a b := by
  obtain ⟨neg, ip, pt, fp⟩ := l
  obtain ⟨h1, h2, h3, h4⟩ := h
  simp only at h1 h2 h3 h4
  have hs : (if neg then b!"-" else []) = signBytes neg := by cases neg <;> rfl
  cases pt with
  | false =>
    have := h4 rfl
    subst this
    refine ⟨digitsVal ip, 1, Nat.one_pos, ?_, ?_⟩
    · simp [NumLit.value, digitsValue_eq, digitsVal]
    · simp only [NumLit.text, hs, Bool.false_eq_true, if_false, List.append_nil]
      exact parse_int neg h2 h1
  | true =>
    refine ⟨digitsVal (ip ++ fp), 10 ^ fp.length, by positivity, ?_, ?_⟩
    · simp only [NumLit.value, digitsValue_eq]
      rw [digitsVal_append]
      push_cast
      field_simp
    · simp only [NumLit.text, hs, if_true]
      rw [List.append_assoc]
      exact parse_frac neg h2 h1 h3

theorem magnitude_q (x : F64) : magnitude x = x.q := rfl

/-- Canonical values are determined by sign and magnitude. -/
theorem canon_unique {x y : F64} (hx : x.Canon) (hy : y.Canon) (hn : x.neg = y.neg) (h : magnitude x = magnitude y) : x = y := by
  have aux : ∀ {x y : F64}, x.Canon → y.Canon → magnitude x = magnitude y → ¬ x.e < y.e := by
    intro x y hx hy h hlt
    have h1 : 2 ^ 52 ≤ y.m := by
      rcases hy.2.2.2 with h | h
      · exact h
      · have := hx.2.1; omega
    have h2 : magnitude x < magnitude y := by
      unfold magnitude
      have e1 : y.e = x.e + ((y.e - x.e).toNat : Int) := by omega
      rw [e1, zpow_split]
      have p := two_zpow_pos x.e
      have e2 : (2 : ℚ) ≤ 2 ^ (y.e - x.e).toNat := by
        calc (2 : ℚ) = 2 ^ 1 := by norm_num
          _ ≤ _ := pow_le_pow_right₀ (by norm_num) (by omega)
      have e3 : (x.m : ℚ) < 2 ^ 53 := by exact_mod_cast hx.1
      have e4 : (2 : ℚ) ^ 52 ≤ y.m := by exact_mod_cast h1
      calc (x.m : ℚ) * 2 ^ x.e < 2 ^ 53 * 2 ^ x.e := mul_lt_mul_of_pos_right e3 p
        _ = (2 ^ 52 * 2) * 2 ^ x.e := by norm_num
        _ ≤ (y.m * 2 ^ (y.e - x.e).toNat) * 2 ^ x.e :=
            mul_le_mul_of_nonneg_right (mul_le_mul e4 e2 (by norm_num) (by positivity)) p.le
        _ = _ := by ring
    exact absurd h h2.ne
  have he : x.e = y.e := by
    have h1 := aux hx hy h
    have h2 := aux hy hx h.symm
    omega
  have hm : x.m = y.m := by
    unfold magnitude at h
    rw [he] at h
    have := mul_right_cancel₀ (two_zpow_pos y.e).ne' h
    exact_mod_cast this
  obtain ⟨n, m, e⟩ := x
  obtain ⟨n', m', e'⟩ := y
  simp only at he hm hn
  subst he hm hn
  rfl

/-- The magnitude of the value closest to a number is determined. -/
theorem nearest_le {neg : Bool} {v : ℚ} {x z : F64} (hx : Nearest neg v x) (hz : Nearest neg v z) :
    ¬ magnitude x < magnitude z := by
  intro hlt
  obtain ⟨-, cx, nx⟩ := hx
  obtain ⟨-, cz, nz⟩ := hz
  have heq : |magnitude x - v| = |magnitude z - v| := le_antisymm (nx z cz).1 (nz x cx).1
  have ex : x.m % 2 = 0 := (nx z cz).2 heq hlt.ne'
  have ez : z.m % 2 = 0 := (nz x cx).2 heq.symm hlt.ne
  have px := two_zpow_pos x.e
  -- the midpoint
  have hv : v = (magnitude x + magnitude z) / 2 := by
    rcases abs_eq_abs.1 heq with h | h <;> linarith
  -- the next value
  have hsm : x.m + 1 < 2 ^ 53 := by
    have := cx.1
    omega
  have cs : F64.Canon ⟨neg, x.m + 1, x.e⟩ := ⟨hsm, cx.2.1, cx.2.2.1, by
    rcases cx.2.2.2 with h | h
    · left; simp only; omega
    · exact .inr h⟩
  have ms : magnitude ⟨neg, x.m + 1, x.e⟩ = magnitude x + 2 ^ x.e := by
    unfold magnitude; push_cast; ring
  have hle : magnitude z ≤ magnitude x + 2 ^ x.e := by
    by_contra hc
    have hc := lt_of_not_ge hc
    have := (nx _ cs).1
    rw [ms, hv] at this
    rw [abs_sub_comm, abs_of_nonneg (by linarith)] at this
    have h2 : |magnitude x + 2 ^ x.e - (magnitude x + magnitude z) / 2| < (magnitude x + magnitude z) / 2 - magnitude x := by
      rw [abs_lt]; constructor <;> linarith
    linarith
  by_cases hze : x.e ≤ z.e
  · have e1 : z.e = x.e + ((z.e - x.e).toNat : Int) := by omega
    have e2 : magnitude z = ((z.m * 2 ^ (z.e - x.e).toNat : Nat) : ℚ) * 2 ^ x.e := by
      unfold magnitude
      conv_lhs => rw [e1, zpow_split]
      push_cast
      ring
    have e3 : magnitude x + 2 ^ x.e = ((x.m + 1 : Nat) : ℚ) * 2 ^ x.e := by
      unfold magnitude; push_cast; ring
    rw [e2, e3] at hle
    rw [e2] at hlt
    have l1 : z.m * 2 ^ (z.e - x.e).toNat ≤ x.m + 1 := by
      have := le_of_mul_le_mul_right hle px
      exact_mod_cast this
    have l2 : x.m < z.m * 2 ^ (z.e - x.e).toNat := by
      have := lt_of_mul_lt_mul_right hlt px.le
      exact_mod_cast this
    have l3 : z.m * 2 ^ (z.e - x.e).toNat = x.m + 1 := by omega
    have l4 : (z.m * 2 ^ (z.e - x.e).toNat) % 2 = 0 := by rw [Nat.mul_mod, ez]; simp
    omega
  · have hx52 : 2 ^ 52 ≤ x.m := by
      rcases cx.2.2.2 with h | h
      · exact h
      · have := cz.2.1; omega
    have : magnitude z < magnitude x := by
      unfold magnitude
      have e1 : x.e = z.e + ((x.e - z.e).toNat : Int) := by omega
      rw [e1, zpow_split]
      have p := two_zpow_pos z.e
      have e2 : (2 : ℚ) ≤ 2 ^ (x.e - z.e).toNat := by
        calc (2 : ℚ) = 2 ^ 1 := by norm_num
          _ ≤ _ := pow_le_pow_right₀ (by norm_num) (by omega)
      have e3 : (z.m : ℚ) < 2 ^ 53 := by exact_mod_cast cz.1
      have e4 : (2 : ℚ) ^ 52 ≤ x.m := by exact_mod_cast hx52
      calc (z.m : ℚ) * 2 ^ z.e < 2 ^ 53 * 2 ^ z.e := mul_lt_mul_of_pos_right e3 p
        _ = (2 ^ 52 * 2) * 2 ^ z.e := by norm_num
        _ ≤ (x.m * 2 ^ (x.e - z.e).toNat) * 2 ^ z.e :=
            mul_le_mul_of_nonneg_right (mul_le_mul e4 e2 (by norm_num) (by positivity)) p.le
        _ = _ := by ring
    exact absurd hlt (not_lt.2 this.le)

theorem nearest_unique {neg : Bool} {v : ℚ} {x z : F64} (hx : Nearest neg v x) (hz : Nearest neg v z) : x = z :=
  canon_unique hx.2.1 hz.2.1 (hx.1.trans hz.1.symm) (le_antisymm (not_lt.1 (nearest_le hz hx)) (not_lt.1 (nearest_le hx hz)))

theorem rangeLimit_eq : rangeLimit = (2 ^ 54 - 1) * (2 : ℚ) ^ (970 : Int) := by
  unfold rangeLimit
  rw [zpow_ofNat]
  rw [sub_mul, ← pow_add, one_mul]

/-- `parseFloat` gives the closest value, and fails exactly beyond the range. -/
theorem parseFloat_iff {l : NumLit} (h : l.Ok) (x : F64) :
    parseFloat l.text = some x ↔ Nearest l.neg l.value x ∧ l.value < rangeLimit := by
  obtain ⟨a, b, hb, hv, hp⟩ := parse_lit h
  rw [hp, ← hv, rangeLimit_eq]
  have hn := roundPos_none (neg := l.neg) (a := a) hb
  constructor
  · intro h1
    refine ⟨roundPos_nearest hb h1, ?_⟩
    by_contra hc
    rw [hn.2 (not_lt.1 hc)] at h1
    cases h1
  · rintro ⟨h1, h2⟩
    cases h3 : roundPos l.neg a b with
    | none => exact absurd h2 (not_lt.2 (hn.1 h3))
    | some z => rw [nearest_unique (roundPos_nearest hb h3) h1]

theorem numTok_lit {t : Bytes} : NumTok t ↔ ∃ l : NumLit, l.Ok ∧ l.text = t := by
  constructor
  · rintro ⟨s, d, f, rfl, hs, hd, hda, hf⟩
    have hs' : ∃ neg : Bool, s = if neg then b!"-" else [] := by
      rcases hs with rfl | rfl
      · exact ⟨false, rfl⟩
      · exact ⟨true, rfl⟩
    obtain ⟨neg, rfl⟩ := hs'
    rcases hf with rfl | ⟨f', rfl, hf'⟩
    · exact ⟨⟨neg, d, false, []⟩, ⟨hd, hda, rfl, fun _ => rfl⟩, by simp [NumLit.text]⟩
    · exact ⟨⟨neg, d, true, f'⟩, ⟨hd, hda, hf', by simp⟩, by simp [NumLit.text]⟩
  · rintro ⟨⟨neg, d, pt, f⟩, ⟨h1, h2, h3, h4⟩, rfl⟩
    refine ⟨if neg then b!"-" else [], d, if pt then b!"." ++ f else [], rfl, by cases neg <;> simp, h1, h2, ?_⟩
    cases pt with
    | false => exact .inl rfl
    | true => exact .inr ⟨f, rfl, h3⟩

end Verif
