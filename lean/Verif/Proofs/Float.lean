import Verif.Model.Float
import Mathlib.Data.Int.Log
import Mathlib.Tactic.Linarith
import Mathlib.Tactic.NormNum
import Mathlib.Tactic.FieldSimp
import Mathlib.Tactic.Ring
import Mathlib.Tactic.Positivity
/-
Rounding to binary64: `roundPos` finds the canonical value closest to a fraction.
-/
namespace Verif

/-- The absolute value of `x` as a rational number. -/
def F64.q (x : F64) : ℚ := x.m * (2 : ℚ) ^ x.e

theorem two_zpow_pos (e : Int) : (0 : ℚ) < (2 : ℚ) ^ e := zpow_pos (by norm_num) _
theorem zpow_split (e : Int) (n : Nat) : (2 : ℚ) ^ (e + n) = 2 ^ e * 2 ^ n := by
  rw [zpow_add₀ (by norm_num), zpow_natCast]
theorem zpow_half (e : Int) : (2 : ℚ) ^ (e - 1) = 2 ^ e / 2 := by
  rw [zpow_sub₀ (by norm_num)]; norm_num
theorem zpow_quarter (e : Int) : (2 : ℚ) ^ (e - 2) = 2 ^ e / 4 := by
  rw [zpow_sub₀ (by norm_num)]; norm_num

theorem scale_q (a b : Nat) (e : Int) : ((scaleNum a e : Nat) : ℚ) / (scaleDen b e : Nat) = (a : ℚ) / b * 2 ^ (-e) := by
  unfold scaleNum scaleDen
  split
  · next h =>
    have : (-e) = ((-e).toNat : Int) := by omega
    conv_rhs => rw [this]
    push_cast
    rw [zpow_natCast]; ring
  · next h =>
    have : e = (e.toNat : Int) := by omega
    conv_rhs => rw [this]
    rw [zpow_neg, zpow_natCast]
    push_cast
    rw [← div_eq_mul_inv, div_div]

theorem scaleDen_pos {b : Nat} (hb : 0 < b) (e : Int) : 0 < scaleDen b e := by
  unfold scaleDen; split <;> positivity

theorem nat_lt_iff_div {a b : Nat} (hb : 0 < b) : b ≤ a ↔ (1 : ℚ) ≤ a / b := by
  rw [le_div_iff₀ (by exact_mod_cast hb)]; simp

/-- `floorLog2` is the exponent of the leading bit. -/
theorem floorLog2_spec {a b : Nat} (ha : 0 < a) (hb : 0 < b) :
    (2 : ℚ) ^ floorLog2 a b ≤ a / b ∧ (a : ℚ) / b < 2 ^ (floorLog2 a b + 1) := by
  have hbq : (0 : ℚ) < b := by exact_mod_cast hb
  have la1 : (2 : ℚ) ^ Nat.log2 a ≤ a := by exact_mod_cast Nat.log2_self_le (by omega)
  have la2 : (a : ℚ) < 2 ^ (Nat.log2 a + 1) := by exact_mod_cast Nat.lt_log2_self
  have lb1 : (2 : ℚ) ^ Nat.log2 b ≤ b := by exact_mod_cast Nat.log2_self_le (by omega)
  have lb2 : (b : ℚ) < 2 ^ (Nat.log2 b + 1) := by exact_mod_cast Nat.lt_log2_self
  set l : Int := (Nat.log2 a : Int) - (Nat.log2 b : Int) with hl
  have hpa : (2 : ℚ) ^ (Nat.log2 a : Int) = 2 ^ Nat.log2 a := zpow_natCast ..
  have hpb : (2 : ℚ) ^ (Nat.log2 b : Int) = 2 ^ Nat.log2 b := zpow_natCast ..
  have h2l : (2 : ℚ) ^ l = 2 ^ Nat.log2 a / 2 ^ Nat.log2 b := by
    rw [hl, zpow_sub₀ (by norm_num), hpa, hpb]
  have up : (a : ℚ) / b < 2 ^ (l + 1) := by
    rw [zpow_add_one₀ (by norm_num), h2l, div_lt_iff₀ hbq]
    rw [pow_succ] at la2
    calc (a : ℚ) < 2 ^ Nat.log2 a * 2 := la2
      _ = 2 ^ Nat.log2 a / 2 ^ Nat.log2 b * 2 * 2 ^ Nat.log2 b := by field_simp
      _ ≤ _ := by apply mul_le_mul_of_nonneg_left lb1; positivity
  have lo : (2 : ℚ) ^ (l - 1) ≤ a / b := by
    rw [zpow_half, h2l, le_div_iff₀ hbq]
    rw [pow_succ] at lb2
    calc (2 : ℚ) ^ Nat.log2 a / 2 ^ Nat.log2 b / 2 * b ≤ 2 ^ Nat.log2 a / 2 ^ Nat.log2 b / 2 * (2 ^ Nat.log2 b * 2) := by
          apply mul_le_mul_of_nonneg_left lb2.le; positivity
      _ = 2 ^ Nat.log2 a := by field_simp
      _ ≤ a := la1
  have key : scaleDen b l ≤ scaleNum a l ↔ (2 : ℚ) ^ l ≤ a / b := by
    rw [nat_lt_iff_div (scaleDen_pos hb l), scale_q, zpow_neg, ← div_eq_mul_inv, le_div_iff₀ (two_zpow_pos l), one_mul]
  unfold floorLog2
  simp only [← hl]
  split
  · next h => exact ⟨key.1 h, up⟩
  · next h =>
    refine ⟨lo, ?_⟩
    rw [sub_add_cancel]
    exact lt_of_not_ge fun h' => h (key.2 h')

theorem floorLog2_unique {a b : Nat} (ha : 0 < a) (hb : 0 < b) {l : Int} (h1 : (2 : ℚ) ^ l ≤ a / b) (h2 : (a : ℚ) / b < 2 ^ (l + 1)) :
    floorLog2 a b = l := by
  obtain ⟨h3, h4⟩ := floorLog2_spec ha hb
  have k1 := (zpow_lt_zpow_iff_right₀ (by norm_num : (1 : ℚ) < 2)).1 (lt_of_le_of_lt h1 h4)
  have k2 := (zpow_lt_zpow_iff_right₀ (by norm_num : (1 : ℚ) < 2)).1 (lt_of_le_of_lt h3 h2)
  omega

/-- Rounding gives the integer that is closer than one half. -/
theorem roundHalfEven_near {n d m : Nat} (hd : 0 < d) (h1 : (m : ℚ) - 1 / 2 < n / d) (h2 : (n : ℚ) / d < m + 1 / 2) :
    roundHalfEven n d = m := by
  have hdq : (0 : ℚ) < d := by exact_mod_cast hd
  rw [lt_div_iff₀ hdq] at h1
  rw [div_lt_iff₀ hdq] at h2
  have e1 : 2 * m * d < 2 * n + d := by
    have : (2 * m * d : ℚ) < 2 * n + d := by linarith
    exact_mod_cast this
  have e2 : 2 * n < 2 * m * d + d := by
    have : (2 * n : ℚ) < 2 * m * d + d := by linarith
    exact_mod_cast this
  have hq := Nat.div_add_mod n d
  have hr := Nat.mod_lt n hd
  unfold roundHalfEven
  simp only
  generalize n / d = q at *
  generalize n % d = r at *
  have k1 : q ≤ m := by
    by_contra hc
    have : (m + 1) * d ≤ q * d := Nat.mul_le_mul_right d (by omega)
    nlinarith
  have k2 : m ≤ q + 1 := by
    by_contra hc
    have : (q + 2) * d ≤ m * d := Nat.mul_le_mul_right d (by omega)
    nlinarith
  rcases Nat.lt_or_ge q m with h | h
  · have : m = q + 1 := by omega
    subst this
    have : 2 * r > d := by nlinarith
    rw [if_neg (by omega), if_pos this]
  · have : m = q := by omega
    subst this
    have : 2 * r < d := by nlinarith
    rw [if_pos this]

/-- Rounding finds a canonical value from any fraction close enough to it. -/
theorem roundPos_near (neg : Bool) {x : F64} (hx : x.Canon) (hm : 0 < x.m) {a b : Nat} (hb : 0 < b)
    (h1 : x.q - 2 ^ x.e / 2 < (a : ℚ) / b) (h2 : (a : ℚ) / b < x.q + 2 ^ x.e / 2)
    (h3 : x.m = 2 ^ 52 → x.e ≠ -1074 → x.q - 2 ^ x.e / 4 < (a : ℚ) / b) :
    roundPos neg a b = some ⟨neg, x.m, x.e⟩ := by
  obtain ⟨c1, c2, c3, c4⟩ := hx
  obtain ⟨xn, m, e⟩ := x
  simp only at *
  have hp := two_zpow_pos e
  have hbq : (0 : ℚ) < b := by exact_mod_cast hb
  have hm1 : (1 : ℚ) ≤ m := by exact_mod_cast hm
  have hmu : (m : ℚ) ≤ 2 ^ 53 - 1 := by
    have : m + 1 ≤ 2 ^ 53 := by omega
    have : ((m + 1 : Nat) : ℚ) ≤ (2 ^ 53 : Nat) := by exact_mod_cast this
    push_cast at this; linarith
  unfold F64.q at h1 h2 h3
  simp only at h1 h2 h3
  have hab : (0 : ℚ) < a / b := by nlinarith
  have ha : 0 < a := by
    by_contra hc
    have : a = 0 := by omega
    subst this
    simp at hab
  obtain ⟨f1, f2⟩ := floorLog2_spec ha hb
  set l := floorLog2 a b with hl
  -- the exponent
  have hup : l ≤ e + 52 := by
    have : (2 : ℚ) ^ l < 2 ^ (e + (53 : Nat)) := by
      rw [zpow_split]; nlinarith
    have := (zpow_lt_zpow_iff_right₀ (by norm_num : (1 : ℚ) < 2)).1 this
    push_cast at this; omega
  have exact_case : max (l - 52) (-1074) = e → roundPos neg a b = some ⟨neg, m, e⟩ := by
    intro hE
    have hr : roundHalfEven (scaleNum a e) (scaleDen b e) = m := by
      refine roundHalfEven_near (scaleDen_pos hb e) ?_ ?_
      · rw [scale_q, zpow_neg, ← div_eq_mul_inv, lt_div_iff₀ hp]; linarith
      · rw [scale_q, zpow_neg, ← div_eq_mul_inv, div_lt_iff₀ hp]; linarith
    unfold roundPos
    rw [if_neg (by omega)]
    simp only [← hl, hE, hr]
    have hm53 : m ≠ 2 ^ 53 := by omega
    rw [if_neg hm53, if_pos c3]
  rcases c4 with c4 | c4
  · -- normal
    have hml : (2 : ℚ) ^ 52 ≤ m := by exact_mod_cast c4
    have hlo : e + 51 ≤ l := by
      have : (2 : ℚ) ^ (e + (51 : Nat)) < 2 ^ (l + 1) := by
        rw [zpow_split]; nlinarith
      have := (zpow_lt_zpow_iff_right₀ (by norm_num : (1 : ℚ) < 2)).1 this
      push_cast at this; omega
    rcases (by omega : l = e + 52 ∨ l = e + 51) with h | h
    · exact exact_case (by omega)
    · by_cases he : e = -1074
      · exact exact_case (by omega)
      · have hlt : (a : ℚ) / b < 2 ^ (e + (52 : Nat)) := by
          rw [show e + ((52 : Nat) : Int) = l + 1 by push_cast; omega]; exact f2
        rw [zpow_split] at hlt
        have hm52 : m = 2 ^ 52 := by
          by_contra hc
          have : 2 ^ 52 + 1 ≤ m := by omega
          have : ((2 ^ 52 + 1 : Nat) : ℚ) ≤ m := by exact_mod_cast this
          push_cast at this
          nlinarith
        have h3' := h3 hm52 he
        have hr : roundHalfEven (scaleNum a (e - 1)) (scaleDen b (e - 1)) = 2 ^ 53 := by
          refine roundHalfEven_near (scaleDen_pos hb _) ?_ ?_
          · rw [scale_q, zpow_neg, ← div_eq_mul_inv, lt_div_iff₀ (two_zpow_pos _), zpow_half]
            rw [hm52] at h3'; push_cast at h3' ⊢; linarith
          · rw [scale_q, zpow_neg, ← div_eq_mul_inv, div_lt_iff₀ (two_zpow_pos _), zpow_half]
            push_cast; nlinarith
        unfold roundPos
        rw [if_neg (by omega)]
        simp only [← hl, show max (l - 52) (-1074) = e - 1 by omega, hr]
        simp [c3, hm52]
  · -- smallest exponent
    refine exact_case ?_
    omega

theorem roundPos_exact (neg : Bool) {x : F64} (hx : x.Canon) (hm : 0 < x.m) {a b : Nat} (hb : 0 < b) (h : (a : ℚ) / b = x.q) :
    roundPos neg a b = some ⟨neg, x.m, x.e⟩ := by
  have := two_zpow_pos x.e
  exact roundPos_near neg hx hm hb (by linarith) (by linarith) (fun _ _ => by linarith)

theorem roundHalfEven_mul {c n d : Nat} (hc : 0 < c) : roundHalfEven (c * n) (c * d) = roundHalfEven n d := by
  unfold roundHalfEven
  simp only [Nat.mul_div_mul_left _ _ hc, Nat.mul_mod_mul_left]
  have e1 : 2 * (c * (n % d)) < c * d ↔ 2 * (n % d) < d := by
    rw [show 2 * (c * (n % d)) = c * (2 * (n % d)) by ring]; exact Nat.mul_lt_mul_left hc
  have e2 : 2 * (c * (n % d)) > c * d ↔ 2 * (n % d) > d := by
    rw [show 2 * (c * (n % d)) = c * (2 * (n % d)) by ring]; exact Nat.mul_lt_mul_left hc
  simp only [e1, e2]

theorem roundHalfEven_congr {n d n' d' : Nat} (hd : 0 < d) (hd' : 0 < d') (h : (n : ℚ) / d = n' / d') :
    roundHalfEven n d = roundHalfEven n' d' := by
  have h1 : (d : ℚ) ≠ 0 := by positivity
  have h2 : (d' : ℚ) ≠ 0 := by positivity
  rw [div_eq_div_iff h1 h2] at h
  have h' : d' * n = d * n' := by
    have : n * d' = n' * d := by exact_mod_cast h
    rw [Nat.mul_comm d' n, this, Nat.mul_comm]
  rw [← roundHalfEven_mul hd' (n := n), ← roundHalfEven_mul hd (n := n'), h', Nat.mul_comm d' d]

/-- `roundPos` depends only on the value of the fraction. -/
theorem roundPos_congr (neg : Bool) {a b a' b' : Nat} (hb : 0 < b) (hb' : 0 < b') (h : (a : ℚ) / b = a' / b') :
    roundPos neg a b = roundPos neg a' b' := by
  have h1 : (b : ℚ) ≠ 0 := by positivity
  have h2 : (b' : ℚ) ≠ 0 := by positivity
  by_cases ha : a = 0
  · subst ha
    have : a' = 0 := by
      rw [div_eq_div_iff h1 h2] at h
      have : (a' : ℚ) * b = 0 := by simpa using h.symm
      rcases mul_eq_zero.1 this with h | h
      · exact_mod_cast h
      · exact absurd h h1
    subst this
    rfl
  · have ha' : a' ≠ 0 := by
      rintro rfl
      simp at h
      rcases h with h | h
      · exact ha h
      · omega
    have hl : floorLog2 a b = floorLog2 a' b' := by
      obtain ⟨k1, k2⟩ := floorLog2_spec (Nat.pos_of_ne_zero ha') hb'
      exact floorLog2_unique (Nat.pos_of_ne_zero ha) hb (by rw [h]; exact k1) (by rw [h]; exact k2)
    unfold roundPos
    rw [if_neg ha, if_neg ha', hl]
    simp only
    rw [roundHalfEven_congr (scaleDen_pos hb _) (scaleDen_pos hb' _) (by rw [scale_q, scale_q, h])]

end Verif
