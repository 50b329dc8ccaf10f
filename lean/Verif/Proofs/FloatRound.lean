import Verif.Proofs.Float
/-
Rounding to binary64 (`roundPos`) is correct: the result is canonical and closest to the fraction, ties
go to the even significand, and the range error is reported exactly from the overflow threshold on.
-/
namespace Verif

/-- `roundHalfEven` is off by at most one half; a tie gives an even number. -/
theorem roundHalfEven_half {n d : Nat} (hd : 0 < d) :
    |((roundHalfEven n d : Nat) : ℚ) - (n : ℚ) / d| ≤ 1 / 2 ∧
    (|((roundHalfEven n d : Nat) : ℚ) - (n : ℚ) / d| = 1 / 2 → roundHalfEven n d % 2 = 0) := by
  have hdq : (0 : ℚ) < d := by exact_mod_cast hd
  have hq := Nat.div_add_mod n d
  have hr := Nat.mod_lt n hd
  have hnq : (n : ℚ) / d = (n / d : Nat) + ((n % d : Nat) : ℚ) / d := by
    have : (n : ℚ) = d * (n / d : Nat) + (n % d : Nat) := by exact_mod_cast hq.symm
    field_simp
    linarith
  rw [hnq]
  unfold roundHalfEven
  simp only
  generalize n / d = q at *
  generalize n % d = r at *
  have hrq : (0 : ℚ) ≤ (r : ℚ) / d := by positivity
  have hr1 : (r : ℚ) / d < 1 := by rw [div_lt_one hdq]; exact_mod_cast hr
  split
  · next h =>
    have : (r : ℚ) / d < 1 / 2 := by
      rw [div_lt_iff₀ hdq]
      have : ((2 * r : Nat) : ℚ) < d := by exact_mod_cast h
      push_cast at this
      linarith
    rw [show (q : ℚ) - (q + r / d) = -(r / d) by ring, abs_neg, abs_of_nonneg hrq]
    exact ⟨this.le, fun h' => absurd h' this.ne⟩
  · next h =>
    split
    · next h2 =>
      have h3 : 1 / 2 < (r : ℚ) / d := by
        rw [lt_div_iff₀ hdq]
        have : (d : ℚ) < ((2 * r : Nat) : ℚ) := by exact_mod_cast h2
        push_cast at this
        linarith
      push_cast
      rw [show (q : ℚ) + 1 - (q + r / d) = 1 - r / d by ring, abs_of_nonneg (by linarith)]
      exact ⟨by linarith, fun h' => by linarith⟩
    · next h2 =>
      have h3 : (r : ℚ) / d = 1 / 2 := by
        rw [div_eq_iff hdq.ne']
        have : ((2 * r : Nat) : ℚ) = d := by exact_mod_cast (by omega : 2 * r = d)
        push_cast at this
        linarith
      split
      · next h4 =>
        rw [show (q : ℚ) - (q + r / d) = -(r / d) by ring, abs_neg, abs_of_nonneg hrq]
        exact ⟨h3.le, fun _ => h4⟩
      · next h4 =>
        push_cast
        rw [show (q : ℚ) + 1 - (q + r / d) = 1 - r / d by ring, abs_of_nonneg (by linarith)]
        exact ⟨by linarith, fun _ => by omega⟩

/-- An integer is no closer than the one `roundHalfEven` gives. -/
theorem roundHalfEven_closest {n d : Nat} (hd : 0 < d) (k : Int) :
    |((roundHalfEven n d : Nat) : ℚ) - (n : ℚ) / d| ≤ |(k : ℚ) - (n : ℚ) / d| ∧
    (|((roundHalfEven n d : Nat) : ℚ) - (n : ℚ) / d| = |(k : ℚ) - (n : ℚ) / d| → (k : ℚ) ≠ (roundHalfEven n d : Nat) →
      roundHalfEven n d % 2 = 0) := by
  obtain ⟨h1, h2⟩ := roundHalfEven_half (n := n) hd
  by_cases hk : k = (roundHalfEven n d : Nat)
  · subst hk
    exact ⟨le_refl _, fun _ h => absurd rfl h⟩
  · have h3 : (1 : ℚ) ≤ |(k : ℚ) - (roundHalfEven n d : Nat)| := by
      have : (1 : Int) ≤ |k - (roundHalfEven n d : Nat)| := Int.one_le_abs (sub_ne_zero.2 hk)
      have h : ((1 : Int) : ℚ) ≤ ((|k - (roundHalfEven n d : Nat)| : Int) : ℚ) := by exact_mod_cast this
      push_cast at h
      exact h
    have h4 : |(k : ℚ) - (roundHalfEven n d : Nat)| ≤ |(k : ℚ) - (n : ℚ) / d| + |((roundHalfEven n d : Nat) : ℚ) - (n : ℚ) / d| := by
      have := abs_sub_le (k : ℚ) ((n : ℚ) / d) (roundHalfEven n d : Nat)
      rwa [abs_sub_comm ((n : ℚ) / d)] at this
    exact ⟨by linarith, fun h _ => h2 (by linarith)⟩

/-- The exponent and the scaled fraction of `roundPos`. -/
theorem round_scale {a b : Nat} (ha : 0 < a) (hb : 0 < b) {e : Int} (he : e = max (floorLog2 a b - 52) (-1074)) :
    ((scaleNum a e : Nat) : ℚ) / (scaleDen b e : Nat) < 2 ^ 53 ∧
    (e ≠ -1074 → (2 : ℚ) ^ 52 ≤ ((scaleNum a e : Nat) : ℚ) / (scaleDen b e : Nat)) := by
  obtain ⟨h1, h2⟩ := floorLog2_spec ha hb
  rw [scale_q]
  constructor
  · have h3 : (2 : ℚ) ^ (floorLog2 a b + 1) ≤ 2 ^ (e + 53) := zpow_le_zpow_right₀ (by norm_num) (by omega)
    rw [zpow_add₀ (by norm_num) e] at h3
    have h5 : (a : ℚ) / b * 2 ^ (-e) < 2 ^ e * 2 ^ (53 : Int) * 2 ^ (-e) :=
      mul_lt_mul_of_pos_right (lt_of_lt_of_le h2 h3) (two_zpow_pos _)
    have h6 : (2 : ℚ) ^ e * 2 ^ (53 : Int) * 2 ^ (-e) = 2 ^ 53 := by
      rw [zpow_neg]; field_simp
    rwa [h6] at h5
  · intro hne
    have h3 : floorLog2 a b = e + 52 := by omega
    rw [h3, zpow_add₀ (by norm_num)] at h1
    have h5 : (2 : ℚ) ^ e * 2 ^ (52 : Int) * 2 ^ (-e) ≤ (a : ℚ) / b * 2 ^ (-e) :=
      mul_le_mul_of_nonneg_right h1 (two_zpow_pos _).le
    have h6 : (2 : ℚ) ^ e * 2 ^ (52 : Int) * 2 ^ (-e) = 2 ^ 52 := by
      rw [zpow_neg]; field_simp
    rwa [h6] at h5

/-- What the result of rounding is, before the range check. -/
theorem round_cases {neg : Bool} {a b : Nat} (ha : 0 < a) {e : Int} (he : e = max (floorLog2 a b - 52) (-1074)) :
    roundPos neg a b =
      (let m := roundHalfEven (scaleNum a e) (scaleDen b e)
       let x : F64 := if m = 2 ^ 53 then ⟨neg, 2 ^ 52, e + 1⟩ else ⟨neg, m, e⟩
       if x.e ≤ 971 then some x else none) := by
  unfold roundPos
  rw [if_neg (by omega)]
  subst he
  rfl

theorem round_bounds {a b : Nat} (ha : 0 < a) (hb : 0 < b) {e : Int} (he : e = max (floorLog2 a b - 52) (-1074)) :
    roundHalfEven (scaleNum a e) (scaleDen b e) ≤ 2 ^ 53 ∧
    (e ≠ -1074 → 2 ^ 52 ≤ roundHalfEven (scaleNum a e) (scaleDen b e)) := by
  obtain ⟨h1, h2⟩ := round_scale ha hb he
  have hd := scaleDen_pos hb e
  obtain ⟨h3, -⟩ := roundHalfEven_half (n := scaleNum a e) hd
  generalize roundHalfEven (scaleNum a e) (scaleDen b e) = m at *
  generalize ((scaleNum a e : Nat) : ℚ) / (scaleDen b e : Nat) = s at *
  have h4 := abs_le.1 h3
  constructor
  · have : (m : ℚ) < (2 ^ 53 + 1 : Nat) := by push_cast; linarith
    have : m < 2 ^ 53 + 1 := by exact_mod_cast this
    omega
  · intro hne
    have h5 := h2 hne
    have : ((2 ^ 52 : Nat) : ℚ) < (m + 1 : Nat) := by push_cast; linarith
    have : 2 ^ 52 < m + 1 := by exact_mod_cast this
    omega

/-- The value of the unchecked result is the rounded significand at the exponent. -/
theorem round_value {neg : Bool} {a b : Nat} {x : F64} (ha : 0 < a) (hb : 0 < b) {e : Int}
    (he : e = max (floorLog2 a b - 52) (-1074)) (h : roundPos neg a b = some x) :
    x.neg = neg ∧ x.Canon ∧ x.q = (roundHalfEven (scaleNum a e) (scaleDen b e) : Nat) * (2 : ℚ) ^ e ∧
    (roundHalfEven (scaleNum a e) (scaleDen b e) % 2 = 0 → x.m % 2 = 0) := by
  obtain ⟨h1, h2⟩ := round_bounds ha hb he
  rw [round_cases ha he] at h
  simp only at h
  generalize roundHalfEven (scaleNum a e) (scaleDen b e) = m at *
  by_cases hm : m = 2 ^ 53
  · rw [if_pos hm] at h
    simp only at h
    split at h
    · next h3 =>
      rw [Option.some.injEq] at h
      subst h
      refine ⟨rfl, ⟨by norm_num, ?_, h3, .inl (le_refl _)⟩, ?_, fun _ => by norm_num⟩
      · simp only; omega
      · simp only [F64.q]
        rw [hm, zpow_add_one₀ (by norm_num)]
        push_cast
        ring
    · cases h
  · rw [if_neg hm] at h
    simp only at h
    split at h
    · next h3 =>
      rw [Option.some.injEq] at h
      subst h
      refine ⟨rfl, ⟨by simp only; omega, by simp only; omega, h3, ?_⟩, rfl, id⟩
      by_cases hne : e = -1074
      · exact .inr hne
      · exact .inl (h2 hne)
    · cases h

/-- Rounding gives a canonical value with the given sign, closest to the fraction; if another value is as
close, its significand is even. -/
theorem roundPos_nearest {neg : Bool} {a b : Nat} {x : F64} (hb : 0 < b) (h : roundPos neg a b = some x) :
    x.neg = neg ∧ x.Canon ∧ ∀ y : F64, y.Canon → |x.q - (a : ℚ) / b| ≤ |y.q - (a : ℚ) / b| ∧
      (|x.q - (a : ℚ) / b| = |y.q - (a : ℚ) / b| → y.q ≠ x.q → x.m % 2 = 0) := by
  rcases Nat.eq_zero_or_pos a with rfl | ha
  · unfold roundPos at h
    simp only [if_true, Option.some.injEq] at h
    subst h
    refine ⟨rfl, ⟨by norm_num, by norm_num, by norm_num, .inr rfl⟩, fun y _ => ⟨?_, fun _ _ => rfl⟩⟩
    simp only [F64.q, Nat.cast_zero, zero_mul, zero_div, sub_self, abs_zero]
    exact abs_nonneg _
  · obtain ⟨h1, h2, h3, h4⟩ := round_value ha hb rfl h
    refine ⟨h1, h2, fun y hy => ?_⟩
    obtain ⟨s1, s2⟩ := round_scale ha hb (rfl : max (floorLog2 a b - 52) (-1074) = _)
    have hc := roundHalfEven_closest (n := scaleNum a (max (floorLog2 a b - 52) (-1074)))
      (scaleDen_pos hb (max (floorLog2 a b - 52) (-1074)))
    have hsq := scale_q a b (max (floorLog2 a b - 52) (-1074))
    generalize roundHalfEven (scaleNum a (max (floorLog2 a b - 52) (-1074))) (scaleDen b (max (floorLog2 a b - 52) (-1074))) = m at *
    generalize ((scaleNum a (max (floorLog2 a b - 52) (-1074)) : Nat) : ℚ) / (scaleDen b (max (floorLog2 a b - 52) (-1074)) : Nat) = s at *
    generalize he : max (floorLog2 a b - 52) (-1074) = e at *
    have hv : (a : ℚ) / b = s * 2 ^ e := by
      rw [hsq, zpow_neg]; field_simp
    have hpos := two_zpow_pos e
    have scale : ∀ t : ℚ, |t * 2 ^ e - (a : ℚ) / b| = |t - s| * 2 ^ e := by
      intro t
      rw [hv, ← sub_mul, abs_mul, abs_of_pos hpos]
    have key : ∀ t : ℚ, y.q = t * 2 ^ e → |((m : Nat) : ℚ) - s| ≤ |t - s| ∧ (|((m : Nat) : ℚ) - s| = |t - s| → t ≠ m → m % 2 = 0) →
        |x.q - (a : ℚ) / b| ≤ |y.q - (a : ℚ) / b| ∧ (|x.q - (a : ℚ) / b| = |y.q - (a : ℚ) / b| → y.q ≠ x.q → x.m % 2 = 0) := by
      intro t ht ⟨k1, k2⟩
      rw [h3, ht, scale, scale]
      refine ⟨mul_le_mul_of_nonneg_right k1 hpos.le, fun k3 k4 => h4 (k2 (mul_right_cancel₀ hpos.ne' k3) ?_)⟩
      intro k5
      exact k4 (by rw [k5])
    obtain ⟨y1, y2, y3, y4⟩ := hy
    by_cases hey : e ≤ y.e
    · refine key ((((y.m * 2 ^ (y.e - e).toNat : Nat) : Int)) : ℚ) ?_ (hc _)
      have : y.e = e + ((y.e - e).toNat : Int) := by omega
      unfold F64.q
      conv_lhs => rw [this, zpow_split]
      push_cast
      ring
    · have hne : e ≠ -1074 := by omega
      have s3 := s2 hne
      refine key (y.m * 2 ^ (y.e - e)) ?_ ?_
      · unfold F64.q
        rw [mul_assoc, ← zpow_add₀ (by norm_num), sub_add_cancel]
      · have l1 : (y.m : ℚ) * 2 ^ (y.e - e) < 2 ^ 52 := by
          have l2 : (2 : ℚ) ^ (y.e - e) ≤ 2 ^ (-1 : Int) := zpow_le_zpow_right₀ (by norm_num) (by omega)
          have l3 : (y.m : ℚ) < 2 ^ 53 := by exact_mod_cast y1
          have l4 : (2 : ℚ) ^ (-1 : Int) = 1 / 2 := by norm_num
          have l5 := two_zpow_pos (y.e - e)
          have l6 : (0 : ℚ) ≤ y.m := by positivity
          calc (y.m : ℚ) * 2 ^ (y.e - e) ≤ y.m * 2 ^ (-1 : Int) := mul_le_mul_of_nonneg_left l2 l6
            _ < 2 ^ 53 * 2 ^ (-1 : Int) := mul_lt_mul_of_pos_right l3 (by rw [l4]; norm_num)
            _ = 2 ^ 52 := by rw [l4]; norm_num
        have hc' : |(m : ℚ) - s| ≤ |(2 : ℚ) ^ 52 - s| := by
          have := (hc ((2 ^ 52 : Nat) : Int)).1
          rwa [show ((((2 ^ 52 : Nat) : Int) : ℚ)) = 2 ^ 52 by norm_num] at this
        have l7 : |(2 : ℚ) ^ 52 - s| < |(y.m : ℚ) * 2 ^ (y.e - e) - s| := by
          rw [abs_sub_comm, abs_of_nonneg (sub_nonneg.2 s3), abs_sub_comm, abs_of_nonneg (sub_nonneg.2 (le_trans l1.le s3))]
          exact sub_lt_sub_left l1 s
        exact ⟨(lt_of_le_of_lt hc' l7).le, fun k => absurd k (lt_of_le_of_lt hc' l7).ne⟩

/-- The range error: from half a unit above the largest value on. -/
theorem roundPos_none {neg : Bool} {a b : Nat} (hb : 0 < b) :
    roundPos neg a b = none ↔ (2 ^ 54 - 1) * (2 : ℚ) ^ (970 : Int) ≤ (a : ℚ) / b := by
  rcases Nat.eq_zero_or_pos a with rfl | ha
  · unfold roundPos
    simp only [if_true, reduceCtorEq, false_iff, not_le]
    have := two_zpow_pos 970
    simp only [Nat.cast_zero, zero_div]
    exact mul_pos (by norm_num) this
  · obtain ⟨e, he⟩ : ∃ e, e = max (floorLog2 a b - 52) (-1074) := ⟨_, rfl⟩
    rw [round_cases ha he]
    obtain ⟨b1, b2⟩ := round_bounds ha hb he
    obtain ⟨s1, s2⟩ := round_scale ha hb he
    have hh := roundHalfEven_half (n := scaleNum a e) (scaleDen_pos hb e)
    have hsq := scale_q a b e
    simp only
    generalize roundHalfEven (scaleNum a e) (scaleDen b e) = m at *
    generalize ((scaleNum a e : Nat) : ℚ) / (scaleDen b e : Nat) = s at *
    have hv : (a : ℚ) / b = s * 2 ^ e := by
      rw [hsq, zpow_neg]; field_simp
    have hpos := two_zpow_pos e
    rw [hv]
    have hx : (if m = 2 ^ 53 then (⟨neg, 2 ^ 52, e + 1⟩ : F64) else ⟨neg, m, e⟩).e = if m = 2 ^ 53 then e + 1 else e := by
      split <;> rfl
    have hnone : ∀ x : F64, (if x.e ≤ 971 then some x else none) = none ↔ 971 < x.e := by
      intro x; split <;> simp <;> omega
    rw [hnone, hx]
    have m971 : (2 : ℚ) ^ (971 : Int) = 2 ^ (970 : Int) * 2 := zpow_add_one₀ (by norm_num) 970
    have p970 := two_zpow_pos 970
    obtain ⟨hh1, hh2⟩ := hh
    have hab := abs_le.1 hh1
    rcases lt_trichotomy e 971 with hlt | rfl | hgt
    · constructor
      · intro h
        split at h <;> omega
      · intro h
        exfalso
        have q1 : (2 : ℚ) ^ e ≤ 2 ^ (970 : Int) := zpow_le_zpow_right₀ (by norm_num) (by omega)
        have q2 : s * 2 ^ e ≤ s * 2 ^ (970 : Int) := by
          refine mul_le_mul_of_nonneg_left q1 ?_
          have : (0 : ℚ) < s * 2 ^ e := by
            rw [← hv]; positivity
          exact le_of_lt (by rcases (mul_pos_iff.1 this) with h | h; exact h.1; exact absurd h.2 (not_lt.2 hpos.le))
        have q3 : (2 ^ 54 - 1) * (2 : ℚ) ^ (970 : Int) ≤ s * 2 ^ (970 : Int) := le_trans h q2
        have q4 := le_of_mul_le_mul_right q3 p970
        exact absurd (lt_of_le_of_lt q4 s1) (by norm_num)
    · have hm : (971 < if m = 2 ^ 53 then (971 : Int) + 1 else 971) ↔ m = 2 ^ 53 := by
        constructor
        · intro h; by_contra hne; rw [if_neg hne] at h; omega
        · intro h; rw [if_pos h]; omega
      rw [hm, m971]
      have q : (2 ^ 54 - 1) * (2 : ℚ) ^ (970 : Int) ≤ s * (2 ^ (970 : Int) * 2) ↔ 2 ^ 53 - 1 / 2 ≤ s := by
        rw [show s * ((2 : ℚ) ^ (970 : Int) * 2) = (s * 2) * 2 ^ (970 : Int) by ring, mul_le_mul_iff_left₀ p970]
        constructor <;> intro h <;> linarith [(by norm_num : (2 : ℚ) ^ 54 = 2 * 2 ^ 53)]
      rw [q]
      constructor
      · intro h
        rw [h] at hab
        push_cast at hab
        linarith
      · intro h
        by_contra hne
        have hle : m ≤ 2 ^ 53 - 1 := by omega
        have hle' : (m : ℚ) ≤ 2 ^ 53 - 1 := by
          have : (m : ℚ) ≤ ((2 ^ 53 - 1 : Nat) : ℚ) := by exact_mod_cast hle
          rwa [Nat.cast_sub (by norm_num)] at this
          <;> norm_num
        have hs : s = 2 ^ 53 - 1 / 2 := by linarith
        have hmq : (m : ℚ) = 2 ^ 53 - 1 := by linarith
        have hm' : m = 2 ^ 53 - 1 := by
          have : (m : ℚ) = ((2 ^ 53 - 1 : Nat) : ℚ) := by rw [hmq, Nat.cast_sub (by norm_num)]; norm_num
          exact_mod_cast this
        have := hh2 (by rw [hmq, hs]; norm_num)
        omega
    · constructor
      · intro _
        have q1 : (2 : ℚ) ^ (972 : Int) ≤ 2 ^ e := zpow_le_zpow_right₀ (by norm_num) (by omega)
        have q2 := s2 (by omega)
        have m972 : (2 : ℚ) ^ (972 : Int) = 2 ^ (970 : Int) * 4 := by
          rw [show (972 : Int) = 970 + 2 by norm_num, zpow_add₀ (by norm_num)]; norm_num
        calc (2 ^ 54 - 1) * (2 : ℚ) ^ (970 : Int) ≤ 2 ^ 52 * (2 ^ (970 : Int) * 4) := by
              have : (2 ^ 54 - 1) * (2 : ℚ) ^ (970 : Int) ≤ 2 ^ 54 * 2 ^ (970 : Int) :=
                mul_le_mul_of_nonneg_right (by norm_num) p970.le
              refine le_trans this (le_of_eq ?_)
              generalize (2 : ℚ) ^ (970 : Int) = z
              ring
          _ ≤ s * 2 ^ e := by
              rw [← m972]
              exact mul_le_mul q2 q1 (two_zpow_pos _).le (by linarith [(by norm_num : (0 : ℚ) ≤ 2 ^ 52)])
      · intro _
        split <;> omega

end Verif
