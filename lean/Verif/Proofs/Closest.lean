import Verif.Proofs.Rounding
/-
Of the decimals with as many digits that read back, the printed one is closest.
-/
namespace Verif
open Verif.Spec

theorem canon_lt_limit {x : F64} (h : x.Canon) : x.q < rangeLimit := by
  obtain ⟨h1, h2, h3, -⟩ := h
  have hp := two_zpow_pos x.e
  have hm : (x.m : ℚ) + 1 ≤ 2 ^ 53 := by exact_mod_cast h1
  have he : (2 : ℚ) ^ x.e ≤ 2 ^ (971 : Int) := zpow_le_zpow_right₀ (by norm_num) (by omega)
  have : x.q ≤ (2 ^ 53 - 1) * 2 ^ (971 : Int) := by
    unfold F64.q
    exact mul_le_mul (by linarith) he hp.le (by norm_num)
  refine lt_of_le_of_lt this ?_
  rw [rangeLimit_eq, show (971 : Int) = 970 + 1 by norm_num, zpow_add_one₀ (by norm_num)]
  have := two_zpow_pos 970
  generalize (2 : ℚ) ^ (970 : Int) = z at *
  norm_num
  linarith

theorem readsBack_iff {x : F64} {D : Nat} {k : Int} :
    readsBack x D k = true ↔ Nearest x.neg (D * 10 ^ k) x ∧ (D : ℚ) * 10 ^ k < rangeLimit := by
  have hb := decRat_pos D k
  rw [← decRat_q, rangeLimit_eq]
  have hn := roundPos_none (neg := x.neg) (a := (decRat D k).1) hb
  unfold readsBack
  rw [beq_iff_eq]
  constructor
  · intro h1
    refine ⟨roundPos_nearest hb h1, ?_⟩
    by_contra hc
    rw [hn.2 (not_lt.1 hc)] at h1
    cases h1
  · rintro ⟨h1, h2⟩
    cases h3 : roundPos x.neg (decRat D k).1 (decRat D k).2 with
    | none => exact absurd h2 (not_lt.2 (hn.1 h3))
    | some z => rw [nearest_unique (roundPos_nearest hb h3) h1]

/-- A value between a float and a value rounded to it is rounded to it. -/
theorem nearest_between {neg : Bool} {v w : ℚ} {x : F64} (h : Nearest neg v x)
    (hw : (v ≤ w ∧ w ≤ magnitude x) ∨ (magnitude x ≤ w ∧ w ≤ v)) : Nearest neg w x := by
  refine ⟨h.1, h.2.1, fun y hy => ?_⟩
  obtain ⟨a1, a2⟩ := h.2.2 y hy
  have e : |magnitude x - v| = |magnitude x - w| + |w - v| := by
    rcases hw with ⟨b1, b2⟩ | ⟨b1, b2⟩
    · rw [abs_of_nonneg (by linarith), abs_of_nonneg (by linarith), abs_of_nonneg (by linarith)]; ring
    · rw [abs_of_nonpos (by linarith), abs_of_nonpos (by linarith), abs_of_nonpos (by linarith)]; ring
  have t : |magnitude y - v| ≤ |magnitude y - w| + |w - v| := by
    have := abs_add_le (magnitude y - w) (w - v)
    rwa [sub_add_sub_cancel] at this
  refine ⟨by linarith, fun e2 => a2 (le_antisymm a1 (by linarith))⟩

theorem shortestAux_closest {x : F64} {T : Int} :
    ∀ (fuel n : Nat) (D : Nat) (k : Int), shortestAux x x.num x.den T fuel n = some (D, k) →
      ∀ M : Nat, 0 < M → readsBack x M k = true → |(D : ℚ) * 10 ^ k - x.q| ≤ |(M : ℚ) * 10 ^ k - x.q|
  | 0, n, D, k, h => by simp [shortestAux] at h
  | fuel + 1, n, D, k', h => by
    rw [shortestAux] at h
    set k : Int := T - n with hk
    set num := if k < 0 then x.num * 10 ^ (-k).toNat else x.num with hnum
    set den := if k < 0 then x.den else x.den * 10 ^ k.toNat with hden
    have hdp : 0 < den := by rw [hden]; have := x.den_pos; split <;> positivity
    have hpk := ten_pos k
    have hv : (num : ℚ) / den = x.q / 10 ^ k := by
      rw [hnum, hden, ← x.num_den]
      split
      · next h =>
        have : k = -((-k).toNat : Int) := by omega
        conv_rhs => rw [this, zpow_neg, zpow_natCast]
        push_cast
        rw [div_inv_eq_mul]; ring
      · next h =>
        have : k = (k.toNat : Int) := by omega
        conv_rhs => rw [this, zpow_natCast]
        push_cast
        rw [div_div]
    set lo := num / den with hlo
    have hdq : (0 : ℚ) < den := by exact_mod_cast hdp
    have hle : lo * den ≤ num := Nat.div_mul_le_self num den
    have hlt : num < (lo + 1) * den := by
      have := Nat.div_add_mod num den
      have h4 := Nat.mod_lt num hdp
      rw [← hlo] at this
      nlinarith
    have hq : x.q = num / den * 10 ^ k := by rw [hv]; field_simp
    have hleq : (lo : ℚ) * den ≤ num := by exact_mod_cast hle
    have hltq : (num : ℚ) < ((lo : ℚ) + 1) * den := by exact_mod_cast hlt
    have hlo3 : (lo : ℚ) * 10 ^ k ≤ x.q := by
      rw [hq]; exact mul_le_mul_of_nonneg_right ((le_div_iff₀ hdq).2 hleq) hpk.le
    have hhi3 : x.q ≤ ((lo + 1 : Nat) : ℚ) * 10 ^ k := by
      rw [hq]; push_cast; exact mul_le_mul_of_nonneg_right ((div_le_iff₀ hdq).2 hltq.le) hpk.le
    have hbelow : ∀ M : Nat, 0 < M → M ≤ lo → readsBack x M k = true →
        (readsBack x lo k && lo != 0) = true ∧ |(lo : ℚ) * 10 ^ k - x.q| ≤ |(M : ℚ) * 10 ^ k - x.q| := by
      intro M h0 h1 h2
      have h1q : (M : ℚ) * 10 ^ k ≤ lo * 10 ^ k := mul_le_mul_of_nonneg_right (by exact_mod_cast h1) hpk.le
      rw [readsBack_iff] at h2
      refine ⟨?_, ?_⟩
      · rw [Bool.and_eq_true]
        have hxlim : x.q < rangeLimit := by
          have := h2.1.2.1
          exact canon_lt_limit this
        exact ⟨readsBack_iff.2 ⟨nearest_between h2.1 (.inl ⟨h1q, hlo3⟩), lt_of_le_of_lt hlo3 hxlim⟩, by simp; omega⟩
      · rw [abs_of_nonpos (by linarith), abs_of_nonpos (by linarith)]; linarith
    have habove : ∀ M : Nat, lo + 1 ≤ M → readsBack x M k = true →
        readsBack x (lo + 1) k = true ∧ |((lo + 1 : Nat) : ℚ) * 10 ^ k - x.q| ≤ |(M : ℚ) * 10 ^ k - x.q| := by
      intro M h1 h2
      have h1q : ((lo + 1 : Nat) : ℚ) * 10 ^ k ≤ M * 10 ^ k := mul_le_mul_of_nonneg_right (by exact_mod_cast h1) hpk.le
      rw [readsBack_iff] at h2
      refine ⟨readsBack_iff.2 ⟨nearest_between h2.1 (.inr ⟨hhi3, h1q⟩), lt_of_le_of_lt h1q h2.2⟩, ?_⟩
      rw [abs_of_nonneg (by linarith), abs_of_nonneg (by linarith)]; linarith
    -- the distances of the two neighbours
    have dlo : |(lo : ℚ) * 10 ^ k - x.q| = (absDiff (lo * den) num : Nat) / den * 10 ^ k := by
      have e1 : absDiff (lo * den) num = num - lo * den := by unfold absDiff; omega
      rw [e1, Nat.cast_sub hle, abs_of_nonpos (by linarith), hq]; push_cast; field_simp; ring
    have dhi : |((lo + 1 : Nat) : ℚ) * 10 ^ k - x.q| = (absDiff ((lo + 1) * den) num : Nat) / den * 10 ^ k := by
      have e1 : absDiff ((lo + 1) * den) num = (lo + 1) * den - num := by unfold absDiff; omega
      rw [e1, Nat.cast_sub hlt.le, abs_of_nonneg (by linarith), hq]; push_cast; field_simp
    have cmp : ∀ a b : Nat, a ≤ b → (a : ℚ) / den * 10 ^ k ≤ (b : ℚ) / den * 10 ^ k := by
      intro a b hab
      have : (a : ℚ) ≤ b := by exact_mod_cast hab
      exact mul_le_mul_of_nonneg_right (div_le_div_of_nonneg_right this hdq.le) hpk.le
    split at h
    · next e1 e2 =>
      split at h
      · next hc =>
        rw [Option.some.injEq, Prod.mk.injEq] at h
        rw [← h.1, ← h.2]
        intro M h0 hM
        rcases Nat.lt_or_ge lo M with h1 | h1
        · exact le_trans (by rw [dlo, dhi]; exact cmp _ _ hc) (habove M h1 hM).2
        · exact (hbelow M h0 h1 hM).2
      · next hc =>
        rw [Option.some.injEq, Prod.mk.injEq] at h
        rw [← h.1, ← h.2]
        intro M h0 hM
        rcases Nat.lt_or_ge lo M with h1 | h1
        · exact (habove M h1 hM).2
        · exact le_trans (by rw [dlo, dhi]; exact cmp _ _ (by omega)) (hbelow M h0 h1 hM).2
    · next e1 e2 =>
      rw [Option.some.injEq, Prod.mk.injEq] at h
      rw [← h.1, ← h.2]
      intro M h0 hM
      rcases Nat.lt_or_ge lo M with h1 | h1
      · rw [(habove M h1 hM).1] at e2; cases e2
      · exact (hbelow M h0 h1 hM).2
    · next e1 e2 =>
      rw [Option.some.injEq, Prod.mk.injEq] at h
      rw [← h.1, ← h.2]
      intro M h0 hM
      rcases Nat.lt_or_ge lo M with h1 | h1
      · exact (habove M h1 hM).2
      · rw [(hbelow M h0 h1 hM).1] at e1; cases e1
    · next e1 e2 => exact shortestAux_closest fuel (n + 1) D k' h

theorem readsBack_pos {x : F64} (hm : 0 < x.m) {M : Nat} {k : Int} (h : readsBack x M k = true) : 0 < M := by
  rcases Nat.eq_zero_or_pos M with rfl | h0
  · exfalso
    have e : (decRat 0 k).1 = 0 := by unfold decRat; split <;> simp
    unfold readsBack at h
    rw [e, beq_iff_eq] at h
    simp only [roundPos, if_true, Option.some.injEq] at h
    rw [← h] at hm
    exact absurd hm (by simp)
  · exact h0

theorem shortest_closest {x : F64} (hx : x.Canon) (hm : 0 < x.m) {D : Nat} {k : Int} (h : shortest x = some (D, k)) {j : Int} (hj : k ≤ j)
    {M : Nat} (hM : readsBack x M j = true) : |(D : ℚ) * 10 ^ k - x.q| ≤ |(M : ℚ) * 10 ^ j - x.q| := by
  obtain ⟨T, h1, h2, h3⟩ := decPoint_F64 hx hm
  obtain ⟨D', k', h4, h5, h6, h7, h8⟩ := shortestAux_spec hx hm h1 h2 17 1 (by omega) (by omega) (by omega)
  obtain ⟨h9, h10⟩ := stripZeros_spec 20 D' k' h5
  unfold shortest at h
  rw [if_neg (by omega)] at h
  simp only at h
  change Option.map _ (shortestAux x x.num x.den (decPoint 700 x.num x.den (((Nat.log2 x.num : Int) - Nat.log2 x.den) * 30103 / 100000)) 17 1) = _ at h
  rw [h3, h4, Option.map_some, Option.some.injEq] at h
  have hk' : k' ≤ k := by
    have : ∀ (fuel D : Nat) (k : Int), k ≤ (stripZeros fuel D k).2 := by
      intro fuel
      induction fuel with
      | zero => intro D k; exact le_refl _
      | succ f ih =>
        intro D k
        rw [stripZeros]
        split
        · have := ih (D / 10) (k + 1); omega
        · exact le_refl _
    have := this 20 D' k'
    rw [show stripZeros 20 D' k' = (D, k) from h] at this
    exact this
  rw [show stripZeros 20 D' k' = (D, k) from h] at h10
  rw [h10]
  have e : (M : ℚ) * 10 ^ j = ((M * 10 ^ (j - k').toNat : Nat) : ℚ) * 10 ^ k' := by
    have : j = ((j - k').toNat : Int) + k' := by omega
    conv_lhs => rw [this, zpow_add₀ (by norm_num), zpow_natCast]
    push_cast; ring
  rw [e]
  have hr := readsBack_congr e hM
  exact shortestAux_closest 17 1 D' k' h4 _ (readsBack_pos hm hr) hr

/-- The value of a literal with at most `f` digits after the point is a multiple of `10^-f`. -/
theorem lit_multiple {l : NumLit} (h : l.Ok) {j : Int} (hj : j ≤ 0) (hf : (l.frac.length : Int) ≤ -j) :
    ∃ M : Nat, l.value = M * 10 ^ j := by
  refine ⟨digitsVal l.whole * 10 ^ (-j).toNat + digitsVal l.frac * 10 ^ ((-j).toNat - l.frac.length), ?_⟩
  unfold NumLit.value
  rw [digitsValue_eq, digitsValue_eq]
  have h1 : j = -((-j).toNat : Int) := by omega
  have h2 : (-j).toNat = l.frac.length + ((-j).toNat - l.frac.length) := by omega
  generalize (-j).toNat - l.frac.length = r at *
  generalize (-j).toNat = n at *
  subst h1
  rw [zpow_neg, zpow_natCast, h2]
  push_cast
  rw [pow_add]
  field_simp

theorem lit_readsBack {l : NumLit} (h : l.Ok) {x : F64} (hp : parseFloat l.text = some x) {M : Nat} {j : Int} (hv : l.value = M * 10 ^ j) :
    readsBack x M j = true := by
  have := (parseFloat_iff h x).1 hp
  rw [readsBack_iff, ← hv, this.1.1]
  exact this

theorem frac_value {neg : Bool} {ip fp : Bytes} : (NumLit.mk neg ip true fp).value = digitsVal (ip ++ fp) / 10 ^ fp.length := by
  simp only [NumLit.value, digitsValue_eq]
  rw [digitsVal_append]
  push_cast
  field_simp

/-- The literal a number is printed as; if it has digits after the point, no literal for the number with as many digits or less after the
point is closer to it. -/
theorem numString_closest {x : F64} (hx : x.Canon) (hm : 0 < x.m) : ∃ l : NumLit, l.Ok ∧ l.text = numString x ∧ (l.frac ≠ [] →
    ∀ l' : NumLit, l'.Ok → parseFloat l'.text = some x → l'.frac.length ≤ l.frac.length → |l.value - x.q| ≤ |l'.value - x.q|) := by
  obtain ⟨D, k, T, hsh, hD, hrb, -⟩ := shortest_spec hx hm
  have hs : ∀ neg : Bool, (if neg then b!"-" else []) = signBytes neg := by intro neg; cases neg <;> rfl
  unfold numString
  rw [hsh]
  simp only [Option.getD_some]
  split
  · split
    · exact ⟨⟨x.neg, natToBytes (x.num / x.den), false, []⟩, ⟨natToBytes_ne _, natToBytes_all _, rfl, fun _ => rfl⟩,
        by simp [NumLit.text, hs], fun h => absurd rfl h⟩
    · unfold fmtF10
      set R := roundHalfEven (x.num * 10 ^ 10) x.den with hR
      obtain ⟨ip, fp, f1, f2, f3, f4, f5, f6⟩ := fmtF_frac R (k := -10) (by omega)
      rw [f1]
      obtain ⟨fp', j, t1, t2⟩ := trimRight_frac (signBytes x.neg ++ ip) fp
      rw [← List.append_assoc, t1]
      have hf' : fp'.all Verif.isDigit = true := by
        rw [t2, List.all_append, Bool.and_eq_true] at f4; exact f4.1
      have e2 : fp'.length + j = 10 := by
        have := f6; rw [t2, List.length_append, List.length_replicate] at this
        simpa using this
      refine ⟨⟨x.neg, ip, true, fp'⟩, ⟨f3, f2, hf', by simp⟩, by simp [NumLit.text, hs], fun _ l' h1 h2 h3 => ?_⟩
      simp only at h3
      obtain ⟨M, hM⟩ := lit_multiple h1 (j := -10) (by omega) (by omega)
      have hval : (NumLit.mk x.neg ip true fp').value = R * 10 ^ (-10 : Int) := by
        rw [frac_value]
        have e1 : digitsVal (ip ++ fp') * 10 ^ j = R := by
          rw [← digitsVal_snoc_zeros, List.append_assoc, ← t2]; exact f5
        have e3 : (10 : ℚ) ^ (-10 : Int) = 1 / ((10 : ℚ) ^ fp'.length * 10 ^ j) := by rw [← pow_add, e2]; norm_num
        rw [e3, ← e1]
        push_cast
        field_simp
      have hn := (roundHalfEven_closest (n := x.num * 10 ^ 10) x.den_pos (M : Int)).1
      rw [← hR] at hn
      have hv2 : ((x.num * 10 ^ 10 : Nat) : ℚ) / x.den = x.q * 10 ^ 10 := by
        rw [← x.num_den]; push_cast; ring
      rw [hv2] at hn
      have e10 : ∀ a : ℚ, |a * 10 ^ (-10 : Int) - x.q| = |a - x.q * 10 ^ 10| * 10 ^ (-10 : Int) := by
        intro a
        rw [← abs_of_pos (ten_pos (-10)), ← abs_mul, abs_of_pos (ten_pos (-10))]
        congr 1
        have : (10 : ℚ) ^ (-10 : Int) = 1 / 10 ^ 10 := by norm_num
        rw [this]; ring
      rw [hval, hM, e10, e10]
      exact mul_le_mul_of_nonneg_right (by exact_mod_cast hn) (ten_pos _).le
  · by_cases hk : k < 0
    · obtain ⟨ip, fp, f1, f2, f3, f4, f5, f6⟩ := fmtF_frac D hk
      rw [f1]
      refine ⟨⟨x.neg, ip, true, fp⟩, ⟨f3, f2, f4, by simp⟩, by simp [NumLit.text, hs], fun _ l' h1 h2 h3 => ?_⟩
      simp only at h3
      obtain ⟨M, hM⟩ := lit_multiple h1 hk.le (by omega)
      have hval : (NumLit.mk x.neg ip true fp).value = D * 10 ^ k := by
        rw [frac_value, f5, f6]
        have : k = -((-k).toNat : Int) := by omega
        conv_rhs => rw [this, zpow_neg, zpow_natCast]
        exact div_eq_mul_inv _ _
      rw [hval, hM]
      exact shortest_closest hx hm hsh (le_refl _) (lit_readsBack h1 h2 hM)
    · have e : fmtF D k = natToBytes (D * 10 ^ k.toNat) := by unfold fmtF; rw [if_pos (by omega)]
      rw [e]
      exact ⟨⟨x.neg, natToBytes (D * 10 ^ k.toNat), false, []⟩, ⟨natToBytes_ne _, natToBytes_all _, rfl, fun _ => rfl⟩,
        by simp [NumLit.text, hs], fun h => absurd rfl h⟩

end Verif
