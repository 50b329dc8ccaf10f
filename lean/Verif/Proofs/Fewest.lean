import Verif.Proofs.Closest
/-
No decimal with fewer digits than the printed one reads back.
-/
namespace Verif
open Verif.Spec

theorem shortestAux_fewest {x : F64} (hm : 0 < x.m) {T : Int} :
    ∀ (fuel n : Nat) (D : Nat) (k : Int), shortestAux x x.num x.den T fuel n = some (D, k) →
      ∀ (j : Int) (M : Nat), j ≤ T - n → readsBack x M j = true → j ≤ k
  | 0, n, D, k, h => by simp [shortestAux] at h
  | fuel + 1, n, D, k', h => by
    rw [shortestAux] at h
    set k : Int := T - n with hk
    set num := if k < 0 then x.num * 10 ^ (-k).toNat else x.num with hnum
    set den := if k < 0 then x.den else x.den * 10 ^ k.toNat with hden
    have hdp : 0 < den := by rw [hden]; have := x.den_pos; split <;> positivity
    have hpk := ten_pos k
    have hv : (num : ℚ) / den = x.q / 10 ^ k := by
      rw [hnum, hden, ← x.num_den]
      split
      · next h =>
        have : k = -((-k).toNat : Int) := by omega
        conv_rhs => rw [this, zpow_neg, zpow_natCast]
        push_cast
        rw [div_inv_eq_mul]; ring
      · next h =>
        have : k = (k.toNat : Int) := by omega
        conv_rhs => rw [this, zpow_natCast]
        push_cast
        rw [div_div]
    set lo := num / den with hlo
    have hdq : (0 : ℚ) < den := by exact_mod_cast hdp
    have hle : lo * den ≤ num := Nat.div_mul_le_self num den
    have hlt : num < (lo + 1) * den := by
      have := Nat.div_add_mod num den
      have h4 := Nat.mod_lt num hdp
      rw [← hlo] at this
      nlinarith
    have hq : x.q = num / den * 10 ^ k := by rw [hv]; field_simp
    have hleq : (lo : ℚ) * den ≤ num := by exact_mod_cast hle
    have hltq : (num : ℚ) < ((lo : ℚ) + 1) * den := by exact_mod_cast hlt
    have hlo3 : (lo : ℚ) * 10 ^ k ≤ x.q := by
      rw [hq]; exact mul_le_mul_of_nonneg_right ((le_div_iff₀ hdq).2 hleq) hpk.le
    have hhi3 : x.q ≤ ((lo + 1 : Nat) : ℚ) * 10 ^ k := by
      rw [hq]; push_cast; exact mul_le_mul_of_nonneg_right ((div_le_iff₀ hdq).2 hltq.le) hpk.le
    have hbelow : ∀ M : Nat, 0 < M → M ≤ lo → readsBack x M k = true →
        (readsBack x lo k && lo != 0) = true ∧ |(lo : ℚ) * 10 ^ k - x.q| ≤ |(M : ℚ) * 10 ^ k - x.q| := by
      intro M h0 h1 h2
      have h1q : (M : ℚ) * 10 ^ k ≤ lo * 10 ^ k := mul_le_mul_of_nonneg_right (by exact_mod_cast h1) hpk.le
      rw [readsBack_iff] at h2
      refine ⟨?_, ?_⟩
      · rw [Bool.and_eq_true]
        have hxlim : x.q < rangeLimit := by
          have := h2.1.2.1
          exact canon_lt_limit this
        exact ⟨readsBack_iff.2 ⟨nearest_between h2.1 (.inl ⟨h1q, hlo3⟩), lt_of_le_of_lt hlo3 hxlim⟩, by simp; omega⟩
      · rw [abs_of_nonpos (by linarith), abs_of_nonpos (by linarith)]; linarith
    have habove : ∀ M : Nat, lo + 1 ≤ M → readsBack x M k = true →
        readsBack x (lo + 1) k = true ∧ |((lo + 1 : Nat) : ℚ) * 10 ^ k - x.q| ≤ |(M : ℚ) * 10 ^ k - x.q| := by
      intro M h1 h2
      have h1q : ((lo + 1 : Nat) : ℚ) * 10 ^ k ≤ M * 10 ^ k := mul_le_mul_of_nonneg_right (by exact_mod_cast h1) hpk.le
      rw [readsBack_iff] at h2
      refine ⟨readsBack_iff.2 ⟨nearest_between h2.1 (.inr ⟨hhi3, h1q⟩), lt_of_le_of_lt h1q h2.2⟩, ?_⟩
      rw [abs_of_nonneg (by linarith), abs_of_nonneg (by linarith)]; linarith
    split at h
    · next e1 e2 =>
      split at h
      · rw [Option.some.injEq, Prod.mk.injEq] at h
        rw [← h.2]; intro j M hj _; exact hj
      · rw [Option.some.injEq, Prod.mk.injEq] at h
        rw [← h.2]; intro j M hj _; exact hj
    · rw [Option.some.injEq, Prod.mk.injEq] at h
      rw [← h.2]; intro j M hj _; exact hj
    · rw [Option.some.injEq, Prod.mk.injEq] at h
      rw [← h.2]; intro j M hj _; exact hj
    · next e1 e2 =>
      intro j M hj hM
      have hne : j ≠ k := by
        rintro rfl
        rcases Nat.lt_or_ge lo M with h1 | h1
        · rw [(habove M h1 hM).1] at e2; cases e2
        · rw [(hbelow M (readsBack_pos hm hM) h1 hM).1] at e1; cases e1
      exact shortestAux_fewest hm fuel (n + 1) D k' h j M (by omega) hM

/-- From 1 on, no literal for the number has fewer digits after the point than the shortest decimal. -/
theorem shortest_fewest {x : F64} (hx : x.Canon) (hm : 0 < x.m) (h1 : 1 ≤ x.q) {D : Nat} {k : Int} (h : shortest x = some (D, k)) {j : Int} (hj : j ≤ 0)
    {M : Nat} (hM : readsBack x M j = true) : j ≤ k := by
  obtain ⟨T, t1, t2, t3⟩ := decPoint_F64 hx hm
  obtain ⟨D', k', h4, h5, h6, h7, h8⟩ := shortestAux_spec hx hm t1 t2 17 1 (by omega) (by omega) (by omega)
  unfold shortest at h
  rw [if_neg (by omega)] at h
  simp only at h
  change Option.map _ (shortestAux x x.num x.den (decPoint 700 x.num x.den (((Nat.log2 x.num : Int) - Nat.log2 x.den) * 30103 / 100000)) 17 1) = _ at h
  rw [t3, h4, Option.map_some, Option.some.injEq] at h
  have hk' : k' ≤ k := by
    have : ∀ (fuel D : Nat) (k : Int), k ≤ (stripZeros fuel D k).2 := by
      intro fuel
      induction fuel with
      | zero => intro D k; exact le_refl _
      | succ f ih =>
        intro D k
        rw [stripZeros]
        split
        · have := ih (D / 10) (k + 1); omega
        · exact le_refl _
    have := this 20 D' k'
    rw [show stripZeros 20 D' k' = (D, k) from h] at this
    exact this
  have hT : 0 < T := by
    have h0 : (10 : ℚ) ^ (0 : Int) < 10 ^ T := lt_of_le_of_lt (by simpa using h1) t2
    exact ten_lt.1 h0
  exact (shortestAux_fewest hm 17 1 D' k' h4 j M (by push_cast; omega) hM).trans hk'

/-- A number from 1 to 100000 is printed with the fewest digits after the point. -/
theorem numString_fewest {x : F64} (hx : x.Canon) (h1 : 1 ≤ x.q) (h2 : x.q < 100000) : ∃ l : NumLit, l.Ok ∧ l.text = numString x ∧
    ∀ l' : NumLit, l'.Ok → parseFloat l'.text = some x → l.frac.length ≤ l'.frac.length := by
  have hm : 0 < x.m := by
    rcases Nat.eq_zero_or_pos x.m with h | h
    · unfold F64.q at h1; rw [h] at h1; norm_num at h1
    · exact h
  obtain ⟨D, k, T, hsh, hD, hrb, t1, t2, t3, t4⟩ := shortest_spec hx hm
  obtain ⟨g1, g2⟩ := gExp_spec hD k
  have hs : ∀ neg : Bool, (if neg then b!"-" else []) = signBytes neg := by intro neg; cases neg <;> rfl
  have hT : T - 1 < 5 := ten_lt.1 (lt_of_le_of_lt t1 (by norm_num; exact h2))
  have hT0 : 0 < T := ten_lt.1 (lt_of_le_of_lt (by simpa using h1) t2)
  have hg : gUsesExp D k = false := by
    have a1 := ten_le.1 (g1.trans t4)
    have a2 := ten_lt.1 (lt_of_le_of_lt t3 g2)
    simp only [gUsesExp, Bool.or_eq_false_iff, decide_eq_false_iff_not]
    exact ⟨by omega, by omega⟩
  unfold numString
  rw [hsh]
  simp only [Option.getD_some, hg, Bool.false_eq_true, if_false]
  by_cases hk : k < 0
  · obtain ⟨ip, fp, f1, f2, f3, f4, f5, f6⟩ := fmtF_frac D hk
    rw [f1]
    refine ⟨⟨x.neg, ip, true, fp⟩, ⟨f3, f2, f4, by simp⟩, by simp [NumLit.text, hs], fun l' a1 a2 => ?_⟩
    simp only
    by_contra hlt
    obtain ⟨M, hM⟩ := lit_multiple a1 (j := -(l'.frac.length : Int)) (by omega) (by omega)
    have := shortest_fewest hx hm h1 hsh (by omega) (lit_readsBack a1 a2 hM)
    omega
  · have e : fmtF D k = natToBytes (D * 10 ^ k.toNat) := by unfold fmtF; rw [if_pos (by omega)]
    rw [e]
    exact ⟨⟨x.neg, natToBytes (D * 10 ^ k.toNat), false, []⟩, ⟨natToBytes_ne _, natToBytes_all _, rfl, fun _ => rfl⟩,
      by simp [NumLit.text, hs], fun l' _ _ => Nat.zero_le _⟩

end Verif
