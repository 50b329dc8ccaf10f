import Verif.Proofs.Float
import Mathlib.Data.Rat.Floor
import Verif.Proofs.Bytes
import Verif.Spec.Cst
/-
Numbers are printed so that they read back.
-/
namespace Verif
open Spec

/-! ### Digits -/

theorem digitsVal_eq (s : Bytes) : digitsVal s = decVal 0 s := by
  unfold digitsVal decVal
  congr 1; funext a b; rw [Nat.mul_comm]

theorem decVal_append (acc : Nat) (s t : Bytes) : decVal acc (s ++ t) = decVal (decVal acc s) t := by
  simp [decVal, List.foldl_append]

theorem decVal_acc (acc : Nat) (s : Bytes) : decVal acc s = acc * 10 ^ s.length + decVal 0 s := by
  induction s generalizing acc with
  | nil => simp [decVal]
  | cons b s ih =>
    rw [decVal_cons, ih, decVal_cons, ih (10 * 0 + _), List.length_cons, pow_succ]; ring

theorem digitsVal_zeros (j : Nat) (s : Bytes) : digitsVal (List.replicate j 48 ++ s) = digitsVal s := by
  induction j with
  | zero => rfl
  | succ j ih =>
    rw [digitsVal_eq, List.replicate_succ, List.cons_append, decVal_cons, ← ih, digitsVal_eq]; rfl

theorem digitsVal_snoc_zeros (j : Nat) (s : Bytes) : digitsVal (s ++ List.replicate j 48) = digitsVal s * 10 ^ j := by
  rw [digitsVal_eq, decVal_append, decVal_acc, ← digitsVal_eq, List.length_replicate]
  have := digitsVal_zeros j []
  rw [List.append_nil] at this
  rw [← digitsVal_eq (List.replicate j 48), this]; rfl

theorem digitsVal_natToBytes (n : Nat) : digitsVal (natToBytes n) = n := by rw [digitsVal_eq, decVal_natToBytes]

theorem natToBytes_all (n : Nat) : (natToBytes n).all Verif.isDigit = true := by
  rw [List.all_eq_true]
  intro b hb
  have := natToBytes_digits n b hb
  simp [Verif.isDigit, this.1, this.2]

theorem natDigitsAux_length (fuel n : Nat) (acc : Bytes) (h : n < fuel) :
    ∃ L, (natDigitsAux fuel n acc).length = L + 1 + acc.length ∧ n < 10 ^ (L + 1) ∧ (0 < n → 10 ^ L ≤ n) := by
  induction fuel generalizing n acc with
  | zero => omega
  | succ f ih =>
    unfold natDigitsAux
    simp only
    split
    · next h0 => exact ⟨0, by simp; omega, by omega, by omega⟩
    · next h0 =>
      obtain ⟨L, h1, h2, h3⟩ := ih (n / 10) (UInt8.ofNat (48 + n % 10) :: acc) (by omega)
      have h3 := h3 (by omega)
      refine ⟨L + 1, by rw [h1]; simp; omega, ?_, fun _ => ?_⟩
      · rw [pow_succ]; omega
      · rw [pow_succ]; omega

theorem natToBytes_length (n : Nat) : ∃ L, (natToBytes n).length = L + 1 ∧ n < 10 ^ (L + 1) ∧ (0 < n → 10 ^ L ≤ n) := by
  obtain ⟨L, h1, h2, h3⟩ := natDigitsAux_length (n + 1) n [] (by omega)
  exact ⟨L, by simpa [natToBytes] using h1, h2, h3⟩

theorem natToBytes_ne (n : Nat) : natToBytes n ≠ [] := by
  obtain ⟨L, h, _⟩ := natToBytes_length n
  intro h'; rw [h'] at h; simp at h

/-! ### Reading -/

theorem isDigit_eq : Verif.isDigit = Spec.isDigit := rfl

theorem digit_head {ip : Bytes} (h : ip.all Verif.isDigit = true) (hne : ip ≠ []) (r : Bytes) : ((ip ++ r).head? == some 45) = false := by
  cases ip with
  | nil => exact absurd rfl hne
  | cons c t =>
    rw [List.all_cons, Bool.and_eq_true] at h
    have : c ≠ 45 := by rintro rfl; exact absurd h.1 (by decide)
    simpa using this

theorem takeWhile_all_f {p : UInt8 → Bool} {a b : Bytes} (h : a.all p = true) (hb : ∀ c t, b = c :: t → p c = false) :
    (a ++ b).takeWhile p = a ∧ (a ++ b).dropWhile p = b := by
  induction a with
  | nil =>
    cases b with
    | nil => exact ⟨rfl, rfl⟩
    | cons c t => simp [List.takeWhile_cons, List.dropWhile_cons, hb c t rfl]
  | cons c a ih =>
    rw [List.all_cons, Bool.and_eq_true] at h
    have := ih h.2
    simp [List.takeWhile_cons, List.dropWhile_cons, h.1, this]

theorem parse_int (neg : Bool) {ip : Bytes} (h : ip.all Verif.isDigit = true) (hne : ip ≠ []) :
    parseFloat (signBytes neg ++ ip) = roundPos neg (digitsVal ip) 1 := by
  have key := takeWhile_all_f (b := []) h (by simp)
  rw [List.append_nil] at key
  have hd := digit_head h hne []
  rw [List.append_nil] at hd
  cases neg with
  | false =>
    unfold parseFloat signBytes
    simp only [Bool.false_eq_true, if_false, List.nil_append, hd, key.1, key.2]
    rw [if_neg (by simpa using hne)]
  | true =>
    unfold parseFloat signBytes
    simp only [if_true, List.cons_append, List.nil_append, List.head?_cons, beq_self_eq_true, List.drop_succ_cons, List.drop_zero, key.1, key.2]
    rw [if_neg (by simpa using hne)]

theorem parse_frac (neg : Bool) {ip fp : Bytes} (h : ip.all Verif.isDigit = true) (hne : ip ≠ []) (hf : fp.all Verif.isDigit = true) :
    parseFloat (signBytes neg ++ (ip ++ 46 :: fp)) = roundPos neg (digitsVal (ip ++ fp)) (10 ^ fp.length) := by
  have key := takeWhile_all_f (b := 46 :: fp) h (by intro c t e; injection e with e _; subst e; rfl)
  have hd := digit_head h hne (46 :: fp)
  cases neg with
  | false =>
    unfold parseFloat signBytes
    simp only [Bool.false_eq_true, if_false, List.nil_append, hd, key.1, key.2]
    rw [if_neg (by simpa using hne), if_pos (by simp [hf])]
  | true =>
    unfold parseFloat signBytes
    simp only [if_true, List.cons_append, List.nil_append, List.head?_cons, beq_self_eq_true, List.drop_succ_cons, List.drop_zero, key.1, key.2]
    rw [if_neg (by simpa using hne), if_pos (by simp [hf])]

theorem sign_ok (neg : Bool) : signBytes neg = [] ∨ signBytes neg = [45] := by cases neg <;> simp [signBytes]

theorem numTok_int (neg : Bool) {ip : Bytes} (h : ip.all Verif.isDigit = true) (hne : ip ≠ []) : NumTok (signBytes neg ++ ip) :=
  ⟨signBytes neg, ip, [], by simp, sign_ok neg, hne, h, .inl rfl⟩
theorem numTok_frac (neg : Bool) {ip fp : Bytes} (h : ip.all Verif.isDigit = true) (hne : ip ≠ []) (hf : fp.all Verif.isDigit = true) :
    NumTok (signBytes neg ++ (ip ++ 46 :: fp)) :=
  ⟨signBytes neg, ip, 46 :: fp, by simp, sign_ok neg, hne, h, .inr ⟨fp, rfl, hf⟩⟩

theorem all_zeros (j : Nat) : (List.replicate j (48 : UInt8)).all Verif.isDigit = true := by
  rw [List.all_eq_true]; intro b hb; rw [(List.mem_replicate.1 hb).2]; rfl

theorem decRat_pos (D : Nat) (k : Int) : 0 < (decRat D k).2 := by unfold decRat; split <;> positivity
theorem decRat_q (D : Nat) (k : Int) : ((decRat D k).1 : ℚ) / (decRat D k).2 = D * 10 ^ k := by
  unfold decRat
  split
  · next h =>
    have : k = -((-k).toNat : Int) := by omega
    conv_rhs => rw [this, zpow_neg, zpow_natCast]
    push_cast
    rw [div_eq_mul_inv]
  · next h =>
    have : k = (k.toNat : Int) := by omega
    conv_rhs => rw [this, zpow_natCast]
    push_cast; ring

/-- The parts of `%f` output with a fraction. -/
theorem fmtF_frac (D : Nat) {k : Int} (hk : k < 0) : ∃ ip fp : Bytes, fmtF D k = ip ++ 46 :: fp ∧ ip.all Verif.isDigit = true ∧ ip ≠ [] ∧
    fp.all Verif.isDigit = true ∧ digitsVal (ip ++ fp) = D ∧ fp.length = (-k).toNat := by
  unfold fmtF
  rw [if_neg (by omega)]
  simp only
  set f := (-k).toNat with hf
  set ds := List.replicate (f + 1 - (natToBytes D).length) 48 ++ natToBytes D with hds
  have hlen : f + 1 ≤ ds.length := by rw [hds, List.length_append, List.length_replicate]; omega
  have hall : ds.all Verif.isDigit = true := by rw [hds, List.all_append, all_zeros, natToBytes_all]; rfl
  have hall' := List.all_eq_true.1 hall
  refine ⟨ds.take (ds.length - f), ds.drop (ds.length - f), by simp, ?_, ?_, ?_, ?_, ?_⟩
  · rw [List.all_eq_true]; exact fun b hb => hall' b (List.mem_of_mem_take hb)
  · intro h
    have := congrArg List.length h
    rw [List.length_take] at this
    simp at this; omega
  · rw [List.all_eq_true]; exact fun b hb => hall' b (List.mem_of_mem_drop hb)
  · rw [List.take_append_drop, hds, digitsVal_zeros, digitsVal_natToBytes]
  · rw [List.length_drop]; omega

/-- Reading back the rendering of a decimal. -/
theorem parse_fmtF (neg : Bool) (D : Nat) (k : Int) :
    NumTok (signBytes neg ++ fmtF D k) ∧ parseFloat (signBytes neg ++ fmtF D k) = roundPos neg (decRat D k).1 (decRat D k).2 := by
  by_cases hk : k < 0
  · obtain ⟨ip, fp, h1, h2, h3, h4, h5, h6⟩ := fmtF_frac D hk
    rw [h1]
    refine ⟨numTok_frac neg h2 h3 h4, ?_⟩
    rw [parse_frac neg h2 h3 h4, h5, h6]
    unfold decRat; rw [if_pos hk]
  · unfold fmtF decRat
    rw [if_pos (by omega), if_neg hk]
    exact ⟨numTok_int neg (natToBytes_all _) (natToBytes_ne _), by rw [parse_int neg (natToBytes_all _) (natToBytes_ne _), digitsVal_natToBytes]⟩

/-! ### Trailing zeros -/

theorem dropWhile_zeros (s : Bytes) : ∃ j, s = List.replicate j 48 ++ s.dropWhile (· == 48) := by
  induction s with
  | nil => exact ⟨0, rfl⟩
  | cons c s ih =>
    rw [List.dropWhile_cons]
    split
    · next h =>
      obtain ⟨j, hj⟩ := ih
      have : c = 48 := by simpa using h
      exact ⟨j + 1, by rw [List.replicate_succ, this, List.cons_append, ← hj]⟩
    · exact ⟨0, rfl⟩

theorem trimRight_frac (a fp : Bytes) : ∃ fp' j, trimRight 48 (a ++ 46 :: fp) = a ++ 46 :: fp' ∧ fp = fp' ++ List.replicate j 48 := by
  obtain ⟨j, hj⟩ := dropWhile_zeros fp.reverse
  refine ⟨(fp.reverse.dropWhile (· == 48)).reverse, j, ?_, ?_⟩
  · unfold trimRight
    rw [List.reverse_append, List.reverse_cons]
    have key : ∀ l r : Bytes, (l ++ [46] ++ r).dropWhile (· == 48) = l.dropWhile (· == 48) ++ [46] ++ r := by
      intro l r
      induction l with
      | nil => simp [List.dropWhile_cons]
      | cons c l ih =>
        rw [List.cons_append, List.cons_append, List.dropWhile_cons, List.dropWhile_cons]
        split
        · exact ih
        · rfl
    rw [key]; simp
  · have := congrArg List.reverse hj
    simpa using this

/-! ### The decimal point -/

theorem ten_pos (k : Int) : (0 : ℚ) < (10 : ℚ) ^ k := zpow_pos (by norm_num) _
theorem ten_lt {a b : Int} : (10 : ℚ) ^ a < 10 ^ b ↔ a < b := zpow_lt_zpow_iff_right₀ (by norm_num)
theorem ten_le {a b : Int} : (10 : ℚ) ^ a ≤ 10 ^ b ↔ a ≤ b := zpow_le_zpow_iff_right₀ (by norm_num)

theorem ge_decRat {a b : Nat} (hb : 0 < b) (k : Int) : a * (decRat 1 k).2 ≥ b * (decRat 1 k).1 ↔ (10 : ℚ) ^ k ≤ a / b := by
  have h := decRat_q 1 k
  have hp : (0 : ℚ) < (decRat 1 k).2 := by exact_mod_cast decRat_pos 1 k
  have hbq : (0 : ℚ) < b := by exact_mod_cast hb
  rw [show ((1 : Nat) : ℚ) * 10 ^ k = 10 ^ k by simp] at h
  rw [← h, div_le_div_iff₀ hp hbq]
  constructor
  · intro h'
    have : ((b * (decRat 1 k).1 : Nat) : ℚ) ≤ (a * (decRat 1 k).2 : Nat) := by exact_mod_cast h'
    push_cast at this; linarith
  · intro h'
    have : ((b * (decRat 1 k).1 : Nat) : ℚ) ≤ (a * (decRat 1 k).2 : Nat) := by push_cast; linarith
    exact_mod_cast this

theorem decPoint_spec {a b : Nat} (hb : 0 < b) {T : Int} (h1 : (10 : ℚ) ^ (T - 1) ≤ a / b) (h2 : (a : ℚ) / b < 10 ^ T) :
    ∀ (fuel : Nat) (dp : Int), T - dp < fuel → dp - T < fuel → decPoint fuel a b dp = T
  | 0, dp, h3, h4 => by simp at h3 h4; omega
  | fuel + 1, dp, h3, h4 => by
    rw [decPoint]
    rcases lt_trichotomy dp T with h | h | h
    · rw [if_pos ((ge_decRat hb dp).2 (le_trans (ten_le.2 (by omega)) h1))]
      exact decPoint_spec hb h1 h2 fuel (dp + 1) (by push_cast at h3; omega) (by push_cast at h3 h4; omega)
    · subst h
      rw [if_neg (fun h => absurd ((ge_decRat hb dp).1 h) (not_le.2 h2)), if_neg]
      rw [not_lt]
      exact (ge_decRat hb (dp - 1)).2 h1
    · rw [if_neg (fun h' => absurd ((ge_decRat hb dp).1 h') (not_le.2 (lt_of_lt_of_le h2 (ten_le.2 (by omega))))), if_pos]
      · exact decPoint_spec hb h1 h2 fuel (dp - 1) (by push_cast at h3 h4; omega) (by push_cast at h4; omega)
      · rw [← not_le]
        exact fun h' => absurd ((ge_decRat hb (dp - 1)).1 h') (not_le.2 (lt_of_lt_of_le h2 (ten_le.2 (by omega))))

/-! ### The fraction of a float -/

theorem F64.den_pos (x : F64) : 0 < x.den := scaleDen_pos (by omega) _
theorem F64.num_den (x : F64) : (x.num : ℚ) / x.den = x.q := by
  unfold F64.num F64.den
  rw [scale_q]; simp [F64.q]

theorem F64.q_pos {x : F64} (h : 0 < x.m) : 0 < x.q := by
  have := two_zpow_pos x.e
  have : (0 : ℚ) < x.m := by exact_mod_cast h
  unfold F64.q; positivity

/-! ### The shortest decimal -/

theorem zpow_step (k : Int) : (10 : ℚ) ^ (k + 1) = 10 ^ k * 10 := zpow_add_one₀ (by norm_num) k

theorem stripZeros_spec : ∀ (fuel D : Nat) (k : Int), 0 < D →
    0 < (stripZeros fuel D k).1 ∧ ((stripZeros fuel D k).1 : ℚ) * 10 ^ (stripZeros fuel D k).2 = D * 10 ^ k
  | 0, D, k, h => ⟨h, rfl⟩
  | fuel + 1, D, k, h => by
    rw [stripZeros]
    split
    · next hc =>
      simp only [Bool.and_eq_true, decide_eq_true_eq, bne_iff_ne] at hc
      have hD : D = 10 * (D / 10) := by omega
      obtain ⟨h1, h2⟩ := stripZeros_spec fuel (D / 10) (k + 1) (by omega)
      refine ⟨h1, h2.trans ?_⟩
      rw [zpow_step]
      conv_rhs => rw [hD]
      push_cast; ring
    · exact ⟨h, rfl⟩

theorem readsBack_congr {x : F64} {D D' : Nat} {k k' : Int} (h : (D : ℚ) * 10 ^ k = D' * 10 ^ k') (hr : readsBack x D k = true) :
    readsBack x D' k' = true := by
  unfold readsBack at *
  rw [roundPos_congr x.neg (decRat_pos D' k') (decRat_pos D k) (by rw [decRat_q, decRat_q, h])]
  exact hr

/-- Any decimal within half a unit of the 17th digit reads back. -/
theorem readsBack_near {x : F64} (hx : x.Canon) (hm : 0 < x.m) {T : Int} (hT : (10 : ℚ) ^ (T - 1) ≤ x.q) {D : Nat}
    (h1 : x.q - 10 ^ (T - 17) / 2 ≤ D * 10 ^ (T - 17)) (h2 : (D : ℚ) * 10 ^ (T - 17) ≤ x.q + 10 ^ (T - 17) / 2) :
    readsBack x D (T - 17) = true := by
  have hp := two_zpow_pos x.e
  have e16 : (10 : ℚ) ^ (T - 1) = 10 ^ (T - 17) * 10 ^ 16 := by
    rw [show T - 1 = T - 17 + ((16 : Nat) : Int) by push_cast; ring, zpow_add₀ (by norm_num), zpow_natCast]
  have ht := ten_pos (T - 17)
  have hmu : (x.m : ℚ) < 2 ^ 53 := by exact_mod_cast hx.1
  have hq : x.q < 2 ^ 53 * 2 ^ x.e := by unfold F64.q; nlinarith
  unfold readsBack
  rw [roundPos_near x.neg hx hm (decRat_pos D _) (by rw [decRat_q]; nlinarith) (by rw [decRat_q]; nlinarith) ?_]
  · simp
  · intro hm52 _
    rw [decRat_q]
    have : x.q = 2 ^ 52 * 2 ^ x.e := by unfold F64.q; rw [hm52]; push_cast; rfl
    nlinarith

theorem shortestAux_spec {x : F64} (hx : x.Canon) (hm : 0 < x.m) {T : Int} (h1 : (10 : ℚ) ^ (T - 1) ≤ x.q) (h2 : x.q < 10 ^ T) :
    ∀ (fuel n : Nat), 1 ≤ n → fuel + n = 18 → n ≤ 17 → ∃ D k, shortestAux x x.num x.den T fuel n = some (D, k) ∧ 0 < D ∧
      readsBack x D k = true ∧ (10 : ℚ) ^ (T - 1) ≤ D * 10 ^ k ∧ (D : ℚ) * 10 ^ k ≤ 10 ^ T
  | 0, n, _, h, h' => by omega
  | fuel + 1, n, hn, hf, hn' => by
    rw [shortestAux]
    set k : Int := T - n with hk
    set num := if k < 0 then x.num * 10 ^ (-k).toNat else x.num with hnum
    set den := if k < 0 then x.den else x.den * 10 ^ k.toNat with hden
    have hdp : 0 < den := by rw [hden]; have := x.den_pos; split <;> positivity
    have hpk := ten_pos k
    have hv : (num : ℚ) / den = x.q / 10 ^ k := by
      rw [hnum, hden, ← x.num_den]
      split
      · next h =>
        have : k = -((-k).toNat : Int) := by omega
        conv_rhs => rw [this, zpow_neg, zpow_natCast]
        push_cast
        rw [div_inv_eq_mul]; ring
      · next h =>
        have : k = (k.toNat : Int) := by omega
        conv_rhs => rw [this, zpow_natCast]
        push_cast
        rw [div_div]
    set lo := num / den with hlo
    have hdq : (0 : ℚ) < den := by exact_mod_cast hdp
    have hlo1 : (lo : ℚ) ≤ x.q / 10 ^ k := by
      rw [← hv, le_div_iff₀ hdq]
      have : lo * den ≤ num := Nat.div_mul_le_self num den
      exact_mod_cast this
    have hlo2 : x.q / 10 ^ k < lo + 1 := by
      rw [← hv, div_lt_iff₀ hdq]
      have h3 : num < (lo + 1) * den := by
        have := Nat.div_add_mod num den
        have h4 := Nat.mod_lt num hdp
        rw [← hlo] at this
        nlinarith
      have : (num : ℚ) < ((lo + 1) * den : Nat) := by exact_mod_cast h3
      push_cast at this; exact this
    have hlo3 : (lo : ℚ) * 10 ^ k ≤ x.q := by rwa [le_div_iff₀ hpk] at hlo1
    have hlo4 : x.q < ((lo + 1 : Nat) : ℚ) * 10 ^ k := by rw [div_lt_iff₀ hpk] at hlo2; push_cast; exact hlo2
    -- the n-digit bounds
    have hTk : (10 : ℚ) ^ T = 10 ^ n * 10 ^ k := by
      rw [show T = (n : Int) + k by omega, zpow_add₀ (by norm_num), zpow_natCast]
    have hT1 : (10 : ℚ) ^ (T - 1) = 10 ^ (n - 1) * 10 ^ k := by
      rw [show T - 1 = ((n - 1 : Nat) : Int) + k by omega, zpow_add₀ (by norm_num), zpow_natCast]
    have hb1 : 10 ^ (n - 1) ≤ lo := by
      have h3 : (10 : ℚ) ^ (n - 1) < lo + 1 := by
        refine lt_of_le_of_lt ?_ hlo2
        rw [le_div_iff₀ hpk, ← hT1]; exact h1
      have : 10 ^ (n - 1) < lo + 1 := by exact_mod_cast h3
      omega
    have hb2 : lo + 1 ≤ 10 ^ n := by
      have h3 : (lo : ℚ) < 10 ^ n := by
        refine lt_of_le_of_lt hlo1 ?_
        rw [div_lt_iff₀ hpk, ← hTk]; exact h2
      have : lo < 10 ^ n := by exact_mod_cast h3
      omega
    have hb1q : (10 : ℚ) ^ (n - 1) ≤ lo := by exact_mod_cast hb1
    have hb2q : ((lo + 1 : Nat) : ℚ) ≤ 10 ^ n := by exact_mod_cast hb2
    have hp10 : 0 < 10 ^ (n - 1) := by positivity
    have clo : 0 < lo ∧ (10 : ℚ) ^ (T - 1) ≤ lo * 10 ^ k ∧ (lo : ℚ) * 10 ^ k ≤ 10 ^ T := by
      refine ⟨by omega, ?_, by linarith⟩
      rw [hT1]; exact mul_le_mul_of_nonneg_right hb1q hpk.le
    have chi : 0 < lo + 1 ∧ (10 : ℚ) ^ (T - 1) ≤ ((lo + 1 : Nat) : ℚ) * 10 ^ k ∧ ((lo + 1 : Nat) : ℚ) * 10 ^ k ≤ 10 ^ T := by
      refine ⟨by omega, by linarith, ?_⟩
      rw [hTk]; exact mul_le_mul_of_nonneg_right hb2q hpk.le
    split
    · next e1 e2 =>
      rw [Bool.and_eq_true] at e1
      split
      · exact ⟨lo, k, rfl, clo.1, e1.1, clo.2⟩
      · exact ⟨lo + 1, k, rfl, chi.1, e2, chi.2⟩
    · next e1 e2 =>
      rw [Bool.and_eq_true] at e1
      exact ⟨lo, k, rfl, clo.1, e1.1, clo.2⟩
    · next e1 e2 => exact ⟨lo + 1, k, rfl, chi.1, e2, chi.2⟩
    · next e1 e2 =>
      by_cases hlast : n = 17
      · exfalso
        have hk17 : k = T - 17 := by omega
        rw [hk17] at e1 e2 hlo3 hlo4
        have hs : ((lo + 1 : Nat) : ℚ) * 10 ^ (T - 17) = lo * 10 ^ (T - 17) + 10 ^ (T - 17) := by push_cast; ring
        have ht := ten_pos (T - 17)
        rcases le_total (x.q - lo * 10 ^ (T - 17)) (10 ^ (T - 17) / 2) with h | h
        · have := readsBack_near hx hm h1 (D := lo) (by linarith) (by linarith)
          rw [this] at e1
          have : lo ≠ 0 := by omega
          simp [this] at e1
        · have := readsBack_near hx hm h1 (D := lo + 1) (by linarith) (by linarith)
          rw [this] at e2
          simp at e2
      · exact shortestAux_spec hx hm h1 h2 fuel (n + 1) (by omega) (by omega) (by omega)

/-- Bounds on the decimal point of a float. -/
theorem decPoint_F64 {x : F64} (hx : x.Canon) (hm : 0 < x.m) : ∃ T : Int, (10 : ℚ) ^ (T - 1) ≤ x.q ∧ x.q < 10 ^ T ∧
    decPoint 700 x.num x.den (((Nat.log2 x.num : Int) - Nat.log2 x.den) * 30103 / 100000) = T := by
  have hq := F64.q_pos hm
  obtain ⟨c1, c2, c3, c4⟩ := hx
  have e1 : (10 : ℚ) ^ Int.log 10 x.q ≤ x.q := by
    have := Int.zpow_log_le_self (b := 10) (by norm_num) hq
    exact_mod_cast this
  have e2 : x.q < (10 : ℚ) ^ (Int.log 10 x.q + 1) := by
    have := Int.lt_zpow_succ_log_self (b := 10) (by norm_num) x.q
    exact_mod_cast this
  set L := Int.log 10 x.q with hL
  have hm1 : (1 : ℚ) ≤ x.m := by exact_mod_cast hm
  have hm2 : (x.m : ℚ) < 2 ^ 53 := by exact_mod_cast c1
  have hp := two_zpow_pos x.e
  have hlow : (2 : ℚ) ^ (-1074 : Int) ≤ x.q := by
    have : (2 : ℚ) ^ (-1074 : Int) ≤ 2 ^ x.e := (zpow_le_zpow_iff_right₀ (by norm_num : (1 : ℚ) < 2)).2 c2
    unfold F64.q; nlinarith
  have hhigh : x.q < (2 : ℚ) ^ (1024 : Int) := by
    have : (2 : ℚ) ^ x.e ≤ 2 ^ (971 : Int) := (zpow_le_zpow_iff_right₀ (by norm_num : (1 : ℚ) < 2)).2 c3
    have h4 : (2 : ℚ) ^ (1024 : Int) = 2 ^ 53 * 2 ^ (971 : Int) := by
      rw [show (1024 : Int) = ((53 : Nat) : Int) + 971 by norm_num, zpow_add₀ (by norm_num), zpow_natCast]
    rw [h4]
    generalize (2 : ℚ) ^ (971 : Int) = c at this
    unfold F64.q
    calc (x.m : ℚ) * 2 ^ x.e < 2 ^ 53 * 2 ^ x.e := mul_lt_mul_of_pos_right hm2 hp
      _ ≤ 2 ^ 53 * c := mul_le_mul_of_nonneg_left this (by norm_num)
  have L1 : -359 ≤ L := by
    have h3 : (10 : ℚ) ^ (-358 : Int) ≤ 2 ^ (-1074 : Int) := by
      rw [zpow_neg, zpow_neg, show (1074 : Int) = ((3 * 358 : Nat) : Int) by norm_num, show (358 : Int) = ((358 : Nat) : Int) by norm_num,
        zpow_natCast, zpow_natCast, pow_mul]
      exact inv_anti₀ (by positivity) (pow_le_pow_left₀ (by norm_num) (by norm_num) _)
    have := ten_lt.1 (lt_of_le_of_lt (h3.trans hlow) e2)
    omega
  have L2 : L < 342 := by
    have h3 : (2 : ℚ) ^ (1024 : Int) ≤ 10 ^ (342 : Int) := by
      refine ((zpow_le_zpow_iff_right₀ (by norm_num : (1 : ℚ) < 2)).2 (by norm_num : (1024 : Int) ≤ 1026)).trans ?_
      rw [show (1026 : Int) = ((3 * 342 : Nat) : Int) by norm_num, show (342 : Int) = ((342 : Nat) : Int) by norm_num,
        zpow_natCast, zpow_natCast, pow_mul]
      exact pow_le_pow_left₀ (by norm_num) (by norm_num) _
    exact ten_lt.1 (lt_of_le_of_lt e1 (hhigh.trans_le h3))
  have hnum : 0 ≤ (Nat.log2 x.num : Int) ∧ (Nat.log2 x.num : Int) ≤ 1100 := by
    refine ⟨by omega, ?_⟩
    have : x.num < 2 ^ 1025 := by
      unfold F64.num scaleNum
      split
      · have h5 : 2 ^ (- -x.e).toNat ≤ 2 ^ 971 := Nat.pow_le_pow_right (by norm_num) (by omega)
        calc x.m * 2 ^ (- -x.e).toNat < 2 ^ 53 * 2 ^ 971 := by
              have : 0 < 2 ^ (- -x.e).toNat := by positivity
              exact Nat.mul_lt_mul_of_lt_of_le c1 h5 (by positivity)
          _ ≤ 2 ^ 1025 := by rw [← pow_add]; exact Nat.pow_le_pow_right (by norm_num) (by norm_num)
      · calc x.m < 2 ^ 53 := c1
          _ ≤ 2 ^ 1025 := Nat.pow_le_pow_right (by norm_num) (by norm_num)
    have hn0 : x.num ≠ 0 := by
      unfold F64.num scaleNum; split <;> positivity
    have := (Nat.log2_lt hn0).2 this
    omega
  have hden : 0 ≤ (Nat.log2 x.den : Int) ∧ (Nat.log2 x.den : Int) ≤ 1100 := by
    refine ⟨by omega, ?_⟩
    have : x.den < 2 ^ 1075 := by
      unfold F64.den scaleDen
      split
      · exact Nat.one_lt_two_pow (by norm_num)
      · rw [one_mul]; exact Nat.pow_lt_pow_right (by norm_num) (by omega)
    have hn0 : x.den ≠ 0 := by have := x.den_pos; omega
    have := (Nat.log2_lt hn0).2 this
    omega
  refine ⟨L + 1, by rw [add_sub_cancel_right]; exact e1, e2, ?_⟩
  refine decPoint_spec x.den_pos (by rw [x.num_den, add_sub_cancel_right]; exact e1) (by rw [x.num_den]; exact e2) 700 _ ?_ ?_
  · push_cast; omega
  · push_cast; omega

theorem shortest_spec {x : F64} (hx : x.Canon) (hm : 0 < x.m) : ∃ (D : Nat) (k T : Int), shortest x = some (D, k) ∧ 0 < D ∧
    readsBack x D k = true ∧ (10 : ℚ) ^ (T - 1) ≤ x.q ∧ x.q < 10 ^ T ∧ (10 : ℚ) ^ (T - 1) ≤ D * 10 ^ k ∧ (D : ℚ) * 10 ^ k ≤ 10 ^ T := by
  obtain ⟨T, h1, h2, h3⟩ := decPoint_F64 hx hm
  obtain ⟨D, k, h4, h5, h6, h7, h8⟩ := shortestAux_spec hx hm h1 h2 17 1 (by omega) (by omega) (by omega)
  obtain ⟨h9, h10⟩ := stripZeros_spec 20 D k h5
  refine ⟨(stripZeros 20 D k).1, (stripZeros 20 D k).2, T, ?_, h9, readsBack_congr h10.symm h6, h1, h2, by rw [h10]; exact h7, by rw [h10]; exact h8⟩
  unfold shortest
  rw [if_neg (by omega)]
  simp only
  change Option.map _ (shortestAux x x.num x.den (decPoint 700 x.num x.den (((Nat.log2 x.num : Int) - Nat.log2 x.den) * 30103 / 100000)) 17 1) = _
  rw [h3, h4]; rfl

theorem gExp_spec {D : Nat} (h : 0 < D) (k : Int) : (10 : ℚ) ^ gExp D k ≤ D * 10 ^ k ∧ (D : ℚ) * 10 ^ k < 10 ^ (gExp D k + 1) := by
  obtain ⟨L, h1, h2, h3⟩ := natToBytes_length D
  have h3 := h3 h
  have hp := ten_pos k
  have e : gExp D k = (L : Int) + k := by
    unfold gExp; rw [if_neg (by omega), h1]; push_cast; ring
  rw [e, show (L : Int) + k + 1 = ((L + 1 : Nat) : Int) + k by push_cast; ring, zpow_add₀ (by norm_num), zpow_add₀ (by norm_num),
    zpow_natCast, zpow_natCast]
  have a1 : (10 : ℚ) ^ L ≤ D := by exact_mod_cast h3
  have a2 : (D : ℚ) < 10 ^ (L + 1) := by exact_mod_cast h2
  exact ⟨mul_le_mul_of_nonneg_right a1 hp.le, mul_lt_mul_of_pos_right a2 hp⟩

/-! ### Numbers are printed so that they read back -/

theorem roundHalfEven_err (n : Nat) {d : Nat} (hd : 0 < d) :
    (n : ℚ) / d - 1 / 2 ≤ roundHalfEven n d ∧ (roundHalfEven n d : ℚ) ≤ n / d + 1 / 2 := by
  have hdq : (0 : ℚ) < d := by exact_mod_cast hd
  have hm := Nat.div_add_mod n d
  have hmq : (d : ℚ) * (n / d : Nat) + (n % d : Nat) = n := by exact_mod_cast hm
  have hr : ((n % d : Nat) : ℚ) < d := by exact_mod_cast Nat.mod_lt n hd
  have key : (roundHalfEven n d = n / d ∧ 2 * (n % d) ≤ d) ∨ (roundHalfEven n d = n / d + 1 ∧ d ≤ 2 * (n % d)) := by
    unfold roundHalfEven
    simp only
    split
    · left; exact ⟨rfl, by omega⟩
    · split
      · right; exact ⟨rfl, by omega⟩
      · split
        · left; exact ⟨rfl, by omega⟩
        · right; exact ⟨rfl, by omega⟩
  have hv : (n : ℚ) / d = (n / d : Nat) + (n % d : Nat) / d := by rw [← hmq]; field_simp
  rw [hv]
  generalize n / d = q at *
  generalize n % d = r at *
  have h1 : (0 : ℚ) ≤ r / d := by positivity
  have h2 : (r : ℚ) / d < 1 := by rw [div_lt_one hdq]; exact hr
  rcases key with ⟨k1, k2⟩ | ⟨k1, k2⟩
  · have h3 : (r : ℚ) / d ≤ 1 / 2 := by
      have : (2 : ℚ) * r ≤ d := by exact_mod_cast k2
      rw [div_le_iff₀ hdq]; linarith
    rw [k1]; constructor <;> linarith
  · have h3 : 1 / 2 ≤ (r : ℚ) / d := by
      have : (d : ℚ) ≤ 2 * r := by exact_mod_cast k2
      rw [le_div_iff₀ hdq]; linarith
    rw [k1]; push_cast; constructor <;> linarith

/-- A number that is zero or at least `10^-4` in magnitude is printed as a number token that reads back exactly. -/
theorem numString_exact {x : F64} (hx : x.Canon) (h : x.m = 0 ∨ x.den ≤ 10 ^ 4 * x.num) :
    NumTok (numString x) ∧ parseFloat (numString x) = some x := by
  by_cases hm0 : x.m = 0
  · obtain ⟨neg, m, e⟩ := x
    simp only at hm0
    subst hm0
    have he : e = -1074 := by
      have := hx.2.2.2; simp at this; exact this
    subst he
    have e1 : numString ⟨neg, 0, -1074⟩ = signBytes neg ++ natToBytes 0 := by
      cases neg <;> rfl
    rw [e1, parse_int neg (natToBytes_all 0) (natToBytes_ne 0)]
    exact ⟨numTok_int neg (natToBytes_all 0) (natToBytes_ne 0), rfl⟩
  have hm : 0 < x.m := Nat.pos_of_ne_zero hm0
  have hq4 : (10 : ℚ) ^ (-4 : Int) ≤ x.q := by
    have h' : x.den ≤ 10 ^ 4 * x.num := by omega
    have hd : (0 : ℚ) < x.den := by exact_mod_cast x.den_pos
    have h'' : (x.den : ℚ) ≤ 10 ^ 4 * x.num := by exact_mod_cast h'
    rw [← x.num_den, le_div_iff₀ hd]
    have : (10 : ℚ) ^ (-4 : Int) = 1 / 10 ^ 4 := by norm_num
    rw [this]; linarith
  obtain ⟨D, k, T, hsh, hD, hrb, hT1, hT2, hD1, hD2⟩ := shortest_spec hx hm
  have hpars : ∀ neg : Bool, (⟨neg, x.m, x.e⟩ : F64) = { x with neg := neg } := fun _ => rfl
  obtain ⟨g1, g2⟩ := gExp_spec hD k
  unfold numString
  rw [hsh]
  simp only [Option.getD_some]
  by_cases hexp : gUsesExp D k = true
  · rw [if_pos hexp]
    have hT : -4 < T := ten_lt.1 (lt_of_le_of_lt hq4 hT2)
    have hge : 6 ≤ gExp D k := by
      simp only [gUsesExp, Bool.or_eq_true, decide_eq_true_eq] at hexp
      rcases hexp with h' | h'
      · exfalso
        have h1 : (10 : ℚ) ^ (T - 1) < 10 ^ (gExp D k + 1) := lt_of_le_of_lt hD1 g2
        have h2 := ten_lt.1 h1
        omega
      · exact h'
    have hq6 : (10 : ℚ) ^ (6 : Int) ≤ x.q := by
      have h6 : (10 : ℚ) ^ (6 : Int) ≤ D * 10 ^ k := le_trans (ten_le.2 hge) g1
      by_cases hT7 : 7 ≤ T
      · exact le_trans (ten_le.2 (by omega)) hT1
      · have hT6 : T = 6 := by
          have := ten_le.1 (h6.trans hD2); omega
        subst hT6
        have heq : (D : ℚ) * 10 ^ k = 10 ^ (6 : Int) := le_antisymm hD2 h6
        -- then the decimal is 10^6 exactly, which is a float itself
        have hc : F64.Canon ⟨x.neg, 8589934592000000, -33⟩ := by unfold F64.Canon; norm_num
        exfalso
        have hr : roundPos x.neg (decRat D k).1 (decRat D k).2 = some x := by simpa [readsBack] using hrb
        have hr2 := roundPos_exact x.neg (x := ⟨x.neg, 8589934592000000, -33⟩) hc (by norm_num) (decRat_pos D k)
          (by rw [decRat_q, heq]; unfold F64.q; norm_num)
        rw [hr2] at hr
        injection hr with hr
        rw [← hr] at hT2
        unfold F64.q at hT2
        norm_num at hT2
    by_cases hi : isInt64 x = true
    · rw [if_pos hi]
      refine ⟨numTok_int _ (natToBytes_all _) (natToBytes_ne _), ?_⟩
      rw [parse_int _ (natToBytes_all _) (natToBytes_ne _), digitsVal_natToBytes]
      refine roundPos_exact x.neg hx hm (by omega) ?_
      simp only [isInt64, Bool.and_eq_true, beq_iff_eq] at hi
      rw [← x.num_den]
      have hd : (0 : ℚ) < x.den := by exact_mod_cast x.den_pos
      have : (x.num / x.den : Nat) * x.den = x.num := Nat.div_mul_cancel (Nat.dvd_of_mod_eq_zero hi.1)
      have h' : ((x.num / x.den : Nat) : ℚ) * x.den = x.num := by exact_mod_cast this
      rw [Nat.cast_one, div_one, eq_div_iff hd.ne']; exact h'
    · rw [if_neg hi]
      unfold fmtF10
      set R := roundHalfEven (x.num * 10 ^ 10) x.den with hR
      obtain ⟨ip, fp, f1, f2, f3, f4, f5, f6⟩ := fmtF_frac R (k := -10) (by omega)
      rw [f1]
      obtain ⟨fp', j, t1, t2⟩ := trimRight_frac (signBytes x.neg ++ ip) fp
      rw [← List.append_assoc, t1, List.append_assoc]
      have hf' : fp'.all Verif.isDigit = true := by
        rw [t2, List.all_append, Bool.and_eq_true] at f4; exact f4.1
      refine ⟨numTok_frac _ f2 f3 hf', ?_⟩
      rw [parse_frac _ f2 f3 hf']
      -- the printed decimal equals R / 10^10
      have hval : (digitsVal (ip ++ fp') : ℚ) / (10 ^ fp'.length : Nat) = R / (10 ^ 10 : Nat) := by
        have e1 : digitsVal (ip ++ fp') * 10 ^ j = R := by
          rw [← digitsVal_snoc_zeros, List.append_assoc, ← t2]; exact f5
        have e2 : fp'.length + j = 10 := by
          have := f6; rw [t2, List.length_append, List.length_replicate] at this
          simpa using this
        have e3 : (10 : Nat) ^ 10 = 10 ^ fp'.length * 10 ^ j := by rw [← pow_add, e2]
        rw [← e1, e3]
        push_cast
        have : (10 : ℚ) ^ j ≠ 0 := by positivity
        rw [mul_div_mul_right _ _ this]
      have hn := roundHalfEven_err (x.num * 10 ^ 10) x.den_pos
      rw [← hR] at hn
      have hv2 : ((x.num * 10 ^ 10 : Nat) : ℚ) / x.den = x.q * 10 ^ 10 := by
        rw [← x.num_den]; push_cast; ring
      rw [hv2] at hn
      have hb1 : x.q - 1 / 2 / 10 ^ 10 ≤ (R : ℚ) / (10 ^ 10 : Nat) := by
        rw [le_div_iff₀ (by norm_num)]; push_cast; linarith [hn.1]
      have hb2 : (R : ℚ) / (10 ^ 10 : Nat) ≤ x.q + 1 / 2 / 10 ^ 10 := by
        rw [div_le_iff₀ (by norm_num)]; push_cast; linarith [hn.2]
      -- the unit in the last place is large
      have hp := two_zpow_pos x.e
      have hulp : (1 : ℚ) / 2 / 10 ^ 10 < 2 ^ x.e / 2 := by
        have hmu : (x.m : ℚ) < 2 ^ 53 := by exact_mod_cast hx.1
        have : (10 : ℚ) ^ (6 : Int) ≤ 2 ^ 53 * 2 ^ x.e := by
          refine le_trans hq6 ?_
          unfold F64.q
          exact mul_le_mul_of_nonneg_right hmu.le hp.le
        norm_num at this ⊢
        linarith
      have hulp2 : x.m = 2 ^ 52 → (1 : ℚ) / 2 / 10 ^ 10 < 2 ^ x.e / 4 := by
        intro hm52
        have : (10 : ℚ) ^ (6 : Int) ≤ 2 ^ 52 * 2 ^ x.e := by
          refine le_trans hq6 ?_
          unfold F64.q
          rw [hm52]; push_cast; exact le_refl _
        norm_num at this ⊢
        linarith
      have key := roundPos_near x.neg hx hm (a := digitsVal (ip ++ fp')) (b := 10 ^ fp'.length) (by positivity)
        (by rw [hval]; linarith) (by rw [hval]; linarith) (fun h52 _ => by rw [hval]; linarith [hulp2 h52])
      exact key
  · rw [if_neg hexp]
    obtain ⟨p1, p2⟩ := parse_fmtF x.neg D k
    refine ⟨p1, p2.trans ?_⟩
    simpa [readsBack] using hrb

end Verif
