import Verif.Spec.Number
import Verif.Proofs.FloatFmt
import Verif.Model.Print
/-
C23: numbers survive formatting.
-/
namespace Verif.Props
open Verif Verif.Spec

/-- **C23** A number that is zero or at least `1e-4` in magnitude is printed as a literal of the
number syntax, and the literal denotes exactly this number. -/
theorem C23_numbers (a : NumAttr) (h : Exact a.value) :
    NumTok a.valueStr ∧ parseFloat a.valueStr = some a.value := numString_exact h.1 h.2

/-- **C23** The magnitude of a float is the fraction `num / den`. -/
theorem C23_magnitude (x : F64) : 0 < x.den ∧ (x.num : ℚ) / x.den = x.m * 2 ^ x.e := ⟨x.den_pos, x.num_den⟩

/-- The hypotheses of `C23_numbers` hold of `123456.789` (`%g` without an exponent), `1e6` and `2^60`
(integers printed through `%d`), `1234567.5` (printed through `%.10f`), `-0.0001` and `-0`. -/
example : (∀ t ∈ [b!"123456.789", b!"1000000", b!"1152921504606846976", b!"1234567.5", b!"-0.0001", b!"-0"],
    ∃ x, parseFloat t = some x ∧ Exact x ∧ numString x = t) := by
  intro t ht
  simp only [List.mem_cons, List.not_mem_nil, or_false] at ht
  rcases ht with rfl | rfl | rfl | rfl | rfl | rfl
  · exact ⟨⟨false, 8483885939586761, -36⟩, by decide +kernel, by unfold Exact; decide +kernel, by decide +kernel⟩
  · exact ⟨⟨false, 8589934592000000, -33⟩, by decide +kernel, by unfold Exact; decide +kernel, by decide +kernel⟩
  · exact ⟨⟨false, 2 ^ 52, 8⟩, by decide +kernel, by unfold Exact; decide +kernel, by decide +kernel⟩
  · exact ⟨⟨false, 5302427037204480, -32⟩, by decide +kernel, by unfold Exact; decide +kernel, by decide +kernel⟩
  · exact ⟨⟨true, 7378697629483821, -66⟩, by decide +kernel, by unfold Exact; decide +kernel, by decide +kernel⟩
  · exact ⟨⟨true, 0, -1074⟩, by decide +kernel, by unfold Exact; decide +kernel, by decide +kernel⟩

/-- **C23**, the violation: `0.0000123456789` is printed as `0.0000123457`, a different number. -/
theorem C23_violated_small : ∃ x y, parseFloat b!"0.0000123456789" = some x ∧ numString x = b!"0.0000123457" ∧
    parseFloat (numString x) = some y ∧ y ≠ x := by
  refine ⟨(parseFloat b!"0.0000123456789").getD default, (parseFloat b!"0.0000123457").getD default, ?_, ?_, ?_, ?_⟩ <;> decide +kernel

/-- **C23**, the violation: `0.00000000001` is printed as `0.`, i.e. it becomes zero. -/
theorem C23_violated_tiny : ∃ x, parseFloat b!"0.00000000001" = some x ∧ x.m ≠ 0 ∧ numString x = b!"0." ∧
    parseFloat (numString x) = some ⟨false, 0, -1074⟩ := by
  refine ⟨(parseFloat b!"0.00000000001").getD default, ?_, ?_, ?_, ?_⟩ <;> decide +kernel

end Verif.Props
