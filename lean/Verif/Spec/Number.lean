import Verif.Model.Float
/-
Which numbers are printed exactly (C23).
-/
namespace Verif.Spec
open Verif

/-- A finite float that is zero or at least 1/10000 in magnitude: `x.num / x.den` is the magnitude
of `x`. -/
def Exact (x : F64) : Prop := x.Canon ∧ (x.m = 0 ∨ x.den ≤ 10 ^ 4 * x.num)

end Verif.Spec
