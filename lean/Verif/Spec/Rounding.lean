import Mathlib.Data.Int.Log
import Mathlib.Algebra.Order.Ring.Rat
import Mathlib.Algebra.Order.Group.Unbundled.Abs
import Verif.Model.Float
/-
What the value of a number literal should be (C57): the finite binary64 value closest to the decimal
number written, and of two that are equally close the one with an even significand.
-/
namespace Verif.Spec
open Verif

/-- The number a string of decimal digits denotes. -/
def digitsValue : Bytes → ℚ
  | [] => 0
  | c :: t => ((c.toNat - 48 : Nat) : ℚ) * 10 ^ t.length + digitsValue t

/-- A number literal: sign, digits, and digits after a decimal point, if there is one. -/
structure NumLit where
  neg : Bool
  whole : Bytes
  point : Bool
  frac : Bytes

namespace NumLit
/-- How it is written. -/
def text (l : NumLit) : Bytes :=
  (if l.neg then b!"-" else []) ++ l.whole ++ (if l.point then b!"." ++ l.frac else [])
/-- There is at least one digit before the point; digits after the point need a point. -/
def Ok (l : NumLit) : Prop :=
  l.whole ≠ [] ∧ l.whole.all isDigit = true ∧ l.frac.all isDigit = true ∧ (l.point = false → l.frac = [])
/-- Its magnitude. -/
def value (l : NumLit) : ℚ := digitsValue l.whole + digitsValue l.frac / 10 ^ l.frac.length
end NumLit

/-- The magnitude of a binary64 value. -/
def magnitude (x : F64) : ℚ := x.m * (2 : ℚ) ^ x.e

/-- `x` has the given sign and is the binary64 value closest to `v`; a tie goes to the even
significand. -/
def Nearest (neg : Bool) (v : ℚ) (x : F64) : Prop :=
  x.neg = neg ∧ x.Canon ∧
  ∀ y : F64, y.Canon →
    |magnitude x - v| ≤ |magnitude y - v| ∧
    (|magnitude x - v| = |magnitude y - v| → magnitude y ≠ magnitude x → x.m % 2 = 0)

/-- Where binary64 ends: half a unit in the last place above the largest finite value. -/
def rangeLimit : ℚ := 2 ^ 1024 - 2 ^ 970

end Verif.Spec
