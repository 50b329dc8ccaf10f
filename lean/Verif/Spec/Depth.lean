import Verif.Model.Bytes
/-
Specification for C70: how deeply a text can be nested.
-/
namespace Verif.Spec
open Verif

/-- The number of opening brackets of a text: `{`, `[` and `(`, wherever they stand. -/
def openers (text : Bytes) : Nat := text.countP fun c => c = 123 ∨ c = 91 ∨ c = 40

example : openers b!"filter { a { b => [1, 2] } } # (" = 4 := by decide

/-- `filter{aa{bb=>[[…[[]]…]]}}`: a valid configuration with arrays nested `k + 1` deep. -/
def nestedArrays (k : Nat) : Bytes :=
  b!"filter{aa{bb=>" ++ List.replicate (k + 1) 91 ++ List.replicate (k + 1) 93 ++ b!"}}"

example : nestedArrays 2 = b!"filter{aa{bb=>[[[]]]}}" := by decide

end Verif.Spec
