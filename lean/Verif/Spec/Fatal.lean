import Verif.Model.Bytes
/-
Which errors the parser raises as a panic (C62).
-/
namespace Verif.Spec
open Verif

/-- The messages with which the parser gives up: the limit of `MaxExpressions`, a failed type assertion, and the
report about a delimiter that is not closed. -/
def Fatal (m : Bytes) : Prop :=
  m = b!"max number of expresssions parsed" ∨ m = b!"interface conversion" ∨ b!"Parsing error at pos " <+: m

end Verif.Spec
