import Verif.Spec.Positions
import Verif.Spec.Utf8
/-
Specification of error locations (used by C51).
-/
namespace Verif.Spec
open Verif

/-- Offset `k` of the text does not start the encoding of any character. -/
def NotUtf8At (data : Bytes) (k : Nat) : Prop :=
  k < data.length ∧ ∀ c : Char, ¬ String.utf8EncodeChar c <+: data.drop k

/-- A position of the text: that of one of its offsets (the end included), by counting, or the
position `1:1 (0)` of a parser that has read nothing. -/
def Located (data : Bytes) (p : Pos) : Prop :=
  p = ⟨1, 1, 0⟩ ∨ ∃ k ≤ data.length, p = posAt data k

/-- `text` is what the text contains from offset `k` to offset `l`. -/
def Quotes (data text : Bytes) (k l : Nat) : Prop :=
  k ≤ l ∧ l ≤ data.length ∧ text = (data.drop k).take (l - k)

end Verif.Spec
