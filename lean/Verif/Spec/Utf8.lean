import Verif.Model.Bytes
/-
Specification of "valid UTF-8": the text is the encoding of some sequence of Unicode scalar
values.  Uses Lean's own `Char` and its encoder, nothing of the model's decoder.
-/
namespace Verif.Spec

/-- The UTF-8 encoding of a sequence of characters. -/
def encode (cs : List Char) : Bytes := cs.flatMap String.utf8EncodeChar

/-- Valid UTF-8. -/
def ValidUTF8 (data : Bytes) : Prop := ∃ cs : List Char, data = encode cs

end Verif.Spec
