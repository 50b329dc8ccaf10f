import Verif.Model.Bytes
/-
Specification vocabulary for string literals, independent of the model.
-/
namespace Verif.Spec

/-- Every occurrence of the quote character `q` in `s` is directly preceded by a
backslash. -/
def QuotesEscaped (q : UInt8) (s : Bytes) : Prop :=
  ∀ l r, s = l ++ q :: r → ∃ l', l = l' ++ [92]

/-- `s` can stand between two quote characters `q` and the closing one is the first
that ends the literal: all quotes inside are escaped and the last byte is not a
backslash (which would escape the closing quote). -/
def StringBody (q : UInt8) (s : Bytes) : Prop :=
  QuotesEscaped q s ∧ s.getLast? ≠ some 92

/-- `w` is `v` with backslashes inserted directly in front of some quote characters
`q`, and nothing else changed. -/
inductive InsertsBackslashes (q : UInt8) : Bytes → Bytes → Prop
  | nil : InsertsBackslashes q [] []
  | same (b : UInt8) {v w : Bytes} : InsertsBackslashes q v w → InsertsBackslashes q (b :: v) (b :: w)
  | ins {v w : Bytes} : InsertsBackslashes q v w → InsertsBackslashes q (q :: v) (92 :: q :: w)

/-- The escape sequences of Logstash: the character after the backslash, and the
character the sequence stands for. -/
def escapeTable : List (UInt8 × UInt8) :=
  [(34, 34), (39, 39), (92, 92), (110, 10), (114, 13), (116, 9)]

/-- Each character with an escape sequence is written as that sequence, every other
byte as itself. -/
def escaped (s : Bytes) : Bytes :=
  s.flatMap fun b =>
    match escapeTable.find? (fun e => e.2 = b) with
    | some (l, _) => [92, l]
    | none => [b]

/-- Reading from the left, each known sequence is replaced by what it stands for; a
backslash in front of any other character is kept together with that character (which
therefore cannot start a sequence), and so is every byte not behind a backslash. -/
def unescaped : Bytes → Bytes
  | [] => []
  | [b] => [b]
  | b :: c :: s =>
    if b = 92 then
      (match escapeTable.find? (fun e => e.1 = c) with
        | some (_, d) => [d]
        | none => [92, c]) ++ unescaped s
    else b :: unescaped (c :: s)

end Verif.Spec
