import Verif.Model.Bytes
/-
The one regular expression of the project, `linesRe` (ast/ast_helper.go:15):

  (\n|\s*#[^\n]*\n|[^'"\n]*\n|([^"'\n]*("(\\"|[^"])*"|'(\\'|[^'])*')[^"'\n]*)*\n)

Go's `regexp` package returns the leftmost match and, among matches starting
there, the one a backtracking engine would find first ("leftmost-first").  The
matchers below are that backtracking engine, written in continuation-passing
style: the continuation is tried on each remainder in priority order and the
first success wins.

Simplification: Go matches runes, this model matches bytes.  Every class in the
expression is either an ASCII set or the complement of one, so a multi-byte rune
(or an invalid byte) is accepted byte by byte exactly when it is accepted as a
rune, and a match that could start inside a rune could also start at its first
byte.
-/
namespace Verif

/-- Try `f`, and if it fails try `g` (regexp alternation `f|g`). -/
def alt {α : Type} (f : Option α) (g : Unit → Option α) : Option α :=
  match f with
  | some a => some a
  | none => g ()

/-- Greedy `[class]*` followed by `k`. -/
def reStar {α : Type} (p : UInt8 → Bool) : Bytes → (Bytes → Option α) → Option α
  | [], k => k []
  | b :: t, k => if p b then alt (reStar p t k) (fun _ => k (b :: t)) else k (b :: t)

/-- A single byte `c` followed by `k`. -/
def reByte {α : Type} (c : UInt8) (s : Bytes) (k : Bytes → Option α) : Option α :=
  match s with
  | b :: t => if b = c then k t else none
  | [] => none

/-- Greedy `(\\q|[^q])*` followed by `k`: the body of a quoted string. -/
def reBody {α : Type} (q : UInt8) : Bytes → (Bytes → Option α) → Option α
  | [], k => k []
  | [b], k => if b = q then k [b] else alt (k []) (fun _ => k [b])
  | b :: c :: t, k =>
    alt (if b = 92 ∧ c = q then reBody q t k else none) fun _ =>
    alt (if b = q then none else reBody q (c :: t) k) fun _ =>
    k (b :: c :: t)

/-- `q(\\q|[^q])*q` followed by `k`. -/
def reQuoted {α : Type} (q : UInt8) (s : Bytes) (k : Bytes → Option α) : Option α :=
  reByte q s fun s => reBody q s fun s => reByte q s k

/-- The class `[^"'\n]`. -/
def plainByte (b : UInt8) : Bool := b != 34 && b != 39 && b != 10

/-- `[^"'\n]*("(\\"|[^"])*"|'(\\'|[^'])*')[^"'\n]*` followed by `k`. -/
def reQSeg {α : Type} (s : Bytes) (k : Bytes → Option α) : Option α :=
  reStar plainByte s fun s =>
    alt (reQuoted 34 s fun s => reStar plainByte s k)
      (fun _ => reQuoted 39 s fun s => reStar plainByte s k)

/-- `( reQSeg )*` followed by `k`.  Every iteration consumes at least two bytes,
so the length of the input is enough fuel. -/
def reQSegs {α : Type} : Nat → Bytes → (Bytes → Option α) → Option α
  | 0, s, k => k s
  | n + 1, s, k => alt (reQSeg s fun s' => reQSegs n s' k) fun _ => k s

/-- `\s` of Go's RE2 syntax. -/
def reSpace (b : UInt8) : Bool := b == 9 || b == 10 || b == 12 || b == 13 || b == 32

/-- One anchored match of `linesRe` (ast/ast_helper.go:15) at the head of `s`:
the remaining input after the match. -/
def lineMatch (s : Bytes) : Option Bytes :=
  alt (reByte 10 s some) fun _ =>
  alt (reStar reSpace s fun s => reByte 35 s fun s =>
        reStar (fun b => b != 10) s fun s => reByte 10 s some) fun _ =>
  alt (reStar plainByte s fun s => reByte 10 s some) fun _ =>
  reQSegs s.length s fun s => reByte 10 s some

/-- `linesRe.FindAllString(s, -1)` (ast/ast_helper.go:27): successive leftmost
matches; where nothing matches the search moves one byte forward.  Fuel: the
length of the input plus one. -/
def findLinesAux : Nat → Bytes → List Bytes
  | 0, _ => []
  | n + 1, s =>
    match lineMatch s with
    | some r => s.take (s.length - r.length) :: findLinesAux n r
    | none =>
      match s with
      | [] => []
      | _ :: t => findLinesAux n t

/-- See `findLinesAux`. -/
def findLines (s : Bytes) : List Bytes := findLinesAux (s.length + 1) s

/-- `prefix` (ast/ast_helper.go:17-36). -/
def prefixS (input : Bytes) (emptyNewline : Bool) : Bytes :=
  if input.isEmpty then (if emptyNewline then [10] else [])
  else
    10 :: ((findLines (trimRight 10 input ++ [10])).flatMap fun l =>
      if (trimLeftBy (fun b => b == 32 || b == 10) l).isEmpty then [10]
      else [32, 32] ++ l)

end Verif
