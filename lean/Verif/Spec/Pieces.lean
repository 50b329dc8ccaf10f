import Verif.Spec.Token
/-
Text as the printer sees it: a sequence of pieces.  Used to say what the re-indentation of a
nested block does.
-/
namespace Verif.Spec
open Verif

/-- Text without a newline outside quoted strings, in which every quote is part of a quoted
string. -/
inductive Balanced : Bytes → Prop
  | nil : Balanced []
  | plain (c : UInt8) (r : Bytes) : c ≠ 34 → c ≠ 39 → c ≠ 10 → Balanced r → Balanced (c :: r)
  | quoted (q : UInt8) (body r : Bytes) : (q = 34 ∨ q = 39) → StringBody q body → Balanced r →
      Balanced (q :: body ++ q :: r)

/-- A piece of text: one level of indentation (two blanks), a newline, a fragment of code, or a
comment reaching to the end of the line. -/
inductive Piece
  | sp
  | nl
  | code (b : Bytes)
  | com (b : Bytes)

/-- The bytes of a piece. -/
def Piece.text : Piece → Bytes
  | .sp => [32, 32]
  | .nl => [10]
  | .code b => b
  | .com b => 35 :: b

/-- The bytes of a sequence of pieces. -/
def render (ps : List Piece) : Bytes := ps.flatMap Piece.text

/-- A well-formed piece: quotes in code are balanced, a comment contains no newline. -/
def Piece.Ok : Piece → Prop
  | .sp => True
  | .nl => True
  | .code b => b ≠ [] ∧ Balanced b
  | .com b => 10 ∉ b

/-- Does the code start with something other than white space or `#`? -/
def codeStart (b : Bytes) : Bool :=
  match b with
  | [] => false
  | c :: _ => c != 9 && c != 10 && c != 12 && c != 13 && c != 32 && c != 35

/-- Where we are in a line: nothing yet, only indentation, in code, after a comment. -/
inductive LineSt | fresh | spaced | mid | closed
deriving DecidableEq, Repr

/-- Read pieces; `none` when they are not laid out in lines: a line is empty, or indentation
followed by code or by a comment; indentation and comments do not occur elsewhere. -/
def scan : LineSt → List Piece → Option LineSt
  | st, [] => some st
  | .fresh, .nl :: r => scan .fresh r
  | .mid, .nl :: r => scan .fresh r
  | .closed, .nl :: r => scan .fresh r
  | .fresh, .sp :: r => scan .spaced r
  | .spaced, .sp :: r => scan .spaced r
  | .fresh, .com _ :: r => scan .closed r
  | .spaced, .com _ :: r => scan .closed r
  | .fresh, .code b :: r => if codeStart b then scan .mid r else none
  | .spaced, .code b :: r => if codeStart b then scan .mid r else none
  | .mid, .code _ :: r => scan .mid r
  | _, _ => none

/-- Add one level of indentation to every line that is not empty; the flag says that we are at
the start of a line. -/
def indent : Bool → List Piece → List Piece
  | _, [] => []
  | _, .nl :: r => .nl :: indent true r
  | true, p :: r => .sp :: p :: indent false r
  | false, p :: r => p :: indent false r

end Verif.Spec
