import Verif.Spec.Cst
/-
`if` and `else` are not reserved words: they are also plugin names.  In a few places the parser
takes a plugin for the beginning of a branch.  `Clear` says that a tree has no such plugin.
-/
namespace Verif.Spec
open Verif

/-- A number, or two numbers joined by `in`: `5`, `1in2`. -/
structure NumExpr where
  l : Bytes
  r : Option Bytes

namespace NumExpr
/-- The numbers. -/
def nums (e : NumExpr) : List Bytes := e.l :: e.r.toList
/-- The bytes. -/
def text (e : NumExpr) : Bytes := e.l ++ (match e.r with | none => [] | some m => b!"in" ++ m)
end NumExpr

/-- A condition that consists of numbers and letters only: `5`, `1in2and-3`. -/
structure NumCond where
  first : NumExpr
  more : List (BoolOpKind × NumExpr)

namespace NumCond
/-- The numbers. -/
def nums (c : NumCond) : List Bytes := c.first.nums ++ c.more.flatMap fun m => m.2.nums
/-- The bytes. -/
def text (c : NumCond) : Bytes := c.first.text ++ c.more.flatMap fun m => boolText m.1 ++ m.2.text
/-- Well-formed. -/
def Ok (c : NumCond) : Prop :=
  (∀ n ∈ c.nums, NumTok n) ∧ ∀ m ∈ c.more, m.1 ≠ .undefined ∧ m.1 ≠ .noOp
end NumCond

/-- The word can be taken for the beginning of a branch: it is `if` and a condition (`if5`,
`if1in2and3`), or it starts with `if` and a condition in which a number is out of the range of
64-bit floating point numbers. -/
def IfLike (t : Bytes) : Prop :=
  ∃ (c : NumCond) (r : Bytes), c.Ok ∧ t = b!"if" ++ c.text ++ r ∧ (∀ d, r.head? = some d → isDigit d = false) ∧
    (r = [] ∨ ∃ n ∈ c.nums, parseFloat n = none)

/-- The name of a plugin, as written. -/
def CPlugin.name : CPlugin → Bytes
  | .mk n _ _ _ => n.text

/-- A branch without an else block. -/
def CItem.isOpen : CItem → Bool
  | .branch _ _ _ _ _ _ _ .none => true
  | _ => false

/-- The block does not start with a plugin named `else`, or `else` and a word like `if5`. -/
def notElse : List CItem → Prop
  | .plugin _ p :: _ => p.name ≠ b!"else" ∧ ∀ t, IfLike t → p.name ≠ b!"else" ++ t
  | _ => True

mutual
/-- No plugin of the block element can be taken for a branch. -/
def CItem.Clear : CItem → Prop
  | .plugin _ p => ¬ IfLike p.name
  | .branch _ _ _ _ items _ elifs els => itemsClear items ∧ elifsClear elifs ∧ els.Clear
/-- No plugin of the block can be taken for a branch or an else block. -/
def itemsClear : List CItem → Prop
  | [] => True
  | i :: r => i.Clear ∧ (i.isOpen = true → notElse r) ∧ itemsClear r
/-- The same for else-if blocks. -/
def elifsClear : List CElif → Prop
  | [] => True
  | .mk _ _ _ _ _ items _ :: r => itemsClear items ∧ elifsClear r
/-- The same for an else block. -/
def CElse.Clear : CElse → Prop
  | .none => True
  | .mk _ _ items _ => itemsClear items
end

/-- No plugin of the file can be taken for a branch or an else block. -/
def CFile.Clear : CFile → Prop
  | .empty _ => True
  | .config s ss _ => itemsClear s.items ∧ ∀ t ∈ ss, itemsClear t.items

end Verif.Spec
