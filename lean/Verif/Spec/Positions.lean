import Verif.Model.Ast
/-
Specification of source positions (used by C04): the position of a byte offset of a text, by
counting, and the list of all positions stored in an AST.
-/
namespace Verif.Spec
open Verif

/-- Number of newlines of a text. -/
def newlines (s : Bytes) : Nat := s.count 10

/-- The part of a text after its last newline. -/
def lastLine (s : Bytes) : Bytes := (s.reverse.takeWhile (· != 10)).reverse

/-- Number of characters of a valid UTF-8 text: the bytes that are not continuation bytes. -/
def chars (s : Bytes) : Nat := s.countP fun b => b.toNat / 64 != 2

/-- The position of the character at byte offset `k`: lines and columns count from one.  A newline
character itself counts as column zero of the line it starts. -/
def posAt (data : Bytes) (k : Nat) : Pos :=
  if data[k]? = some 10 then ⟨newlines (data.take k) + 2, 0, k⟩
  else ⟨newlines (data.take k) + 1, chars (lastLine (data.take k)) + 1, k⟩

example : posAt b!"ab\ncü d" 6 = ⟨2, 3, 6⟩ := by decide

/-- Positions of a string attribute. -/
def StrAttr.poss (a : StrAttr) : List Pos := [a.start]
/-- Positions of a number attribute. -/
def NumAttr.poss (a : NumAttr) : List Pos := [a.start]
/-- Positions of a hash key. -/
def HKey.poss : HKey → List Pos
  | .str a => StrAttr.poss a
  | .num a => NumAttr.poss a

mutual
/-- Positions of an attribute. -/
def Attr.poss : Attr → List Pos
  | .nil => []
  | .str a => StrAttr.poss a
  | .num a => NumAttr.poss a
  | .arr p _ as _ _ => p :: attrsPoss as
  | .hash p _ es _ _ => p :: hentriesPoss es
  | .plug p _ v _ => p :: Plugin.poss v
/-- Positions of a list of attributes. -/
def attrsPoss : List Attr → List Pos
  | [] => []
  | a :: as => Attr.poss a ++ attrsPoss as
/-- Positions of a hash entry. -/
def HEntry.poss : HEntry → List Pos
  | .mk p k v _ => p :: HKey.poss k ++ Attr.poss v
/-- Positions of a list of hash entries. -/
def hentriesPoss : List HEntry → List Pos
  | [] => []
  | e :: es => HEntry.poss e ++ hentriesPoss es
/-- Positions of a plugin. -/
def Plugin.poss : Plugin → List Pos
  | .mk p _ as _ _ => p :: attrsPoss as
end

/-- Positions of a selector. -/
def Selector.poss (s : Selector) : List Pos := s.start :: s.elems.map (·.start)

/-- Positions of a value in a condition. -/
def Rvalue.poss : Rvalue → List Pos
  | .nil => []
  | .str a => StrAttr.poss a
  | .num a => NumAttr.poss a
  | .sel s => Selector.poss s
  | .arr p _ as _ _ => p :: attrsPoss as
  | .re r => [r.start]

/-- Positions of the boolean operator of an expression. -/
def BoolExpr.poss (b : BoolExpr) : List Pos := [b.start, b.op.start]

mutual
/-- Positions of an expression. -/
def Expr.poss : Expr → List Pos
  | .nil => []
  | .cond p b c => p :: BoolExpr.poss b ++ condPoss c
  | .negCond p b c => p :: BoolExpr.poss b ++ condPoss c
  | .negSel p b s => p :: BoolExpr.poss b ++ Selector.poss s
  | .inE p b l r => p :: BoolExpr.poss b ++ Rvalue.poss l ++ Rvalue.poss r
  | .notIn p b l r => p :: BoolExpr.poss b ++ Rvalue.poss l ++ Rvalue.poss r
  | .rval p b r => p :: BoolExpr.poss b ++ Rvalue.poss r
  | .cmp p b l o r => p :: BoolExpr.poss b ++ Rvalue.poss l ++ o.start :: Rvalue.poss r
  | .re p b l o r => p :: BoolExpr.poss b ++ Rvalue.poss l ++ o.start :: Rvalue.poss r
/-- Positions of a condition. -/
def condPoss : List Expr → List Pos
  | [] => []
  | e :: es => Expr.poss e ++ condPoss es
end

mutual
/-- Positions of a branch or plugin. -/
def BOP.poss : BOP → List Pos
  | .nil => []
  | .plugin p => Plugin.poss p
  | .pluginPtr p => Plugin.poss p
  | .branch p c b _ _ ei el => p :: condPoss c ++ bopsPoss b ++ elifsPoss ei ++ ElseB.poss el
/-- Positions of a block. -/
def bopsPoss : List BOP → List Pos
  | [] => []
  | b :: bs => BOP.poss b ++ bopsPoss bs
/-- Positions of an else-if block. -/
def Elif.poss : Elif → List Pos
  | .mk p c b _ _ => p :: condPoss c ++ bopsPoss b
/-- Positions of the else-if blocks. -/
def elifsPoss : List Elif → List Pos
  | [] => []
  | e :: es => Elif.poss e ++ elifsPoss es
/-- Positions of an else block. -/
def ElseB.poss : ElseB → List Pos
  | .mk p b _ _ => p :: bopsPoss b
end

/-- Positions of a section. -/
def Section.poss (s : Section) : List Pos := s.start :: bopsPoss s.bops

/-- All positions of a configuration. -/
def positions (c : Config) : List Pos :=
  c.input.flatMap Section.poss ++ c.filter.flatMap Section.poss ++ c.output.flatMap Section.poss

end Verif.Spec
