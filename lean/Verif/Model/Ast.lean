import Verif.Model.Bytes
import Verif.Model.Float
/-
The abstract syntax tree of package `ast` (ast/ast.go).

Go interfaces become inductive types with one constructor per implementing type
and an explicit `nil` constructor, because every consumer in the code base
checks for (or trips over) `nil` elements.  Slices are lists; a nil slice and an
empty slice are the same list (nothing in the project distinguishes them).
-/
namespace Verif

/-- `ast.Pos` (ast/ast.go:22-26). -/
structure Pos where
  line : Int
  col : Int
  offset : Int
deriving DecidableEq, Repr, Inhabited

/-- The zero value of `ast.Pos`. -/
def Pos.zero : Pos := ⟨0, 0, 0⟩

/-- `ast.InvalidPos` (ast/ast.go:32). -/
def invalidPos : Pos := ⟨0, 0, -1⟩

/-- `ast.Comment` (ast/ast.go:117-121). -/
structure Comment where
  text : Bytes
  spaceBefore : Bool
  spaceAfter : Bool
deriving DecidableEq, Repr, Inhabited

/-- `ast.CommentBlock` (ast/ast.go:103). -/
abbrev CommentBlock := List Comment

/-- `ast.PluginType` (ast/ast.go:165-179); every integer outside 2..4 prints and
behaves alike and is `undefined`. -/
inductive PluginType | undefined | input | filter | output
deriving DecidableEq, Repr, Inhabited

/-- `ast.StringAttributeType` (ast/ast.go:375-389). -/
inductive Sat | undefined | doubleQuoted | singleQuoted | bareword
deriving DecidableEq, Repr, Inhabited

/-- `ast.StringAttribute` (ast/ast.go:406-412). -/
structure StrAttr where
  start : Pos
  name : Bytes
  value : Bytes
  sat : Sat
  comment : CommentBlock
deriving DecidableEq, Repr, Inhabited

/-- `ast.NumberAttribute` (ast/ast.go:454-459). -/
structure NumAttr where
  start : Pos
  name : Bytes
  value : F64
  comment : CommentBlock
deriving DecidableEq, Repr, Inhabited

/-- `ast.HashEntryKey` (ast/ast.go:624-632): a number or a string attribute. -/
inductive HKey
  | str (a : StrAttr)
  | num (a : NumAttr)
deriving DecidableEq, Repr, Inhabited

mutual
/-- `ast.Attribute` and its five implementations (ast/ast.go:318-342, 406, 454, 502, 568): string,
number, array, hash and plugin attributes, plus the nil interface. -/
inductive Attr
  | nil
  | str (a : StrAttr)
  | num (a : NumAttr)
  | arr (start : Pos) (name : Bytes) (attrs : List Attr) (comment footer : CommentBlock)
  | hash (start : Pos) (name : Bytes) (entries : List HEntry) (comment footer : CommentBlock)
  | plug (start : Pos) (name : Bytes) (value : Plugin) (comment : CommentBlock)
/-- `ast.HashEntry` (ast/ast.go:635-640). -/
inductive HEntry
  | mk (start : Pos) (key : HKey) (value : Attr) (comment : CommentBlock)
/-- `ast.Plugin` (ast/ast.go:249-255). -/
inductive Plugin
  | mk (start : Pos) (name : Bytes) (attrs : List Attr) (comment footer : CommentBlock)
end

instance : Inhabited Attr := ⟨.nil⟩
instance : Inhabited Plugin := ⟨.mk default [] [] [] []⟩
instance : Inhabited HEntry := ⟨.mk default default .nil []⟩

/-- `ast.SelectorElement` (ast/ast.go:1340-1343). -/
structure SelElem where
  start : Pos
  name : Bytes
deriving DecidableEq, Repr, Inhabited

/-- `ast.Selector` (ast/ast.go:1304-1307). -/
structure Selector where
  start : Pos
  elems : List SelElem
deriving DecidableEq, Repr, Inhabited

/-- `ast.Regexp` (ast/ast.go:1238-1241). -/
structure RegexpLit where
  start : Pos
  re : Bytes
deriving DecidableEq, Repr, Inhabited

/-- `ast.Rvalue` (ast/ast.go:1037-1050) and `ast.StringOrRegexp`
(ast/ast.go:1196-1207), whose implementations are a subset of it. -/
inductive Rvalue
  | nil
  | str (a : StrAttr)
  | num (a : NumAttr)
  | sel (s : Selector)
  | arr (start : Pos) (name : Bytes) (attrs : List Attr) (comment footer : CommentBlock)
  | re (r : RegexpLit)
deriving Inhabited

/-- `ast.BooleanOperator.Op` (ast/ast.go:1266-1283). -/
inductive BoolOpKind | undefined | noOp | and | or | xor | nand
deriving DecidableEq, Repr, Inhabited

/-- `ast.BooleanOperator` (ast/ast.go:1261-1264). -/
structure BoolOp where
  op : BoolOpKind
  start : Pos
deriving DecidableEq, Repr, Inhabited

/-- `ast.BoolExpression` (ast/ast.go:893-896), embedded by pointer in every
expression; the pointer is assumed non-nil (all constructors and the parser set
it) and unshared. -/
structure BoolExpr where
  start : Pos
  op : BoolOp
deriving DecidableEq, Repr, Inhabited

/-- `ast.CompareOperator.Op` (ast/ast.go:1119-1139). -/
inductive CmpKind | undefined | eq | ne | le | ge | lt | gt
deriving DecidableEq, Repr, Inhabited

/-- `ast.CompareOperator` (ast/ast.go:1114-1117). -/
structure CmpOp where
  op : CmpKind
  start : Pos
deriving DecidableEq, Repr, Inhabited

/-- `ast.RegexpOperator.Op` (ast/ast.go:1215-1223). -/
inductive ReKind | undefined | match | notMatch
deriving DecidableEq, Repr, Inhabited

/-- `ast.RegexpOperator` (ast/ast.go:1210-1213). -/
structure ReOp where
  op : ReKind
  start : Pos
deriving DecidableEq, Repr, Inhabited

/-- `ast.Expression` and its eight implementations (ast/ast.go:874-890); an
`ast.Condition` (ast/ast.go:848-850) is the list of its expressions. -/
inductive Expr
  | nil
  | cond (start : Pos) (be : BoolExpr) (c : List Expr)
  | negCond (start : Pos) (be : BoolExpr) (c : List Expr)
  | negSel (start : Pos) (be : BoolExpr) (s : Selector)
  | inE (start : Pos) (be : BoolExpr) (l r : Rvalue)
  | notIn (start : Pos) (be : BoolExpr) (l r : Rvalue)
  | rval (start : Pos) (be : BoolExpr) (r : Rvalue)
  | cmp (start : Pos) (be : BoolExpr) (l : Rvalue) (op : CmpOp) (r : Rvalue)
  | re (start : Pos) (be : BoolExpr) (l : Rvalue) (op : ReOp) (r : Rvalue)
deriving Inhabited

/-- `ast.Condition` (ast/ast.go:848-850). -/
abbrev Condition := List Expr

mutual
/-- `ast.BranchOrPlugin` (ast/ast.go:238-246): nil, a `Plugin`, a `*Plugin` (also
in the method set; produced by `lint --auto-fix-id`), or a `Branch`
(ast/ast.go:669-673) whose `IfBlock` (ast/ast.go:700-706) is spelled out. -/
inductive BOP
  | nil
  | plugin (p : Plugin)
  | pluginPtr (p : Plugin)
  | branch (start : Pos) (cond : Condition) (block : List BOP) (comment footer : CommentBlock)
      (elifs : List Elif) (els : ElseB)
/-- `ast.ElseIfBlock` (ast/ast.go:746-752). -/
inductive Elif
  | mk (start : Pos) (cond : Condition) (block : List BOP) (comment footer : CommentBlock)
/-- `ast.ElseBlock` (ast/ast.go:797-802); the zero value means there is no else. -/
inductive ElseB
  | mk (start : Pos) (block : List BOP) (comment footer : CommentBlock)
end

instance : Inhabited BOP := ⟨.nil⟩
instance : Inhabited Elif := ⟨.mk default [] [] [] []⟩
instance : Inhabited ElseB := ⟨.mk default [] [] []⟩

/-- The zero value of `ast.ElseBlock`. -/
def ElseB.zero : ElseB := .mk Pos.zero [] [] []

/-- `ast.PluginSection` (ast/ast.go:196-202). -/
structure Section where
  start : Pos
  ptype : PluginType
  bops : List BOP
  comment : CommentBlock
  footer : CommentBlock
deriving Inhabited

/-- `ast.Config` (ast/ast.go:70-76). -/
structure Config where
  input : List Section
  filter : List Section
  output : List Section
  footer : CommentBlock
  warnings : List Bytes
deriving Inhabited

/-- The zero value of `ast.Config`; also `ast.NewConfig(nil, nil, nil)`
(ast/ast.go:79-85). -/
def Config.empty : Config := ⟨[], [], [], [], []⟩

end Verif
