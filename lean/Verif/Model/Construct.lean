import Verif.Model.Ast
import Verif.Model.Print
/-
The constructors of package `ast` (ast/ast.go).  Fields that a constructor does not set are zero: positions, comments,
warnings.  A variadic parameter is a list; nil and empty slices are not distinguished.  A method of an interface takes
the struct a constructor returns: here the constructor of the sum type is applied (`.str`, `.num`, `.plugin`, …).
-/
namespace Verif.New
open Verif

/-- `NewConfig` (ast/ast.go:79-85). -/
def config (input filter output : List Section) : Config := ⟨input, filter, output, [], []⟩

/-- `NewCommentBlock` (ast/ast.go:105-107). -/
def commentBlock (comments : List Comment) : CommentBlock := comments

/-- `NewComment` (ast/ast.go:123-128). -/
def comment (text : Bytes) (space : Bool) : Comment := ⟨text, space, false⟩

/-- `NewPluginSection` (ast/ast.go:205-210). -/
def pluginSection (pt : PluginType) (bops : List BOP) : Section := ⟨Pos.zero, pt, bops, [], []⟩

/-- `NewPluginSections` (ast/ast.go:213-217). -/
def pluginSections (pt : PluginType) (bops : List BOP) : List Section := [pluginSection pt bops]

/-- `NewPlugin` (ast/ast.go:258-263). -/
def plugin (name : Bytes) (attributes : List Attr) : Plugin := .mk Pos.zero name attributes [] []

/-- `NewPluginAttribute` (ast/ast.go:344-349). -/
def pluginAttribute (name : Bytes) (value : Plugin) : Attr := .plug Pos.zero name value []

/-- `NewStringAttribute` (ast/ast.go:415-421). -/
def stringAttribute (name value : Bytes) (sat : Sat) : StrAttr := ⟨Pos.zero, name, value, sat, []⟩

/-- `NewNumberAttribute` (ast/ast.go:462-467). -/
def numberAttribute (name : Bytes) (value : F64) : NumAttr := ⟨Pos.zero, name, value, []⟩

/-- `NewArrayAttribute` (ast/ast.go:511-516), as an attribute. -/
def arrayAttribute (name : Bytes) (value : List Attr) : Attr := .arr Pos.zero name value [] []

/-- `NewArrayAttribute` (ast/ast.go:511-516), as a value in a condition. -/
def arrayRvalue (name : Bytes) (value : List Attr) : Rvalue := .arr Pos.zero name value [] []

/-- `NewHashAttribute` (ast/ast.go:577-582). -/
def hashAttribute (name : Bytes) (entries : List HEntry) : Attr := .hash Pos.zero name entries [] []

/-- `NewHashEntry` (ast/ast.go:643-648). -/
def hashEntry (key : HKey) (value : Attr) : HEntry := .mk Pos.zero key value []

/-- `ast.IfBlock` (ast/ast.go:700-706). -/
structure IfBlock where
  start : Pos
  cond : Condition
  block : List BOP
  comment : CommentBlock
  footer : CommentBlock

/-- `IfBlock.String` (ast/ast.go:717-743), which `BOP.str` has inlined. -/
def IfBlock.string (i : IfBlock) : Bytes :=
  commentsStr i.comment ++ b!"if " ++ condStr i.cond ++ b!" {" ++
    prefixS (let ss := bopElems true i.block
      (if ss.isEmpty then ss else ss ++ b!"\n") ++ commentsStr i.footer) true ++ b!"}"

/-- `NewIfBlock` (ast/ast.go:709-714). -/
def ifBlock (condition : Condition) (block : List BOP) : IfBlock := ⟨Pos.zero, condition, block, [], []⟩

/-- `NewElseIfBlock` (ast/ast.go:755-760). -/
def elseIfBlock (condition : Condition) (block : List BOP) : Elif := .mk Pos.zero condition block [] []

/-- `NewElseBlock` (ast/ast.go:805-809). -/
def elseBlock (block : List BOP) : ElseB := .mk Pos.zero block [] []

/-- `NewBranch` (ast/ast.go:678-684), with the fields of the if block in place of the field `IfBlock`. -/
def branch (i : IfBlock) (e : ElseB) (elifs : List Elif) : BOP := .branch i.start i.cond i.block i.comment i.footer elifs e

/-- `NewCondition` (ast/ast.go:853-857). -/
def condition (expression : List Expr) : Condition := expression

/-- `&BoolExpression{boolOperator: boolOperator}` (ast/ast.go:893-896). -/
def boolExpr (b : BoolOp) : BoolExpr := ⟨Pos.zero, b⟩

/-- `NewConditionExpression` (ast/ast.go:922-929). -/
def conditionExpression (b : BoolOp) (c : Condition) : Expr := .cond Pos.zero (boolExpr b) c

/-- `NewNegativeConditionExpression` (ast/ast.go:944-951). -/
def negativeConditionExpression (b : BoolOp) (c : Condition) : Expr := .negCond Pos.zero (boolExpr b) c

/-- `NewNegativeSelectorExpression` (ast/ast.go:966-973). -/
def negativeSelectorExpression (b : BoolOp) (s : Selector) : Expr := .negSel Pos.zero (boolExpr b) s

/-- `NewInExpression` (ast/ast.go:989-997). -/
def inExpression (b : BoolOp) (l r : Rvalue) : Expr := .inE Pos.zero (boolExpr b) l r

/-- `NewNotInExpression` (ast/ast.go:1013-1021). -/
def notInExpression (b : BoolOp) (l r : Rvalue) : Expr := .notIn Pos.zero (boolExpr b) l r

/-- `NewRvalueExpression` (ast/ast.go:1060-1067). -/
def rvalueExpression (b : BoolOp) (r : Rvalue) : Expr := .rval Pos.zero (boolExpr b) r

/-- `NewCompareExpression` (ast/ast.go:1089-1098). -/
def compareExpression (b : BoolOp) (l : Rvalue) (o : CmpOp) (r : Rvalue) : Expr := .cmp Pos.zero (boolExpr b) l o r

/-- `NewRegexpExpression` (ast/ast.go:1171-1180). -/
def regexpExpression (b : BoolOp) (l : Rvalue) (o : ReOp) (r : Rvalue) : Expr := .re Pos.zero (boolExpr b) l o r

/-- `NewRegexp` (ast/ast.go:1244-1248). -/
def regexp (re : Bytes) : RegexpLit := ⟨Pos.zero, re⟩

/-- `NewSelectorElement` (ast/ast.go:1346-1350). -/
def selectorElement (name : Bytes) : SelElem := ⟨Pos.zero, name⟩

/-- `NewSelector` (ast/ast.go:1310-1314). -/
def selector (elements : List SelElem) : Selector := ⟨Pos.zero, elements⟩

/-- `NewSelectorFromNames` (ast/ast.go:1317-1323). -/
def selectorFromNames (names : List Bytes) : Selector :=
  selector (names.foldl (fun elements name => elements ++ [selectorElement name]) [])

end Verif.New
