import Verif.Model.Ast
import Verif.Model.Regex
/-
The `String` / `ValueString` / `Pos` / `ID` methods of package `ast`.
-/
namespace Verif

/-- `Comment.String` (ast/ast.go:130-140). -/
def Comment.str (c : Comment) : Bytes :=
  (if c.spaceBefore then b!"\n" else []) ++ b!"# " ++ c.text ++ b!"\n" ++
    (if c.spaceAfter then b!"\n" else [])

/-- `CommentBlock.String` (ast/ast.go:109-115). -/
def commentsStr (cb : CommentBlock) : Bytes := cb.flatMap Comment.str

/-- `PluginType.String` (ast/ast.go:182-193). -/
def PluginType.str : PluginType → Bytes
  | .input => b!"input"
  | .filter => b!"filter"
  | .output => b!"output"
  | .undefined => b!"undefined plugin type"

/-- `StringAttributeType.String` (ast/ast.go:392-403). -/
def Sat.str : Sat → Bytes
  | .doubleQuoted => [34]
  | .singleQuoted => [39]
  | .bareword => []
  | .undefined => b!"undefined string attribute type"

/-- `StringAttribute.ValueString` (ast/ast.go:434-436). -/
def StrAttr.valueStr (a : StrAttr) : Bytes := a.sat.str ++ a.value ++ a.sat.str

/-- `NumberAttribute.ValueString` (ast/ast.go:480-489). -/
def NumAttr.valueStr (a : NumAttr) : Bytes := numString a.value

/-- `HashEntryKey.ValueString`, i.e. `HashEntry.Name` (ast/ast.go:651-653). -/
def HKey.valueStr : HKey → Bytes
  | .str a => a.valueStr
  | .num a => a.valueStr

/-- `Attribute.CommentBlock` of the five attribute types (ast/ast.go:367,
439, 492, 558, 615). -/
def Attr.commentStr : Attr → Bytes
  | .nil => []
  | .str a => commentsStr a.comment
  | .num a => commentsStr a.comment
  | .arr _ _ _ c _ => commentsStr c
  | .hash _ _ _ c _ => commentsStr c
  | .plug _ _ _ c => commentsStr c

/-- `Attribute.Name` (ast/ast.go:352, 424, 470, 519, 585). -/
def Attr.name : Attr → Bytes
  | .nil => []
  | .str a => a.name
  | .num a => a.name
  | .arr _ n _ _ _ => n
  | .hash _ n _ _ _ => n
  | .plug _ n _ _ => n

/-- Is this the nil interface? -/
def Attr.isNil : Attr → Bool
  | .nil => true
  | _ => false

mutual
/-- `Attribute.ValueString` of the five attribute types (ast/ast.go:362-364,
434-436, 480-489, 529-555, 595-612).  For `nil` the callers that reach it
(`HashEntry.ValueString`, ast/ast.go:661-666) print the empty string. -/
def Attr.valueStr : Attr → Bytes
  | .nil => []
  | .str a => a.valueStr
  | .num a => a.valueStr
  | .arr _ _ attrs _ footer =>
    let ss := arrElems true attrs
    let ss := if ss.isEmpty then ss else ss ++ b!"\n\n"
    b!"[" ++ prefixS (ss ++ commentsStr footer) false ++ b!"]"
  | .hash _ _ entries _ footer =>
    let ss := hashElems entries
    let ss := if ss.isEmpty then ss else ss ++ b!"\n"
    b!"{" ++ prefixS (ss ++ commentsStr footer) false ++ b!"}"
  | .plug _ _ v _ => v.str
/-- The element loop of `ArrayAttribute.ValueString` (ast/ast.go:533-546); the
flag is `first`. -/
def arrElems : Bool → List Attr → Bytes
  | _, [] => []
  | first, a :: as =>
    if a.isNil then arrElems first as
    else (if first then [] else b!",\n") ++ a.commentStr ++ a.valueStr ++ arrElems false as
/-- The entry loop of `HashAttribute.ValueString` (ast/ast.go:600-603), with
`HashEntry.String` (ast/ast.go:656-658) inlined. -/
def hashElems : List HEntry → Bytes
  | [] => []
  | .mk _ k v c :: es =>
    commentsStr c ++ k.valueStr ++ b!" => " ++ v.valueStr ++ b!"\n" ++ hashElems es
/-- `Plugin.String` (ast/ast.go:271-294). -/
def Plugin.str : Plugin → Bytes
  | .mk _ name attrs comment footer =>
    let ss := attrElems attrs
    let ss := if ss.isEmpty then ss else ss ++ b!"\n"
    commentsStr comment ++ name ++ b!" {" ++ prefixS (ss ++ commentsStr footer) false ++ b!"}"
/-- The attribute loop of `Plugin.String` (ast/ast.go:278-286), with the five
`Attribute.String` methods (all `name => value`: ast/ast.go:357, 429, 475, 524, 590)
inlined. -/
def attrElems : List Attr → Bytes
  | [] => []
  | a :: as =>
    if a.isNil then attrElems as
    else a.commentStr ++ a.name ++ b!" => " ++ a.valueStr ++ b!"\n" ++ attrElems as
end

/-- `Attribute.String` (ast/ast.go:357, 429, 475, 524, 590). -/
def Attr.string (a : Attr) : Bytes := a.name ++ b!" => " ++ a.valueStr

/-- `HashEntry.String` (ast/ast.go:656-658). -/
def HEntry.string : HEntry → Bytes
  | .mk _ k v c => commentsStr c ++ k.valueStr ++ b!" => " ++ v.valueStr

/-- `SelectorElement.String` (ast/ast.go:1353-1355). -/
def SelElem.str (e : SelElem) : Bytes := b!"[" ++ e.name ++ b!"]"

/-- `Selector.String` and `Selector.ValueString` (ast/ast.go:1326-1337). -/
def Selector.str (s : Selector) : Bytes := s.elems.flatMap SelElem.str

/-- `Regexp.String` and `Regexp.ValueString` (ast/ast.go:1251-1258). -/
def RegexpLit.str (r : RegexpLit) : Bytes := b!"/" ++ r.re ++ b!"/"

/-- `Rvalue.ValueString` (ast/ast.go:1037-1042); the empty string for nil, which
is what the nil-guarded callers print. -/
def Rvalue.valueStr : Rvalue → Bytes
  | .nil => []
  | .str a => a.valueStr
  | .num a => a.valueStr
  | .sel s => s.str
  | .arr st n as c f => (Attr.arr st n as c f).valueStr
  | .re r => r.str

/-- Is this the nil interface? -/
def Rvalue.isNil : Rvalue → Bool
  | .nil => true
  | _ => false

/-- `BooleanOperator.String` (ast/ast.go:1286-1301). -/
def BoolOpKind.str : BoolOpKind → Bytes
  | .noOp => []
  | .and => b!" and "
  | .or => b!" or "
  | .nand => b!" nand "
  | .xor => b!" xor "
  | .undefined => b!"undefined boolean operator"

/-- `CompareOperator.String` (ast/ast.go:1142-1159). -/
def CmpKind.str : CmpKind → Bytes
  | .eq => b!"=="
  | .ne => b!"!="
  | .le => b!"<="
  | .ge => b!">="
  | .lt => b!"<"
  | .gt => b!">"
  | .undefined => b!"undefined compare operator"

/-- `RegexpOperator.String` (ast/ast.go:1226-1235). -/
def ReKind.str : ReKind → Bytes
  | .match => b!"=~"
  | .notMatch => b!"!~"
  | .undefined => b!"undefined regexp operator"

/-- What `fmt` prints when a `String` method panics with a nil dereference:
`InExpression.String` (ast/ast.go:1000-1002) does not guard against nil values. -/
def fmtPanicked : Bytes :=
  b!"%!v(PANIC=String method: runtime error: invalid memory address or nil pointer dereference)"

mutual
/-- The `String` methods of the eight expression types (ast/ast.go:932-934,
954-956, 976-978, 1000-1002, 1024-1034, 1070-1076, 1101-1111, 1183-1193). -/
def Expr.str : Expr → Bytes
  | .nil => []
  | .cond _ be c => be.op.op.str ++ b!"(" ++ condStr c ++ b!")"
  | .negCond _ be c => be.op.op.str ++ b!"!(" ++ condStr c ++ b!")"
  | .negSel _ be s => be.op.op.str ++ b!"!" ++ s.str
  | .inE _ be l r =>
    if l.isNil || r.isNil then fmtPanicked
    else be.op.op.str ++ l.valueStr ++ b!" in " ++ r.valueStr
  | .notIn _ be l r => be.op.op.str ++ l.valueStr ++ b!" not in " ++ r.valueStr
  | .rval _ be r => be.op.op.str ++ r.valueStr
  | .cmp _ be l op r => be.op.op.str ++ l.valueStr ++ b!" " ++ op.op.str ++ b!" " ++ r.valueStr
  | .re _ be l op r => be.op.op.str ++ l.valueStr ++ b!" " ++ op.op.str ++ b!" " ++ r.valueStr
/-- `Condition.String` (ast/ast.go:860-869); nil expressions print nothing. -/
def condStr : List Expr → Bytes
  | [] => []
  | e :: es => e.str ++ condStr es
end

/-- Is this the nil interface? -/
def BOP.isNil : BOP → Bool
  | .nil => true
  | _ => false

mutual
/-- `fmt.Sprintf("%v", bop)`: `Plugin.String` or `Branch.String`
(ast/ast.go:689-697) with `IfBlock.String` (ast/ast.go:717-743) inlined. -/
def BOP.str : BOP → Bytes
  | .nil => []
  | .plugin p => p.str
  | .pluginPtr p => p.str
  | .branch _ cond block comment footer elifs els =>
    commentsStr comment ++ b!"if " ++ condStr cond ++ b!" {" ++
      prefixS (let ss := bopElems true block
        (if ss.isEmpty then ss else ss ++ b!"\n") ++ commentsStr footer) true ++ b!"}" ++
      elifsStr elifs ++ els.str
/-- The block loop shared by `PluginSection.String` (ast/ast.go:220-235),
`IfBlock.String` (:722-734), `ElseIfBlock.String` (:773-785) and
`ElseBlock.String` (:825-837).  The flag says whether the buffer is still
empty (`s.Len() == 0`); every printed element is non-empty. -/
def bopElems : Bool → List BOP → Bytes
  | _, [] => []
  | first, b :: bs =>
    if b.isNil then bopElems first bs
    else (if first then [] else b!"\n") ++ b.str ++ b!"\n" ++ bopElems false bs
/-- The loop over else-if blocks (ast/ast.go:692-694). -/
def elifsStr : List Elif → Bytes
  | [] => []
  | e :: es => e.str ++ elifsStr es
/-- `ElseIfBlock.String` (ast/ast.go:763-794). -/
def Elif.str : Elif → Bytes
  | .mk _ cond block comment footer =>
    (if comment.isEmpty then b!" " else b!"\n" ++ commentsStr comment) ++
      b!"else if " ++ condStr cond ++ b!" {" ++
      prefixS (let ss := bopElems true block
        (if ss.isEmpty then ss else ss ++ b!"\n") ++ commentsStr footer) true ++ b!"}"
/-- `ElseBlock.String` (ast/ast.go:812-845). -/
def ElseB.str : ElseB → Bytes
  | .mk _ block comment footer =>
    if block.isEmpty && comment.isEmpty && footer.isEmpty then []
    else
      (if comment.isEmpty then b!" " else b!"\n" ++ commentsStr comment) ++
        b!"else {" ++
        prefixS (let ss := bopElems true block
          (if ss.isEmpty then ss else ss ++ b!"\n") ++ commentsStr footer) true ++ b!"}"
end

/-- `PluginSection.String` (ast/ast.go:220-235). -/
def Section.str (s : Section) : Bytes := bopElems true s.bops

/-- `pluginSectionString` (ast/ast.go:142-161), the loop: `c0` is
`ps[0].CommentBlock`, printed before *every* section. -/
def sectionsLoop (pt : Bytes) (c0 : CommentBlock) : List Section → Bytes
  | [] => []
  | p :: ps =>
    commentsStr c0 ++ pt ++ b!" {" ++ prefixS p.str false ++
      prefixS (commentsStr p.footer) false ++ b!"}\n" ++
      (if ps.isEmpty then [] else b!"\n") ++ sectionsLoop pt c0 ps

/-- `pluginSectionString` (ast/ast.go:142-161). -/
def sectionsStr (pt : Bytes) : List Section → Bytes
  | [] => []
  | p :: ps => sectionsLoop pt p.comment (p :: ps)

/-- `Config.String` (ast/ast.go:88-99). -/
def Config.str (c : Config) : Bytes :=
  sectionsStr b!"input" c.input ++ sectionsStr b!"filter" c.filter ++
    sectionsStr b!"output" c.output ++ commentsStr c.footer

/-! ### Positions -/

/-- `Expression.Pos` (ast/ast.go:54-62); a nil interface has no position (the Go
code would panic), modelled as `none`. -/
def Expr.pos : Expr → Option Pos
  | .nil => none
  | .cond p _ _ => some p
  | .negCond p _ _ => some p
  | .negSel p _ _ => some p
  | .inE p _ _ _ => some p
  | .notIn p _ _ _ => some p
  | .rval p _ _ => some p
  | .cmp p _ _ _ _ => some p
  | .re p _ _ _ _ => some p

/-- `Condition.Pos` (ast/ast.go:47-52). -/
def condPos (c : Condition) : Option Pos :=
  match c with
  | [] => some invalidPos
  | e :: _ => e.pos

/-- `HashEntry.Pos` (ast/ast.go:42): the position of the key. -/
def HEntry.pos : HEntry → Pos
  | .mk _ (.str a) _ _ => a.start
  | .mk _ (.num a) _ _ => a.start

/-! ### Plugin.Name and Plugin.ID -/

/-- `Plugin.Name` (ast/ast.go:266-268). -/
def Plugin.name : Plugin → Bytes
  | .mk _ n _ _ _ => n

/-- The attributes of a plugin. -/
def Plugin.attrs : Plugin → List Attr
  | .mk _ _ a _ _ => a

/-- The result of `Plugin.ID`: the id, the not-found error, or the wrong-type
error. -/
inductive IdResult
  | id (v : Bytes)
  | notFound (msg : Bytes)
  | notString (msg : Bytes)
deriving DecidableEq, Repr

/-- The loop of `Plugin.ID` (ast/ast.go:304-313). -/
def idLoop : List Attr → Option IdResult
  | [] => none
  | a :: as =>
    if !a.isNil && a.name == b!"id" then
      match a with
      | .str s => some (.id s.value)
      | _ => some (.notString b!"attribut id is not of type string attribute")
    else idLoop as

/-- `Plugin.ID` (ast/ast.go:303-315). -/
def Plugin.id (p : Plugin) : IdResult :=
  match idLoop p.attrs with
  | some r => r
  | none => .notFound (b!"not found: plugin " ++ p.name ++ b!" does not contain an id attribute")

end Verif
