import Verif.Model.Ast
import Verif.Model.Float
import Verif.Spec.Token
/-
Concrete syntax trees: the documented language of configuration files, independent of the
parser.  A tree records every token and every gap (whitespace and comments) of a file.

* `text`: the file, byte for byte;
* `ast`: the configuration it denotes, with all positions zero and without warnings
  (`ign` says that comments are to be left out);
* `Ok`: the tree is a sentence of the grammar, i.e. tokens are spelled as they must be and gaps
  consist of whitespace and comments.
-/
namespace Verif.Spec
open Verif

/-! ### Characters -/

/-- Blank, tab, carriage return, newline. -/
def isWs (c : UInt8) : Bool := c = 32 || c = 9 || c = 13 || c = 10
/-- ASCII digit. -/
def isDigit (c : UInt8) : Bool := 48 ≤ c && c ≤ 57
/-- ASCII letter. -/
def isLetter (c : UInt8) : Bool := (65 ≤ c && c ≤ 90) || (97 ≤ c && c ≤ 122)
/-- Characters of plugin and attribute names: `[_-A-Za-z0-9]`. -/
def isNameChar (c : UInt8) : Bool := c = 95 || c = 45 || isLetter c || isDigit c
/-- First character of a bareword: `[_A-Za-z]`. -/
def isWordStart (c : UInt8) : Bool := c = 95 || isLetter c
/-- Further characters of a bareword: `[_A-Za-z0-9]`. -/
def isWordChar (c : UInt8) : Bool := c = 95 || isLetter c || isDigit c
/-- Characters of a field reference: everything but `[`, `]` and `,`. -/
def isSelChar (c : UInt8) : Bool := c != 91 && c != 93 && c != 44

/-! ### Gaps -/

/-- One comment line: blanks, `#`, the text, an optional carriage return and the newline
(which may be missing at the end of the file only). -/
structure CommentLine where
  ws : Bytes
  body : Bytes
  cr : Bool
  lf : Bool
deriving DecidableEq, Repr, Inhabited

namespace CommentLine
/-- The bytes of the line. -/
def text (l : CommentLine) : Bytes :=
  l.ws ++ 35 :: l.body ++ (if l.cr then [13] else []) ++ (if l.lf then [10] else [])
/-- Well-formed, except that the newline may be missing. -/
def OkEnd (l : CommentLine) : Prop :=
  l.ws.all isWs = true ∧ l.body.all (fun c => c != 13 && c != 10) = true
/-- Well-formed. -/
def Ok (l : CommentLine) : Prop := l.OkEnd ∧ l.lf = true
/-- The comment in the AST. -/
def comment (l : CommentLine) (space : Bool) : Comment := ⟨trim 32 l.body, space, false⟩
end CommentLine

/-- A gap: comment lines followed by whitespace. -/
structure Gap where
  lines : List CommentLine
  tail : Bytes
deriving DecidableEq, Repr, Inhabited

/-- Does the whitespace in front of the first comment of a gap count as a blank line?  Leading
newlines do not; after them two newlines are needed. -/
def blankBeforeFirst (ws : Bytes) : Bool :=
  2 ≤ (((ws.filter (· != 13)).dropWhile (· == 10)).count 10)

/-- Mark the first comment of a block: blank line before it, or not. -/
def markFirst (b : Bool) : List Comment → List Comment
  | [] => []
  | c :: cs => { c with spaceBefore := b } :: cs

/-- Mark the last comment of a block: blank line after it. -/
def markLast : List Comment → List Comment
  | [] => []
  | [c] => [{ c with spaceAfter := true }]
  | c :: d :: cs => c :: markLast (d :: cs)

namespace Gap
/-- The empty gap. -/
def empty : Gap := ⟨[], []⟩
/-- A single blank. -/
def blank : Gap := ⟨[], [32]⟩
/-- The bytes of the gap. -/
def text (g : Gap) : Bytes := g.lines.flatMap CommentLine.text ++ g.tail
/-- Well-formed. -/
def Ok (g : Gap) : Prop := (∀ l ∈ g.lines, l.Ok) ∧ g.tail.all isWs = true
/-- Well-formed at the end of the file: the newline of the last comment may be missing. -/
def OkEnd (g : Gap) : Prop :=
  g.Ok ∨ ∃ ls l, g = ⟨ls ++ [l], []⟩ ∧ (∀ l ∈ ls, l.Ok) ∧ l.OkEnd ∧ l.lf = false
/-- The comments of the gap; a comment that is not the first is preceded by a blank line when a
newline occurs in front of it. -/
def comments (g : Gap) : List Comment :=
  match g.lines with
  | [] => []
  | l :: ls => l.comment (blankBeforeFirst l.ws) :: ls.map fun l => l.comment (l.ws.contains 10)
/-- The comment block the gap denotes.  `before`: the first comment always counts as preceded by
a blank line; `after`: whitespace after the last comment counts as a blank line. -/
def block (ign : Bool) (g : Gap) (before after : Bool) : CommentBlock :=
  if ign then []
  else
    let cs := if before then markFirst true g.comments else g.comments
    if after && !g.tail.isEmpty then markLast cs else cs
end Gap

/-! ### Tokens -/

/-- A string literal: how it is quoted and what stands between the quotes. -/
structure StrLit where
  sat : Sat
  body : Bytes
deriving DecidableEq, Repr, Inhabited

namespace StrLit
/-- The quotes. -/
def quote : Sat → Bytes
  | .doubleQuoted => [34]
  | .singleQuoted => [39]
  | _ => []
/-- The bytes of the literal. -/
def text (s : StrLit) : Bytes := quote s.sat ++ s.body ++ quote s.sat
/-- A well-formed quoted string. -/
def Quoted (s : StrLit) : Prop :=
  (s.sat = .doubleQuoted ∧ StringBody 34 s.body) ∨ (s.sat = .singleQuoted ∧ StringBody 39 s.body)
/-- A well-formed name of a plugin or attribute. -/
def Name (s : StrLit) : Prop :=
  (s.sat = .bareword ∧ s.body ≠ [] ∧ s.body.all isNameChar = true) ∨ s.Quoted
/-- A well-formed string value: a quoted string or a bareword of at least two characters. -/
def Value (s : StrLit) : Prop :=
  (s.sat = .bareword ∧ ∃ c r, s.body = c :: r ∧ isWordStart c = true ∧ r ≠ [] ∧ r.all isWordChar = true) ∨
    s.Quoted
/-- The attribute it denotes. -/
def ast (s : StrLit) : StrAttr := ⟨Pos.zero, [], s.body, s.sat, []⟩
end StrLit

/-- A number token: optional sign, digits, optional fraction. -/
def NumTok (t : Bytes) : Prop :=
  ∃ s d f : Bytes, t = s ++ d ++ f ∧ (s = [] ∨ s = [45]) ∧ d ≠ [] ∧ d.all isDigit = true ∧
    (f = [] ∨ ∃ f', f = 46 :: f' ∧ f'.all isDigit = true)

/-- A number token whose value is representable. -/
def NumOk (t : Bytes) : Prop := NumTok t ∧ (parseFloat t).isSome = true

/-- The number attribute a token denotes. -/
def numAst (t : Bytes) : NumAttr := ⟨Pos.zero, [], (parseFloat t).getD default, []⟩

/-! ### Values, plugins -/

mutual
/-- A value: string, number, array, hash, or plugin. -/
inductive CVal
  | str (s : StrLit)
  | num (t : Bytes)
  | arr (elems : List CElem) (foot : Gap)
  | hash (entries : List CEntry) (foot : Gap)
  | plug (p : CPlugin)
/-- An array element: the gap before the comma (not for the first element), the gap after it, the
value. -/
inductive CElem
  | mk (pre com : Gap) (v : CVal)
/-- A hash entry: whitespace separating it from the previous entry (not for the first), gap, key,
gap, `=>`, gap, value. -/
inductive CEntry
  | mk (sep : Bytes) (com : Gap) (key : CKey) (g1 g2 : Gap) (v : CVal)
/-- A hash key. -/
inductive CKey
  | str (s : StrLit)
  | num (t : Bytes)
/-- A plugin: name, gap, `{`, attributes, gap, `}`. -/
inductive CPlugin
  | mk (name : StrLit) (g : Gap) (attrs : List CAttr) (foot : Gap)
/-- An attribute: whitespace separating it from the previous one (not for the first), gap, name,
gap, `=>`, gap, value. -/
inductive CAttr
  | mk (sep : Bytes) (com : Gap) (name : StrLit) (g1 g2 : Gap) (v : CVal)
end

instance : Inhabited CVal := ⟨.num []⟩

/-- Is the value a plugin? -/
def CVal.isPlug : CVal → Bool
  | .plug _ => true
  | _ => false

/-- The bytes of a hash key. -/
def CKey.text : CKey → Bytes
  | .str s => s.text
  | .num t => t

/-- The key in the AST. -/
def CKey.ast : CKey → HKey
  | .str s => .str s.ast
  | .num t => .num (numAst t)

/-- Well-formed key: a bareword, a quoted string or a number. -/
def CKey.Ok : CKey → Prop
  | .str s => s.Value
  | .num t => NumOk t

mutual
/-- The bytes of a value. -/
def CVal.text : CVal → Bytes
  | .str s => s.text
  | .num t => t
  | .arr elems foot => b!"[" ++ elemsText true elems ++ foot.text ++ b!"]"
  | .hash entries foot => b!"{" ++ entriesText true entries ++ foot.text ++ b!"}"
  | .plug p => p.text
/-- The bytes of the elements of an array; the flag marks the first. -/
def elemsText : Bool → List CElem → Bytes
  | _, [] => []
  | first, .mk pre com v :: r =>
    (if first then [] else pre.text ++ b!",") ++ com.text ++ v.text ++ elemsText false r
/-- The bytes of the entries of a hash. -/
def entriesText : Bool → List CEntry → Bytes
  | _, [] => []
  | first, .mk sep com k g1 g2 v :: r =>
    (if first then [] else sep) ++ com.text ++ k.text ++ g1.text ++ b!"=>" ++ g2.text ++ v.text ++
      entriesText false r
/-- The bytes of a plugin. -/
def CPlugin.text : CPlugin → Bytes
  | .mk name g attrs foot =>
    name.text ++ g.text ++ b!"{" ++ attrsText true attrs ++ foot.text ++ b!"}"
/-- The bytes of the attributes of a plugin. -/
def attrsText : Bool → List CAttr → Bytes
  | _, [] => []
  | first, .mk sep com n g1 g2 v :: r =>
    (if first then [] else sep) ++ com.text ++ n.text ++ g1.text ++ b!"=>" ++ g2.text ++ v.text ++
      attrsText false r
end

/-- Give an attribute a name. -/
def withName (n : Bytes) : Attr → Attr
  | .str a => .str { a with name := n }
  | .num a => .num { a with name := n }
  | .arr p _ as c f => .arr p n as c f
  | .hash p _ es c f => .hash p n es c f
  | .plug p _ v c => .plug p n v c
  | .nil => .nil

/-- Give an attribute a comment block. -/
def withComment (c : CommentBlock) : Attr → Attr
  | .str a => .str { a with comment := c }
  | .num a => .num { a with comment := c }
  | .arr p n as _ f => .arr p n as c f
  | .hash p n es _ f => .hash p n es c f
  | .plug p n v _ => .plug p n v c
  | .nil => .nil

mutual
/-- The attribute a value denotes (without a name). -/
def CVal.ast (ign : Bool) : CVal → Attr
  | .str s => .str s.ast
  | .num t => .num (numAst t)
  | .arr elems foot => .arr Pos.zero [] (elemsAst ign true elems) [] (foot.block ign false false)
  | .hash entries foot => .hash Pos.zero [] (entriesAst ign true entries) [] (foot.block ign false false)
  | .plug p => .plug Pos.zero [] (p.ast ign []) []
/-- The elements of an array.  A plugin can only be the first element, and is dropped. -/
def elemsAst (ign : Bool) : Bool → List CElem → List Attr
  | _, [] => []
  | first, .mk _ com v :: r =>
    if v.isPlug then elemsAst ign false r
    else withComment (com.block ign (!first) false) (v.ast ign) :: elemsAst ign false r
/-- The entries of a hash. -/
def entriesAst (ign : Bool) : Bool → List CEntry → List HEntry
  | _, [] => []
  | first, .mk _ com k _ _ v :: r =>
    .mk Pos.zero k.ast (v.ast ign) (markFirst (!first) (com.block ign true false)) ::
      entriesAst ign false r
/-- A plugin with its comment block. -/
def CPlugin.ast (ign : Bool) (comment : CommentBlock) : CPlugin → Plugin
  | .mk name _ attrs foot =>
    .mk Pos.zero name.text (attrsAst ign true attrs) comment (foot.block ign false false)
/-- The attributes of a plugin. -/
def attrsAst (ign : Bool) : Bool → List CAttr → List Attr
  | _, [] => []
  | first, .mk _ com n _ _ v :: r =>
    withComment (com.block ign (!first) false) (withName n.text (v.ast ign)) :: attrsAst ign false r
end

/-- Separating whitespace: at least one character. -/
def SepOk (sep : Bytes) (com : Gap) : Prop :=
  sep ≠ [] ∧ sep.all isWs = true ∧
    match com.lines with
    | [] => com.tail = []
    | l :: _ => l.ws = []

mutual
/-- A well-formed value. -/
def CVal.Ok : CVal → Prop
  | .str s => s.Value
  | .num t => NumOk t
  | .arr elems foot => elemsOk true elems ∧ foot.Ok
  | .hash entries foot => entriesOk true entries ∧ foot.Ok
  | .plug p => p.Ok
/-- Well-formed array elements; only the first can be a plugin. -/
def elemsOk : Bool → List CElem → Prop
  | _, [] => True
  | first, .mk pre com v :: r =>
    pre.Ok ∧ com.Ok ∧ v.Ok ∧ (first = false → v.isPlug = false) ∧ elemsOk false r
/-- Well-formed hash entries; a value cannot be a plugin. -/
def entriesOk : Bool → List CEntry → Prop
  | _, [] => True
  | first, .mk sep com k g1 g2 v :: r =>
    (first = false → SepOk sep com) ∧ com.Ok ∧ k.Ok ∧ g1.Ok ∧ g2.Ok ∧ v.Ok ∧ v.isPlug = false ∧
      entriesOk false r
/-- A well-formed plugin. -/
def CPlugin.Ok : CPlugin → Prop
  | .mk name g attrs foot => name.Name ∧ g.Ok ∧ attrsOk true attrs ∧ foot.Ok
/-- Well-formed attributes. -/
def attrsOk : Bool → List CAttr → Prop
  | _, [] => True
  | first, .mk sep com n g1 g2 v :: r =>
    (first = false → SepOk sep com) ∧ com.Ok ∧ n.Name ∧ g1.Ok ∧ g2.Ok ∧ v.Ok ∧ attrsOk false r
end

/-! ### Conditions -/

/-- A value in a condition: string, number, field reference, array, regular expression. -/
inductive CRval
  | str (s : StrLit)
  | num (t : Bytes)
  | sel (names : List Bytes)
  | arr (elems : List CElem) (foot : Gap)
  | re (body : Bytes)

/-- The text starts like a field reference: `[`, at least one character other than `[`, `]`, `,`,
and `]`. -/
def SelLike (b : Bytes) : Prop :=
  ∃ n r, b = 91 :: n ++ 93 :: r ∧ n ≠ [] ∧ n.all isSelChar = true

/-- The bytes of a field reference. -/
def selText (names : List Bytes) : Bytes := names.flatMap fun n => b!"[" ++ n ++ b!"]"

/-- A well-formed field reference. -/
def SelOk (names : List Bytes) : Prop :=
  names ≠ [] ∧ ∀ n ∈ names, n ≠ [] ∧ n.all isSelChar = true

/-- The field reference in the AST. -/
def selAst (names : List Bytes) : Selector := ⟨Pos.zero, names.map fun n => ⟨Pos.zero, n⟩⟩

namespace CRval
/-- The bytes. -/
def text : CRval → Bytes
  | .str s => s.text
  | .num t => t
  | .sel names => selText names
  | .arr elems foot => (CVal.arr elems foot).text
  | .re body => b!"/" ++ body ++ b!"/"
/-- The value in the AST. -/
def ast (ign : Bool) : CRval → Rvalue
  | .str s => .str s.ast
  | .num t => .num (numAst t)
  | .sel names => .sel (selAst names)
  | .arr elems foot => .arr Pos.zero [] (elemsAst ign true elems) [] (foot.block ign false false)
  | .re body => .re ⟨Pos.zero, body⟩
/-- Well-formed; an array must not start like a field reference. -/
def Ok : CRval → Prop
  | .str s => s.Quoted
  | .num t => NumOk t
  | .sel names => SelOk names
  | .arr elems foot => (CVal.arr elems foot).Ok ∧ ¬ SelLike (CVal.arr elems foot).text
  | .re body => StringBody 47 body
end CRval

/-- The spelling of comparison operators. -/
def cmpText : CmpKind → Bytes
  | .eq => b!"==" | .ne => b!"!=" | .le => b!"<=" | .ge => b!">=" | .lt => b!"<" | .gt => b!">"
  | .undefined => []

/-- The spelling of regexp operators. -/
def reText : ReKind → Bytes
  | .match => b!"=~" | .notMatch => b!"!~" | .undefined => []

/-- The spelling of boolean operators. -/
def boolText : BoolOpKind → Bytes
  | .and => b!"and" | .or => b!"or" | .xor => b!"xor" | .nand => b!"nand" | .noOp => [] | .undefined => []

mutual
/-- An expression. -/
inductive CExpr
  | paren (g1 : Gap) (c : CCond) (g2 : Gap)
  | notParen (g0 g1 : Gap) (c : CCond) (g2 : Gap)
  | notSel (g : Gap) (names : List Bytes)
  | inE (l : CRval) (g1 g2 : Gap) (r : CRval)
  | notIn (l : CRval) (g1 g2 g3 : Gap) (r : CRval)
  | cmp (l : CRval) (g1 : Gap) (op : CmpKind) (g2 : Gap) (r : CRval)
  | re (l : CRval) (g1 : Gap) (op : ReKind) (g2 : Gap) (r : CRval)
  | rval (r : CRval)
/-- A condition: expressions joined by boolean operators. -/
inductive CCond
  | mk (e : CExpr) (more : List CMore)
/-- A boolean operator and the expression after it. -/
inductive CMore
  | mk (g1 : Gap) (op : BoolOpKind) (g2 : Gap) (e : CExpr)
end

mutual
/-- The bytes of an expression. -/
def CExpr.text : CExpr → Bytes
  | .paren g1 c g2 => b!"(" ++ g1.text ++ c.text ++ g2.text ++ b!")"
  | .notParen g0 g1 c g2 => b!"!" ++ g0.text ++ b!"(" ++ g1.text ++ c.text ++ g2.text ++ b!")"
  | .notSel g names => b!"!" ++ g.text ++ selText names
  | .inE l g1 g2 r => l.text ++ g1.text ++ b!"in" ++ g2.text ++ r.text
  | .notIn l g1 g2 g3 r =>
    l.text ++ g1.text ++ b!"not " ++ g2.text ++ b!"in" ++ g3.text ++ r.text
  | .cmp l g1 op g2 r => l.text ++ g1.text ++ cmpText op ++ g2.text ++ r.text
  | .re l g1 op g2 r => l.text ++ g1.text ++ reText op ++ g2.text ++ r.text
  | .rval r => r.text
/-- The bytes of a condition. -/
def CCond.text : CCond → Bytes
  | .mk e more => e.text ++ moreText more
/-- The bytes of the further expressions. -/
def moreText : List CMore → Bytes
  | [] => []
  | .mk g1 op g2 e :: r => g1.text ++ boolText op ++ g2.text ++ e.text ++ moreText r
end

/-- The operator an expression is joined with. -/
def joined (op : BoolOpKind) : BoolExpr := ⟨Pos.zero, ⟨op, Pos.zero⟩⟩

mutual
/-- The expression in the AST, joined with operator `op`. -/
def CExpr.ast (ign : Bool) (op : BoolOpKind) : CExpr → Expr
  | .paren _ c _ => .cond Pos.zero (joined op) (c.ast ign)
  | .notParen _ _ c _ => .negCond Pos.zero (joined op) (c.ast ign)
  | .notSel _ names => .negSel Pos.zero (joined op) (selAst names)
  | .inE l _ _ r => .inE Pos.zero (joined op) (l.ast ign) (r.ast ign)
  | .notIn l _ _ _ r => .notIn Pos.zero (joined op) (l.ast ign) (r.ast ign)
  | .cmp l _ k _ r => .cmp Pos.zero (joined op) (l.ast ign) ⟨k, Pos.zero⟩ (r.ast ign)
  | .re l _ k _ r => .re Pos.zero (joined op) (l.ast ign) ⟨k, Pos.zero⟩ (r.ast ign)
  | .rval r => .rval Pos.zero (joined op) (r.ast ign)
/-- The condition in the AST. -/
def CCond.ast (ign : Bool) : CCond → Condition
  | .mk e more => e.ast ign .noOp :: moreAst ign more
/-- The further expressions. -/
def moreAst (ign : Bool) : List CMore → List Expr
  | [] => []
  | .mk _ op _ e :: r => e.ast ign op :: moreAst ign r
end

/-- A string or a regular expression. -/
def CRval.IsPattern : CRval → Prop
  | .str _ => True
  | .re _ => True
  | _ => False

mutual
/-- A well-formed expression. -/
def CExpr.Ok : CExpr → Prop
  | .paren g1 c g2 => g1.Ok ∧ c.Ok ∧ g2.Ok
  | .notParen g0 g1 c g2 => g0.Ok ∧ g1.Ok ∧ c.Ok ∧ g2.Ok
  | .notSel g names => g.Ok ∧ SelOk names
  | .inE l g1 g2 r => l.Ok ∧ g1.Ok ∧ g2.Ok ∧ r.Ok
  | .notIn l g1 g2 g3 r => l.Ok ∧ g1.Ok ∧ g2.Ok ∧ g3.Ok ∧ r.Ok
  | .cmp l g1 op g2 r => l.Ok ∧ g1.Ok ∧ op ≠ .undefined ∧ g2.Ok ∧ r.Ok
  | .re l g1 op g2 r => l.Ok ∧ g1.Ok ∧ op ≠ .undefined ∧ g2.Ok ∧ r.Ok ∧ r.IsPattern
  | .rval r => r.Ok
/-- A well-formed condition. -/
def CCond.Ok : CCond → Prop
  | .mk e more => e.Ok ∧ moreOk more
/-- Well-formed further expressions. -/
def moreOk : List CMore → Prop
  | [] => True
  | .mk g1 op g2 e :: r => g1.Ok ∧ (op ≠ .undefined ∧ op ≠ .noOp) ∧ g2.Ok ∧ e.Ok ∧ moreOk r
end

/-! ### Blocks, sections, files -/

mutual
/-- An element of a block: a plugin, or a branch, with the gap in front of it. -/
inductive CItem
  | plugin (com : Gap) (p : CPlugin)
  | branch (com g1 : Gap) (c : CCond) (g2 : Gap) (items : List CItem) (foot : Gap)
      (elifs : List CElif) (els : CElse)
/-- An else-if block. -/
inductive CElif
  | mk (com g0 g1 : Gap) (c : CCond) (g2 : Gap) (items : List CItem) (foot : Gap)
/-- An optional else block. -/
inductive CElse
  | none
  | mk (com g : Gap) (items : List CItem) (foot : Gap)
end

mutual
/-- The bytes of a block element. -/
def CItem.text : CItem → Bytes
  | .plugin com p => com.text ++ p.text
  | .branch com g1 c g2 items foot elifs els =>
    com.text ++ b!"if" ++ g1.text ++ c.text ++ g2.text ++ b!"{" ++ itemsText items ++ foot.text ++ b!"}" ++
      elifsText elifs ++ els.text
/-- The bytes of a block. -/
def itemsText : List CItem → Bytes
  | [] => []
  | i :: r => i.text ++ itemsText r
/-- The bytes of the else-if blocks. -/
def elifsText : List CElif → Bytes
  | [] => []
  | .mk com g0 g1 c g2 items foot :: r =>
    com.text ++ b!"else" ++ g0.text ++ b!"if" ++ g1.text ++ c.text ++ g2.text ++ b!"{" ++ itemsText items ++
      foot.text ++ b!"}" ++ elifsText r
/-- The bytes of the else block. -/
def CElse.text : CElse → Bytes
  | .none => []
  | .mk com g items foot =>
    com.text ++ b!"else" ++ g.text ++ b!"{" ++ itemsText items ++ foot.text ++ b!"}"
end

mutual
/-- The block element in the AST. -/
def CItem.ast (ign : Bool) : CItem → BOP
  | .plugin com p => .plugin (p.ast ign (com.block ign false false))
  | .branch com _ c _ items foot elifs els =>
    .branch Pos.zero (c.ast ign) (itemsAst ign items) (com.block ign false false)
      (foot.block ign false false) (elifsAst ign elifs) (els.ast ign)
/-- The block in the AST. -/
def itemsAst (ign : Bool) : List CItem → List BOP
  | [] => []
  | i :: r => i.ast ign :: itemsAst ign r
/-- The else-if blocks in the AST. -/
def elifsAst (ign : Bool) : List CElif → List Elif
  | [] => []
  | .mk com _ _ c _ items foot :: r =>
    .mk Pos.zero (c.ast ign) (itemsAst ign items) (com.block ign false false)
      (foot.block ign false false) :: elifsAst ign r
/-- The else block in the AST; the zero value when there is none. -/
def CElse.ast (ign : Bool) : CElse → ElseB
  | .none => .mk Pos.zero [] [] []
  | .mk com _ items foot =>
    .mk Pos.zero (itemsAst ign items) (com.block ign false false) (foot.block ign false false)
end

mutual
/-- A well-formed block element. -/
def CItem.Ok : CItem → Prop
  | .plugin com p => com.Ok ∧ p.Ok
  | .branch com g1 c g2 items foot elifs els =>
    com.Ok ∧ g1.Ok ∧ c.Ok ∧ g2.Ok ∧ itemsOk items ∧ foot.Ok ∧ elifsOk elifs ∧ els.Ok
/-- A well-formed block. -/
def itemsOk : List CItem → Prop
  | [] => True
  | i :: r => i.Ok ∧ itemsOk r
/-- Well-formed else-if blocks. -/
def elifsOk : List CElif → Prop
  | [] => True
  | .mk com g0 g1 c g2 items foot :: r =>
    com.Ok ∧ g0.Ok ∧ g1.Ok ∧ c.Ok ∧ g2.Ok ∧ itemsOk items ∧ foot.Ok ∧ elifsOk r
/-- A well-formed else block. -/
def CElse.Ok : CElse → Prop
  | .none => True
  | .mk com g items foot => com.Ok ∧ g.Ok ∧ itemsOk items ∧ foot.Ok
end

/-- A plugin section. -/
structure CSection where
  com : Gap
  ptype : PluginType
  g : Gap
  items : List CItem
  foot : Gap

/-- The keyword of a section. -/
def ptypeText : PluginType → Bytes
  | .input => b!"input" | .filter => b!"filter" | .output => b!"output" | .undefined => []

namespace CSection
/-- The bytes. -/
def text (s : CSection) : Bytes :=
  s.com.text ++ ptypeText s.ptype ++ s.g.text ++ b!"{" ++ itemsText s.items ++ s.foot.text ++ b!"}"
/-- The section in the AST; the flag marks the first section of the file. -/
def ast (ign first : Bool) (s : CSection) : Section :=
  ⟨Pos.zero, s.ptype, itemsAst ign s.items, s.com.block ign false first, s.foot.block ign false false⟩
/-- Well-formed. -/
def Ok (s : CSection) : Prop :=
  s.com.Ok ∧ s.ptype ≠ .undefined ∧ s.g.Ok ∧ itemsOk s.items ∧ s.foot.Ok
end CSection

/-- A file: a gap only, or sections followed by a gap. -/
inductive CFile
  | empty (g : Gap)
  | config (first : CSection) (rest : List CSection) (foot : Gap)

namespace CFile
/-- The bytes of the file. -/
def text : CFile → Bytes
  | .empty g => g.text
  | .config s ss foot => s.text ++ ss.flatMap CSection.text ++ foot.text
/-- The sections in the AST, in the order of the file. -/
def sections (ign : Bool) : CFile → List Section
  | .empty _ => []
  | .config s ss _ => s.ast ign true :: ss.map (CSection.ast ign false)
/-- The configuration.  Comments in a file without sections are lost. -/
def ast (ign : Bool) (k : CFile) : Config :=
  ⟨(k.sections ign).filter (·.ptype = .input), (k.sections ign).filter (·.ptype = .filter),
    (k.sections ign).filter (·.ptype = .output),
    match k with | .empty _ => [] | .config _ _ foot => foot.block ign true false, []⟩
/-- Well-formed. -/
def Ok : CFile → Prop
  | .empty g => g.OkEnd
  | .config s ss foot => s.Ok ∧ (∀ t ∈ ss, t.Ok) ∧ foot.OkEnd
end CFile

end Verif.Spec
