import Verif.Model.Print
import Verif.Spec.Clear
import Verif.Spec.Number
import Verif.Spec.Pieces
import Verif.Spec.MapAst
/-
The configurations for which formatting is faithful (`Printable`), and what comes back when the
formatted text is parsed again (`settle`).
-/
namespace Verif.Spec
open Verif

/-! ### Comments -/

/-- The text of a comment: one line, without blanks at either end. -/
def CommentText (b : Bytes) : Prop := (∀ c ∈ b, c ≠ 10 ∧ c ≠ 13) ∧ trim 32 b = b

/-- Comments anywhere but in front of a section: no mark for a blank line after them. -/
def CommentsOk (cs : CommentBlock) : Prop := ∀ c ∈ cs, CommentText c.text ∧ c.spaceAfter = false

/-- Comments in front of a section: only the last one can have a blank line after it. -/
def SectionCommentsOk (cs : CommentBlock) : Prop :=
  (∀ c ∈ cs, CommentText c.text) ∧ ∀ c ∈ cs.dropLast, c.spaceAfter = false

/-! ### Well-formed ASTs

The flag `t` selects between two predicates.  `t = false`: the shape of the ASTs the parser returns.
`t = true`: in addition, the restrictions under which formatting is faithful:

* numbers are zero or at least `1e-4` in magnitude (C23);
* quotes in regular expressions and field references are balanced, and there is no newline outside
  the quotes (C18);
* an array in a condition, as printed, does not look like a field reference;
* no plugin has a name that the parser takes for the beginning of a branch (C15). -/

/-- The name of a plugin or attribute, as written: a word or a quoted string. -/
def NameOk (n : Bytes) : Prop := ∃ s : StrLit, s.Name ∧ s.text = n

/-- The comment block of an attribute. -/
def _root_.Verif.Attr.comment : Attr → CommentBlock
  | .nil => []
  | .str a => a.comment
  | .num a => a.comment
  | .arr _ _ _ c _ => c
  | .hash _ _ _ c _ => c
  | .plug _ _ _ c => c

/-- The comment block of a plugin. -/
def _root_.Verif.Plugin.comment : Plugin → CommentBlock
  | .mk _ _ _ c _ => c

/-- Is the attribute a plugin? -/
def _root_.Verif.Attr.isPlug : Attr → Bool
  | .plug _ _ _ _ => true
  | _ => false

/-- A hash key: a string or a number, without name and comment of its own. -/
def KeyOk (t : Bool) : HKey → Prop
  | .str a => (⟨a.sat, a.value⟩ : StrLit).Value ∧ a.name = [] ∧ a.comment = []
  | .num a => (t = true → Exact a.value) ∧ a.name = [] ∧ a.comment = []

mutual
/-- A value.  A plugin used as a value has no comment of its own. -/
def ValueOk (t : Bool) : Attr → Prop
  | .nil => False
  | .str a => (⟨a.sat, a.value⟩ : StrLit).Value
  | .num a => t = true → Exact a.value
  | .arr _ _ as _ f => ElemsOk t as ∧ CommentsOk f
  | .hash _ _ es _ f => EntriesOk t es ∧ CommentsOk f
  | .plug _ _ p _ => PluginOk t p ∧ p.comment = []
/-- The elements of an array: values other than plugins, without a name. -/
def ElemsOk (t : Bool) : List Attr → Prop
  | [] => True
  | a :: as => ValueOk t a ∧ a.isPlug = false ∧ a.name = [] ∧ CommentsOk a.comment ∧ ElemsOk t as
/-- The entries of a hash: the value is not a plugin and has neither name nor comment. -/
def EntriesOk (t : Bool) : List HEntry → Prop
  | [] => True
  | .mk _ k v c :: es =>
    KeyOk t k ∧ ValueOk t v ∧ v.isPlug = false ∧ v.name = [] ∧ v.comment = [] ∧ CommentsOk c ∧ EntriesOk t es
/-- A plugin. -/
def PluginOk (t : Bool) : Plugin → Prop
  | .mk _ n as c f => NameOk n ∧ AttrsOk t as ∧ CommentsOk c ∧ CommentsOk f
/-- The attributes of a plugin. -/
def AttrsOk (t : Bool) : List Attr → Prop
  | [] => True
  | a :: as => ValueOk t a ∧ NameOk a.name ∧ CommentsOk a.comment ∧ AttrsOk t as
end

/-- A value in a condition. -/
def RvalueOk (t : Bool) : Rvalue → Prop
  | .nil => False
  | .str a => (⟨a.sat, a.value⟩ : StrLit).Quoted ∧ a.name = [] ∧ a.comment = []
  | .num a => (t = true → Exact a.value) ∧ a.name = [] ∧ a.comment = []
  | .sel s => SelOk (s.elems.map (·.name)) ∧ (t = true → ∀ e ∈ s.elems, Balanced e.name)
  | .arr p n as c f =>
    ElemsOk t as ∧ CommentsOk f ∧ n = [] ∧ c = [] ∧ (t = true → ¬ SelLike (Rvalue.arr p n as c f).valueStr)
  | .re r => StringBody 47 r.re ∧ (t = true → Balanced r.re)

/-- A string or a regular expression. -/
def IsPattern : Rvalue → Prop
  | .str _ => True
  | .re _ => True
  | _ => False

/-- The first expression of a condition has no boolean operator, the others have one. -/
def JoinOk (first : Bool) (b : BoolExpr) : Prop :=
  if first then b.op.op = .noOp else b.op.op ≠ .noOp ∧ b.op.op ≠ .undefined

mutual
/-- An expression. -/
def ExprOk (t first : Bool) : Expr → Prop
  | .nil => False
  | .cond _ b c => JoinOk first b ∧ CondOk t true c
  | .negCond _ b c => JoinOk first b ∧ CondOk t true c
  | .negSel _ b s =>
    JoinOk first b ∧ SelOk (s.elems.map (·.name)) ∧ (t = true → ∀ e ∈ s.elems, Balanced e.name)
  | .inE _ b l r => JoinOk first b ∧ RvalueOk t l ∧ RvalueOk t r
  | .notIn _ b l r => JoinOk first b ∧ RvalueOk t l ∧ RvalueOk t r
  | .rval _ b r => JoinOk first b ∧ RvalueOk t r
  | .cmp _ b l o r => JoinOk first b ∧ RvalueOk t l ∧ o.op ≠ .undefined ∧ RvalueOk t r
  | .re _ b l o r => JoinOk first b ∧ RvalueOk t l ∧ o.op ≠ .undefined ∧ RvalueOk t r ∧ IsPattern r
/-- The expressions of a condition, of which there is at least one. -/
def CondOk (t first : Bool) : List Expr → Prop
  | [] => first = false
  | e :: es => ExprOk t first e ∧ CondOk t false es
end

/-- A branch that is printed without an else block. -/
def _root_.Verif.BOP.isOpen : BOP → Bool
  | .branch _ _ _ _ _ _ (.mk _ [] [] []) => true
  | _ => false

/-- The name can be taken for the beginning of an else block. -/
def ElseName (n : Bytes) : Prop := n = b!"else" ∨ ∃ t, IfLike t ∧ n = b!"else" ++ t

/-- The block does not start with a plugin that can be taken for an else block. -/
def NoElse : List BOP → Prop
  | .plugin p :: _ => ¬ ElseName p.name
  | .pluginPtr p :: _ => ¬ ElseName p.name
  | _ => True

mutual
/-- An element of a block. -/
def BopOk (t : Bool) : BOP → Prop
  | .nil => False
  | .plugin p => PluginOk t p ∧ (t = true → ¬ IfLike p.name)
  | .pluginPtr p => PluginOk t p ∧ (t = true → ¬ IfLike p.name)
  | .branch _ c b cm f ei el =>
    CondOk t true c ∧ BlockOk t b ∧ CommentsOk cm ∧ CommentsOk f ∧ ElifsOk t ei ∧ ElseOk t el
/-- A block. -/
def BlockOk (t : Bool) : List BOP → Prop
  | [] => True
  | b :: bs => BopOk t b ∧ (t = true → b.isOpen = true → NoElse bs) ∧ BlockOk t bs
/-- Else-if blocks. -/
def ElifsOk (t : Bool) : List Elif → Prop
  | [] => True
  | .mk _ c b cm f :: es => CondOk t true c ∧ BlockOk t b ∧ CommentsOk cm ∧ CommentsOk f ∧ ElifsOk t es
/-- An else block. -/
def ElseOk (t : Bool) : ElseB → Prop
  | .mk _ b cm f => BlockOk t b ∧ CommentsOk cm ∧ CommentsOk f
end

/-- The sections of one type. -/
def SectionsOk (t : Bool) (pt : PluginType) (l : List Section) : Prop :=
  ∀ s ∈ l, s.ptype = pt ∧ BlockOk t s.bops ∧ SectionCommentsOk s.comment ∧ CommentsOk s.footer

/-- A configuration. -/
def ConfigOk (t : Bool) (c : Config) : Prop :=
  SectionsOk t .input c.input ∧ SectionsOk t .filter c.filter ∧ SectionsOk t .output c.output ∧ CommentsOk c.footer

/-- The shape of a configuration returned by the parser. -/
def Shaped (c : Config) : Prop := ConfigOk false c

/-- A configuration that is formatted faithfully. -/
def Printable (c : Config) : Prop := ConfigOk true c

/-! ### What comes back

`settle c` is the configuration obtained by formatting `c` and parsing the result, with positions
and warnings left out.  Only the marks for blank lines around comments change, comments of the
second and later sections of a type are replaced by those of the first, and comments at the end are
lost if there is no section. -/

mutual
/-- A value. -/
def settleVal : Attr → Attr
  | .nil => .nil
  | .str a => .str (AMap.noPos.str a)
  | .num a => .num (AMap.noPos.num a)
  | .arr _ n as c f => .arr Pos.zero n (settleAttrs true as) c (markFirst false f)
  | .hash _ n es c f => .hash Pos.zero n (settleEntries true es) c (markFirst false f)
  | .plug _ n p c => .plug Pos.zero n (settlePlugin p) c
/-- Array elements or attributes: the first comment of the first one is not marked, the first comment
of every other one is. -/
def settleAttrs : Bool → List Attr → List Attr
  | _, [] => []
  | first, a :: as => withComment (markFirst (!first) a.comment) (settleVal a) :: settleAttrs false as
/-- Hash entries: the same. -/
def settleEntries : Bool → List HEntry → List HEntry
  | _, [] => []
  | first, .mk _ k v c :: es =>
    .mk Pos.zero (AMap.noPos.hkey k) (settleVal v) (markFirst (!first) c) :: settleEntries false es
/-- A plugin: first comments are not marked. -/
def settlePlugin : Plugin → Plugin
  | .mk _ n as c f => .mk Pos.zero n (settleAttrs true as) (markFirst false c) (markFirst false f)
end

/-- A value in a condition. -/
def settleRvalue : Rvalue → Rvalue
  | .arr _ n as c f => .arr Pos.zero n (settleAttrs true as) c (markFirst false f)
  | r => AMap.noPos.rvalue r

mutual
/-- An expression. -/
def settleExpr : Expr → Expr
  | .nil => .nil
  | .cond _ b c => .cond Pos.zero (AMap.noPos.boolExpr b) (settleCond c)
  | .negCond _ b c => .negCond Pos.zero (AMap.noPos.boolExpr b) (settleCond c)
  | .negSel _ b s => .negSel Pos.zero (AMap.noPos.boolExpr b) (AMap.noPos.selector s)
  | .inE _ b l r => .inE Pos.zero (AMap.noPos.boolExpr b) (settleRvalue l) (settleRvalue r)
  | .notIn _ b l r => .notIn Pos.zero (AMap.noPos.boolExpr b) (settleRvalue l) (settleRvalue r)
  | .rval _ b r => .rval Pos.zero (AMap.noPos.boolExpr b) (settleRvalue r)
  | .cmp _ b l o r => .cmp Pos.zero (AMap.noPos.boolExpr b) (settleRvalue l) (AMap.noPos.cmpOp o) (settleRvalue r)
  | .re _ b l o r => .re Pos.zero (AMap.noPos.boolExpr b) (settleRvalue l) (AMap.noPos.reOp o) (settleRvalue r)
/-- A condition. -/
def settleCond : List Expr → List Expr
  | [] => []
  | e :: es => settleExpr e :: settleCond es
end

mutual
/-- A block element: a pointer to a plugin comes back as a plugin. -/
def settleBop : BOP → BOP
  | .nil => .nil
  | .plugin p => .plugin (settlePlugin p)
  | .pluginPtr p => .plugin (settlePlugin p)
  | .branch _ c b cm f ei el =>
    .branch Pos.zero (settleCond c) (settleBlock b) (markFirst false cm) (markFirst false f) (settleElifs ei) (settleElse el)
/-- A block. -/
def settleBlock : List BOP → List BOP
  | [] => []
  | b :: bs => settleBop b :: settleBlock bs
/-- Else-if blocks. -/
def settleElifs : List Elif → List Elif
  | [] => []
  | .mk _ c b cm f :: es =>
    .mk Pos.zero (settleCond c) (settleBlock b) (markFirst false cm) (markFirst false f) :: settleElifs es
/-- An else block. -/
def settleElse : ElseB → ElseB
  | .mk _ b cm f => .mk Pos.zero (settleBlock b) (markFirst false cm) (markFirst false f)
end

/-- A section, with the comments `c0`; the mark for a blank line after the comments is kept for the
first section of the file only. -/
def settleSection (first : Bool) (c0 : CommentBlock) (s : Section) : Section :=
  ⟨Pos.zero, s.ptype, settleBlock s.bops,
    markFirst false (if first then c0 else c0.map fun c => { c with spaceAfter := false }), markFirst false s.footer⟩

/-- The sections of one type: all of them get the comments of the first one. -/
def settleSections (first : Bool) : List Section → List Section
  | [] => []
  | s :: ss => settleSection first s.comment s :: ss.map (settleSection false s.comment)

/-- A configuration. -/
def settle (c : Config) : Config :=
  ⟨settleSections true c.input, settleSections c.input.isEmpty c.filter,
    settleSections (c.input.isEmpty && c.filter.isEmpty) c.output,
    if c.input.isEmpty && c.filter.isEmpty && c.output.isEmpty then [] else markFirst true c.footer, []⟩

/-! ### What is preserved -/

/-- Zero positions and drop the marks for blank lines around comments; the comments themselves
stay. -/
def AMap.noMarks : AMap := ⟨fun _ => Pos.zero, fun cs => cs.map fun c => ⟨c.text, false, false⟩⟩

/-- The configuration without positions, warnings and marks for blank lines around comments. -/
def withoutMarks (c : Config) : Config := { AMap.noMarks.config c with warnings := [] }

mutual
/-- Pointers to plugins, which a walk over the AST can leave behind, replaced by plugins. -/
def derefBop : BOP → BOP
  | .pluginPtr p => .plugin p
  | .branch p c b cm f ei el => .branch p c (derefBlock b) cm f (derefElifs ei) (derefElse el)
  | .plugin p => .plugin p
  | .nil => .nil
/-- In a block. -/
def derefBlock : List BOP → List BOP
  | [] => []
  | b :: bs => derefBop b :: derefBlock bs
/-- In else-if blocks. -/
def derefElifs : List Elif → List Elif
  | [] => []
  | .mk p c b cm f :: es => .mk p c (derefBlock b) cm f :: derefElifs es
/-- In an else block. -/
def derefElse : ElseB → ElseB
  | .mk p b cm f => .mk p (derefBlock b) cm f
end

/-- In sections. -/
def derefSects (l : List Section) : List Section := l.map fun s => { s with bops := derefBlock s.bops }

/-- In a configuration. -/
def deref (c : Config) : Config := { c with input := derefSects c.input, filter := derefSects c.filter, output := derefSects c.output }

/-- The sections of one type have the same comments in front of them (up to the marks for blank
lines). -/
def SameComments (l : List Section) : Prop := ∀ s ∈ l, ∀ t ∈ l, s.comment.map (·.text) = t.comment.map (·.text)

/-- No comment of the configuration is lost by formatting: the sections of each type have the same
comments, and there is a section if there are comments at the end. -/
def CommentsKept (c : Config) : Prop :=
  SameComments c.input ∧ SameComments c.filter ∧ SameComments c.output ∧
    (c.input = [] → c.filter = [] → c.output = [] → c.footer = [])

end Verif.Spec
