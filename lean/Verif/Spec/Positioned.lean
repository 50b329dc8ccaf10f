import Verif.Spec.Cst
/-
Where things stand in a file: the configuration a concrete syntax tree denotes, with the position
of every node, and the gaps whose comments the configuration cannot hold.

`pos k` is the position (line, column, offset) of byte `k` of the file; `k` is always the offset of
the first byte of the construct.

* A string, a plugin (position of its name), an attribute (position of its name), a field
  reference, each of its elements, a regular expression, an expression, an operator, a section, a
  branch, an else-if and an else block (position of their keyword) are located at their first byte.
* An expression joined by an operator also records the position of the operator.
* A hash entry is located where the gap in front of its key starts.
* Numbers, arrays and hashes that are not the value of an attribute have no position.
-/
namespace Verif.Spec
open Verif

/-- The attribute of a string literal at position `p`. -/
def StrLit.astAt (p : Pos) (s : StrLit) : StrAttr := ⟨p, [], s.body, s.sat, []⟩

/-- The key in the AST. -/
def CKey.astAt (pos : Nat → Pos) (k : Nat) : CKey → HKey
  | .str s => .str (s.astAt (pos k))
  | .num t => .num (numAst t)

/-- Give an attribute a name and a position. -/
def withNameAt (p : Pos) (n : Bytes) : Attr → Attr
  | .str a => .str { a with name := n, start := p }
  | .num a => .num { a with name := n, start := p }
  | .arr _ _ as c f => .arr p n as c f
  | .hash _ _ es c f => .hash p n es c f
  | .plug _ _ v c => .plug p n v c
  | .nil => .nil

mutual
/-- The attribute a value denotes (without a name). -/
def CVal.astAt (ign : Bool) (pos : Nat → Pos) (k : Nat) : CVal → Attr
  | .str s => .str (s.astAt (pos k))
  | .num t => .num (numAst t)
  | .arr elems foot => .arr Pos.zero [] (elemsAt ign pos true (k + 1) elems) [] (foot.block ign false false)
  | .hash entries foot => .hash Pos.zero [] (entriesAt ign pos true (k + 1) entries) [] (foot.block ign false false)
  | .plug p => .plug Pos.zero [] (p.astAt ign pos k []) []
/-- The elements of an array. -/
def elemsAt (ign : Bool) (pos : Nat → Pos) : Bool → Nat → List CElem → List Attr
  | _, _, [] => []
  | first, k, .mk pre com v :: r =>
    let kv := k + (if first then 0 else pre.text.length + 1) + com.text.length
    if v.isPlug then elemsAt ign pos false (kv + v.text.length) r
    else withComment (com.block ign (!first) false) (v.astAt ign pos kv) ::
      elemsAt ign pos false (kv + v.text.length) r
/-- The entries of a hash. -/
def entriesAt (ign : Bool) (pos : Nat → Pos) : Bool → Nat → List CEntry → List HEntry
  | _, _, [] => []
  | first, k, .mk sep com key g1 g2 v :: r =>
    let ke := k + (if first then 0 else sep.length)
    let kk := ke + com.text.length
    let kv := kk + key.text.length + g1.text.length + 2 + g2.text.length
    .mk (pos ke) (key.astAt pos kk) (v.astAt ign pos kv) (markFirst (!first) (com.block ign true false)) ::
      entriesAt ign pos false (kv + v.text.length) r
/-- A plugin with its comment block. -/
def CPlugin.astAt (ign : Bool) (pos : Nat → Pos) (k : Nat) (comment : CommentBlock) : CPlugin → Plugin
  | .mk name g attrs foot =>
    .mk (pos k) name.text (attrsAt ign pos true (k + name.text.length + g.text.length + 1) attrs) comment
      (foot.block ign false false)
/-- The attributes of a plugin. -/
def attrsAt (ign : Bool) (pos : Nat → Pos) : Bool → Nat → List CAttr → List Attr
  | _, _, [] => []
  | first, k, .mk sep com n g1 g2 v :: r =>
    let kn := k + (if first then 0 else sep.length) + com.text.length
    let kv := kn + n.text.length + g1.text.length + 2 + g2.text.length
    withComment (com.block ign (!first) false) (withNameAt (pos kn) n.text (v.astAt ign pos kv)) ::
      attrsAt ign pos false (kv + v.text.length) r
end

/-- The elements of a field reference. -/
def selElemsAt (pos : Nat → Pos) : Nat → List Bytes → List SelElem
  | _, [] => []
  | k, n :: r => ⟨pos k, n⟩ :: selElemsAt pos (k + n.length + 2) r

/-- A field reference. -/
def selAt (pos : Nat → Pos) (k : Nat) (names : List Bytes) : Selector := ⟨pos k, selElemsAt pos k names⟩

/-- The value of a condition in the AST. -/
def CRval.astAt (ign : Bool) (pos : Nat → Pos) (k : Nat) : CRval → Rvalue
  | .str s => .str (s.astAt (pos k))
  | .num t => .num (numAst t)
  | .sel names => .sel (selAt pos k names)
  | .arr elems foot => .arr Pos.zero [] (elemsAt ign pos true (k + 1) elems) [] (foot.block ign false false)
  | .re body => .re ⟨pos k, body⟩

/-- The first expression of a condition is joined by nothing. -/
def unjoined : BoolExpr := ⟨Pos.zero, ⟨.noOp, Pos.zero⟩⟩

/-- Joined by operator `op` at position `p`. -/
def joinedAt (p : Pos) (op : BoolOpKind) : BoolExpr := ⟨p, ⟨op, p⟩⟩

mutual
/-- An expression in the AST. -/
def CExpr.astAt (ign : Bool) (pos : Nat → Pos) (k : Nat) (j : BoolExpr) : CExpr → Expr
  | .paren g1 c _ => .cond (pos k) j (c.astAt ign pos (k + 1 + g1.text.length))
  | .notParen g0 g1 c _ => .negCond (pos k) j (c.astAt ign pos (k + 1 + g0.text.length + 1 + g1.text.length))
  | .notSel g names => .negSel (pos k) j (selAt pos (k + 1 + g.text.length) names)
  | .inE l g1 g2 r =>
    .inE (pos k) j (l.astAt ign pos k) (r.astAt ign pos (k + l.text.length + g1.text.length + 2 + g2.text.length))
  | .notIn l g1 g2 g3 r =>
    .notIn (pos k) j (l.astAt ign pos k)
      (r.astAt ign pos (k + l.text.length + g1.text.length + 4 + g2.text.length + 2 + g3.text.length))
  | .cmp l g1 op g2 r =>
    .cmp (pos k) j (l.astAt ign pos k) ⟨op, pos (k + l.text.length + g1.text.length)⟩
      (r.astAt ign pos (k + l.text.length + g1.text.length + (cmpText op).length + g2.text.length))
  | .re l g1 op g2 r =>
    .re (pos k) j (l.astAt ign pos k) ⟨op, pos (k + l.text.length + g1.text.length)⟩
      (r.astAt ign pos (k + l.text.length + g1.text.length + (reText op).length + g2.text.length))
  | .rval r => .rval (pos k) j (r.astAt ign pos k)
/-- A condition in the AST. -/
def CCond.astAt (ign : Bool) (pos : Nat → Pos) (k : Nat) : CCond → Condition
  | .mk e more => e.astAt ign pos k unjoined :: moreAt ign pos (k + e.text.length) more
/-- The further expressions. -/
def moreAt (ign : Bool) (pos : Nat → Pos) : Nat → List CMore → List Expr
  | _, [] => []
  | k, .mk g1 op g2 e :: r =>
    let ko := k + g1.text.length
    let ke := ko + (boolText op).length + g2.text.length
    e.astAt ign pos ke (joinedAt (pos ko) op) :: moreAt ign pos (ke + e.text.length) r
end

mutual
/-- A block element in the AST. -/
def CItem.astAt (ign : Bool) (pos : Nat → Pos) (k : Nat) : CItem → BOP
  | .plugin com p => .plugin (p.astAt ign pos (k + com.text.length) (com.block ign false false))
  | .branch com g1 c g2 items foot elifs els =>
    let ki := k + com.text.length
    let kc := ki + 2 + g1.text.length
    let kb := kc + c.text.length + g2.text.length + 1
    let ke := kb + (itemsText items).length + foot.text.length + 1
    .branch (pos ki) (c.astAt ign pos kc) (itemsAt ign pos kb items) (com.block ign false false)
      (foot.block ign false false) (elifsAt ign pos ke elifs)
      (els.astAt ign pos (ke + (elifsText elifs).length))
/-- A block in the AST. -/
def itemsAt (ign : Bool) (pos : Nat → Pos) : Nat → List CItem → List BOP
  | _, [] => []
  | k, i :: r => i.astAt ign pos k :: itemsAt ign pos (k + i.text.length) r
/-- The else-if blocks in the AST. -/
def elifsAt (ign : Bool) (pos : Nat → Pos) : Nat → List CElif → List Elif
  | _, [] => []
  | k, .mk com g0 g1 c g2 items foot :: r =>
    let ki := k + com.text.length
    let kc := ki + 4 + g0.text.length + 2 + g1.text.length
    let kb := kc + c.text.length + g2.text.length + 1
    .mk (pos ki) (c.astAt ign pos kc) (itemsAt ign pos kb items) (com.block ign false false)
        (foot.block ign false false) ::
      elifsAt ign pos (kb + (itemsText items).length + foot.text.length + 1) r
/-- The else block in the AST; the zero value when there is none. -/
def CElse.astAt (ign : Bool) (pos : Nat → Pos) (k : Nat) : CElse → ElseB
  | .none => .mk Pos.zero [] [] []
  | .mk com g items foot =>
    let ki := k + com.text.length
    .mk (pos ki) (itemsAt ign pos (ki + 4 + g.text.length + 1) items) (com.block ign false false)
      (foot.block ign false false)
end

/-- A section in the AST; the flag marks the first section of the file. -/
def CSection.astAt (ign : Bool) (pos : Nat → Pos) (k : Nat) (first : Bool) (s : CSection) : Section :=
  ⟨pos (k + s.com.text.length), s.ptype,
    itemsAt ign pos (k + s.com.text.length + (ptypeText s.ptype).length + s.g.text.length + 1) s.items,
    s.com.block ign false first, s.foot.block ign false false⟩

/-- Further sections. -/
def sectionsAt (ign : Bool) (pos : Nat → Pos) : Nat → List CSection → List Section
  | _, [] => []
  | k, s :: r => s.astAt ign pos k false :: sectionsAt ign pos (k + s.text.length) r

/-- The sections of a file, in the order of the file. -/
def CFile.sectionsAt (ign : Bool) (pos : Nat → Pos) : CFile → List Section
  | .empty _ => []
  | .config s ss _ => s.astAt ign pos 0 true :: Spec.sectionsAt ign pos s.text.length ss

/-! ### Exceptional gaps

A comment belongs in front of a section, plugin, attribute, array element, hash entry, branch,
else-if or else block, or before a closing brace or bracket.  The other gaps are exceptional: the
configuration has no place for their comments. -/

/-- Gaps with the offset where they start. -/
abbrev Gaps := List (Nat × Gap)

mutual
/-- The exceptional gaps of a value. -/
def CVal.exc (k : Nat) : CVal → Gaps
  | .str _ => []
  | .num _ => []
  | .arr elems _ => elemsExc true (k + 1) elems
  | .hash entries _ => entriesExc true (k + 1) entries
  | .plug p => p.exc k
/-- Those of array elements: the gap before a comma. -/
def elemsExc : Bool → Nat → List CElem → Gaps
  | _, _, [] => []
  | first, k, .mk pre com v :: r =>
    let kv := k + (if first then 0 else pre.text.length + 1) + com.text.length
    (if first then [] else [(k, pre)]) ++ v.exc kv ++ elemsExc false (kv + v.text.length) r
/-- Those of hash entries: the gaps around the arrow. -/
def entriesExc : Bool → Nat → List CEntry → Gaps
  | _, _, [] => []
  | first, k, .mk sep com key g1 g2 v :: r =>
    let k1 := k + (if first then 0 else sep.length) + com.text.length + key.text.length
    let k2 := k1 + g1.text.length + 2
    let kv := k2 + g2.text.length
    [(k1, g1), (k2, g2)] ++ v.exc kv ++ entriesExc false (kv + v.text.length) r
/-- Those of a plugin: the gap in front of the brace. -/
def CPlugin.exc (k : Nat) : CPlugin → Gaps
  | .mk name g attrs _ =>
    (k + name.text.length, g) :: attrsExc true (k + name.text.length + g.text.length + 1) attrs
/-- Those of attributes: the gaps around the arrow. -/
def attrsExc : Bool → Nat → List CAttr → Gaps
  | _, _, [] => []
  | first, k, .mk sep com n g1 g2 v :: r =>
    let k1 := k + (if first then 0 else sep.length) + com.text.length + n.text.length
    let k2 := k1 + g1.text.length + 2
    let kv := k2 + g2.text.length
    [(k1, g1), (k2, g2)] ++ v.exc kv ++ attrsExc false (kv + v.text.length) r
end

/-- Those of a value in a condition. -/
def CRval.exc (k : Nat) : CRval → Gaps
  | .arr elems _ => elemsExc true (k + 1) elems
  | _ => []

mutual
/-- Those of an expression: all its gaps. -/
def CExpr.exc (k : Nat) : CExpr → Gaps
  | .paren g1 c g2 =>
    let kc := k + 1 + g1.text.length
    [(k + 1, g1)] ++ c.exc kc ++ [(kc + c.text.length, g2)]
  | .notParen g0 g1 c g2 =>
    let k1 := k + 1 + g0.text.length + 1
    let kc := k1 + g1.text.length
    [(k + 1, g0), (k1, g1)] ++ c.exc kc ++ [(kc + c.text.length, g2)]
  | .notSel g _ => [(k + 1, g)]
  | .inE l g1 g2 r =>
    let k1 := k + l.text.length
    let k2 := k1 + g1.text.length + 2
    l.exc k ++ [(k1, g1), (k2, g2)] ++ r.exc (k2 + g2.text.length)
  | .notIn l g1 g2 g3 r =>
    let k1 := k + l.text.length
    let k2 := k1 + g1.text.length + 4
    let k3 := k2 + g2.text.length + 2
    l.exc k ++ [(k1, g1), (k2, g2), (k3, g3)] ++ r.exc (k3 + g3.text.length)
  | .cmp l g1 op g2 r =>
    let k1 := k + l.text.length
    let k2 := k1 + g1.text.length + (cmpText op).length
    l.exc k ++ [(k1, g1), (k2, g2)] ++ r.exc (k2 + g2.text.length)
  | .re l g1 op g2 r =>
    let k1 := k + l.text.length
    let k2 := k1 + g1.text.length + (reText op).length
    l.exc k ++ [(k1, g1), (k2, g2)] ++ r.exc (k2 + g2.text.length)
  | .rval r => r.exc k
/-- Those of a condition. -/
def CCond.exc (k : Nat) : CCond → Gaps
  | .mk e more => e.exc k ++ moreExc (k + e.text.length) more
/-- Those of the further expressions: the gaps around the operator. -/
def moreExc : Nat → List CMore → Gaps
  | _, [] => []
  | k, .mk g1 op g2 e :: r =>
    let k2 := k + g1.text.length + (boolText op).length
    let ke := k2 + g2.text.length
    [(k, g1), (k2, g2)] ++ e.exc ke ++ moreExc (ke + e.text.length) r
end

mutual
/-- Those of a block element. -/
def CItem.exc (k : Nat) : CItem → Gaps
  | .plugin com p => p.exc (k + com.text.length)
  | .branch com g1 c g2 items foot elifs els =>
    let k1 := k + com.text.length + 2
    let kc := k1 + g1.text.length
    let k2 := kc + c.text.length
    let kb := k2 + g2.text.length + 1
    let ke := kb + (itemsText items).length + foot.text.length + 1
    [(k1, g1)] ++ c.exc kc ++ [(k2, g2)] ++ itemsExc kb items ++ elifsExc ke elifs ++
      els.exc (ke + (elifsText elifs).length)
/-- Those of a block. -/
def itemsExc : Nat → List CItem → Gaps
  | _, [] => []
  | k, i :: r => i.exc k ++ itemsExc (k + i.text.length) r
/-- Those of the else-if blocks. -/
def elifsExc : Nat → List CElif → Gaps
  | _, [] => []
  | k, .mk com g0 g1 c g2 items foot :: r =>
    let k0 := k + com.text.length + 4
    let k1 := k0 + g0.text.length + 2
    let kc := k1 + g1.text.length
    let k2 := kc + c.text.length
    let kb := k2 + g2.text.length + 1
    [(k0, g0), (k1, g1)] ++ c.exc kc ++ [(k2, g2)] ++ itemsExc kb items ++
      elifsExc (kb + (itemsText items).length + foot.text.length + 1) r
/-- Those of an else block. -/
def CElse.exc (k : Nat) : CElse → Gaps
  | .none => []
  | .mk com g items _ =>
    let k0 := k + com.text.length + 4
    [(k0, g)] ++ itemsExc (k0 + g.text.length + 1) items
end

/-- Those of a section. -/
def CSection.exc (k : Nat) (s : CSection) : Gaps :=
  let kg := k + s.com.text.length + (ptypeText s.ptype).length
  [(kg, s.g)] ++ itemsExc (kg + s.g.text.length + 1) s.items

/-- Those of sections. -/
def sectionsExc : Nat → List CSection → Gaps
  | _, [] => []
  | k, s :: r => s.exc k ++ sectionsExc (k + s.text.length) r

/-- The exceptional gaps of a file, in the order of the file. -/
def CFile.exc : CFile → Gaps
  | .empty _ => []
  | .config s ss _ => sectionsExc 0 (s :: ss)

/-- How a position is written: line, column, offset. -/
def posText (p : Pos) : Bytes :=
  intToBytes p.line ++ b!":" ++ intToBytes p.col ++ b!" [" ++ intToBytes p.offset ++ b!"]"

/-- The warnings of a file: one for every exceptional gap with a comment, naming the position where
the gap starts, when the option is set. -/
def warningsOf (on : Bool) (pos : Nat → Pos) (gs : Gaps) : List Bytes :=
  if on then (gs.filter fun p => !p.2.lines.isEmpty).map fun p => b!"exceptional comment at " ++ posText (pos p.1)
  else []

/-- The configuration a file denotes, with positions and warnings. -/
def CFile.astAt (ign on : Bool) (pos : Nat → Pos) (k : CFile) : Config :=
  ⟨(k.sectionsAt ign pos).filter (·.ptype = .input), (k.sectionsAt ign pos).filter (·.ptype = .filter),
    (k.sectionsAt ign pos).filter (·.ptype = .output),
    match k with | .empty _ => [] | .config _ _ foot => foot.block ign true false,
    warningsOf on pos k.exc⟩

end Verif.Spec
