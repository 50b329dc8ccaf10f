import Verif.Model.Ast
/-
Specification helper: apply a function to every source position and a function to every
comment block of an AST, leaving everything else alone.  Instances: empty all comment blocks
(`dropComments`), zero all positions (`dropPos`), both (`skeleton`).
-/
namespace Verif.Spec
open Verif

/-- What to do with positions and with comment blocks. -/
structure AMap where
  pos : Pos → Pos
  com : CommentBlock → CommentBlock

/-- Leave positions alone, empty comment blocks. -/
def AMap.noComments : AMap := ⟨id, fun _ => []⟩
/-- Zero positions, leave comment blocks alone. -/
def AMap.noPos : AMap := ⟨fun _ => Pos.zero, id⟩
/-- Zero positions and empty comment blocks. -/
def AMap.skeleton : AMap := ⟨fun _ => Pos.zero, fun _ => []⟩
/-- Do nothing. -/
def AMap.id : AMap := ⟨fun p => p, fun c => c⟩

variable (m : AMap)

/-- On string attributes. -/
def AMap.str (a : StrAttr) : StrAttr := { a with start := m.pos a.start, comment := m.com a.comment }
/-- On number attributes. -/
def AMap.num (a : NumAttr) : NumAttr := { a with start := m.pos a.start, comment := m.com a.comment }
/-- On hash keys. -/
def AMap.hkey : HKey → HKey
  | .str a => .str (m.str a)
  | .num a => .num (m.num a)

mutual
/-- On attributes. -/
def AMap.attr : Attr → Attr
  | .nil => .nil
  | .str a => .str (m.str a)
  | .num a => .num (m.num a)
  | .arr p n as c f => .arr (m.pos p) n (AMap.attrs as) (m.com c) (m.com f)
  | .hash p n es c f => .hash (m.pos p) n (AMap.hentries es) (m.com c) (m.com f)
  | .plug p n v c => .plug (m.pos p) n (AMap.plugin v) (m.com c)
/-- On lists of attributes. -/
def AMap.attrs : List Attr → List Attr
  | [] => []
  | a :: as => AMap.attr a :: AMap.attrs as
/-- On hash entries. -/
def AMap.hentry : HEntry → HEntry
  | .mk p k v c => .mk (m.pos p) (m.hkey k) (AMap.attr v) (m.com c)
/-- On lists of hash entries. -/
def AMap.hentries : List HEntry → List HEntry
  | [] => []
  | e :: es => AMap.hentry e :: AMap.hentries es
/-- On plugins. -/
def AMap.plugin : Plugin → Plugin
  | .mk p n as c f => .mk (m.pos p) n (AMap.attrs as) (m.com c) (m.com f)
end

/-- On selector elements. -/
def AMap.selElem (s : SelElem) : SelElem := { s with start := m.pos s.start }
/-- On selectors. -/
def AMap.selector (s : Selector) : Selector := ⟨m.pos s.start, s.elems.map m.selElem⟩
/-- On regular expressions. -/
def AMap.regexp (r : RegexpLit) : RegexpLit := { r with start := m.pos r.start }
/-- On values in conditions. -/
def AMap.rvalue : Rvalue → Rvalue
  | .nil => .nil
  | .str a => .str (m.str a)
  | .num a => .num (m.num a)
  | .sel s => .sel (m.selector s)
  | .arr p n as c f => .arr (m.pos p) n (m.attrs as) (m.com c) (m.com f)
  | .re r => .re (m.regexp r)
/-- On boolean operators. -/
def AMap.boolOp (b : BoolOp) : BoolOp := { b with start := m.pos b.start }
/-- On the embedded boolean expression. -/
def AMap.boolExpr (b : BoolExpr) : BoolExpr := ⟨m.pos b.start, m.boolOp b.op⟩
/-- On compare operators. -/
def AMap.cmpOp (b : CmpOp) : CmpOp := { b with start := m.pos b.start }
/-- On regexp operators. -/
def AMap.reOp (b : ReOp) : ReOp := { b with start := m.pos b.start }

mutual
/-- On expressions. -/
def AMap.expr : Expr → Expr
  | .nil => .nil
  | .cond p b c => .cond (m.pos p) (m.boolExpr b) (AMap.cond c)
  | .negCond p b c => .negCond (m.pos p) (m.boolExpr b) (AMap.cond c)
  | .negSel p b s => .negSel (m.pos p) (m.boolExpr b) (m.selector s)
  | .inE p b l r => .inE (m.pos p) (m.boolExpr b) (m.rvalue l) (m.rvalue r)
  | .notIn p b l r => .notIn (m.pos p) (m.boolExpr b) (m.rvalue l) (m.rvalue r)
  | .rval p b r => .rval (m.pos p) (m.boolExpr b) (m.rvalue r)
  | .cmp p b l o r => .cmp (m.pos p) (m.boolExpr b) (m.rvalue l) (m.cmpOp o) (m.rvalue r)
  | .re p b l o r => .re (m.pos p) (m.boolExpr b) (m.rvalue l) (m.reOp o) (m.rvalue r)
/-- On conditions. -/
def AMap.cond : List Expr → List Expr
  | [] => []
  | e :: es => AMap.expr e :: AMap.cond es
end

mutual
/-- On branches and plugins. -/
def AMap.bop : BOP → BOP
  | .nil => .nil
  | .plugin p => .plugin (m.plugin p)
  | .pluginPtr p => .pluginPtr (m.plugin p)
  | .branch p c b cm f ei el =>
    .branch (m.pos p) (m.cond c) (AMap.bops b) (m.com cm) (m.com f) (AMap.elifs ei) (AMap.elseB el)
/-- On blocks. -/
def AMap.bops : List BOP → List BOP
  | [] => []
  | b :: bs => AMap.bop b :: AMap.bops bs
/-- On else-if blocks. -/
def AMap.elif : Elif → Elif
  | .mk p c b cm f => .mk (m.pos p) (m.cond c) (AMap.bops b) (m.com cm) (m.com f)
/-- On lists of else-if blocks. -/
def AMap.elifs : List Elif → List Elif
  | [] => []
  | e :: es => AMap.elif e :: AMap.elifs es
/-- On else blocks. -/
def AMap.elseB : ElseB → ElseB
  | .mk p b cm f => .mk (m.pos p) (AMap.bops b) (m.com cm) (m.com f)
end

/-- On sections. -/
def AMap.sect (s : Section) : Section :=
  ⟨m.pos s.start, s.ptype, m.bops s.bops, m.com s.comment, m.com s.footer⟩

/-- On configurations. -/
def AMap.config (c : Config) : Config :=
  ⟨c.input.map m.sect, c.filter.map m.sect, c.output.map m.sect, m.com c.footer, c.warnings⟩

/-- The configuration with every comment block emptied. -/
def dropComments (c : Config) : Config := AMap.noComments.config c

/-- The configuration with every position zeroed. -/
def dropPos (c : Config) : Config := AMap.noPos.config c

/-- The configuration without positions and warnings. -/
def content (c : Config) : Config := { AMap.noPos.config c with warnings := [] }

/-- The configuration without positions, comments and warnings. -/
def skeleton (c : Config) : Config := { AMap.skeleton.config c with warnings := [] }

end Verif.Spec
