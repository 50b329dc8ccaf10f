import Verif.Spec.MapAst
/-
Line ends of Windows: every newline becomes carriage return and newline (used by C78).
-/
namespace Verif.Spec
open Verif

/-- Every newline becomes carriage return and newline. -/
def crlf (t : Bytes) : Bytes := t.flatMap fun b => if b = 10 then [13, 10] else [b]

/-! The same in all names and literals of a configuration; comments are left alone. -/

/-- In a string attribute. -/
def crlfStr (a : StrAttr) : StrAttr := { a with name := crlf a.name, value := crlf a.value }
/-- In a number attribute. -/
def crlfNum (a : NumAttr) : NumAttr := { a with name := crlf a.name }
/-- In a hash key. -/
def crlfKey : HKey → HKey
  | .str a => .str (crlfStr a)
  | .num a => .num (crlfNum a)

mutual
/-- In an attribute. -/
def crlfAttr : Attr → Attr
  | .nil => .nil
  | .str a => .str (crlfStr a)
  | .num a => .num (crlfNum a)
  | .arr p n as c f => .arr p (crlf n) (crlfAttrs as) c f
  | .hash p n es c f => .hash p (crlf n) (crlfEntries es) c f
  | .plug p n v c => .plug p (crlf n) (crlfPlugin v) c
/-- In a list of attributes. -/
def crlfAttrs : List Attr → List Attr
  | [] => []
  | a :: as => crlfAttr a :: crlfAttrs as
/-- In a list of hash entries. -/
def crlfEntries : List HEntry → List HEntry
  | [] => []
  | .mk p k v c :: es => .mk p (crlfKey k) (crlfAttr v) c :: crlfEntries es
/-- In a plugin. -/
def crlfPlugin : Plugin → Plugin
  | .mk p n as c f => .mk p (crlf n) (crlfAttrs as) c f
end

/-- In a field reference. -/
def crlfSel (s : Selector) : Selector := { s with elems := s.elems.map fun e => { e with name := crlf e.name } }

/-- In a value of a condition. -/
def crlfRvalue : Rvalue → Rvalue
  | .nil => .nil
  | .str a => .str (crlfStr a)
  | .num a => .num (crlfNum a)
  | .sel s => .sel (crlfSel s)
  | .arr p n as c f => .arr p (crlf n) (crlfAttrs as) c f
  | .re r => .re { r with re := crlf r.re }

mutual
/-- In an expression. -/
def crlfExpr : Expr → Expr
  | .nil => .nil
  | .cond p b c => .cond p b (crlfCond c)
  | .negCond p b c => .negCond p b (crlfCond c)
  | .negSel p b s => .negSel p b (crlfSel s)
  | .inE p b l r => .inE p b (crlfRvalue l) (crlfRvalue r)
  | .notIn p b l r => .notIn p b (crlfRvalue l) (crlfRvalue r)
  | .rval p b r => .rval p b (crlfRvalue r)
  | .cmp p b l o r => .cmp p b (crlfRvalue l) o (crlfRvalue r)
  | .re p b l o r => .re p b (crlfRvalue l) o (crlfRvalue r)
/-- In a condition. -/
def crlfCond : List Expr → List Expr
  | [] => []
  | e :: es => crlfExpr e :: crlfCond es
end

mutual
/-- In a branch or plugin. -/
def crlfBop : BOP → BOP
  | .nil => .nil
  | .plugin p => .plugin (crlfPlugin p)
  | .pluginPtr p => .pluginPtr (crlfPlugin p)
  | .branch p c b cm f ei el => .branch p (crlfCond c) (crlfBops b) cm f (crlfElifs ei) (crlfElse el)
/-- In a block. -/
def crlfBops : List BOP → List BOP
  | [] => []
  | b :: bs => crlfBop b :: crlfBops bs
/-- In else-if blocks. -/
def crlfElifs : List Elif → List Elif
  | [] => []
  | .mk p c b cm f :: es => .mk p (crlfCond c) (crlfBops b) cm f :: crlfElifs es
/-- In an else block. -/
def crlfElse : ElseB → ElseB
  | .mk p b cm f => .mk p (crlfBops b) cm f
end

/-- In a section. -/
def crlfSect (s : Section) : Section := { s with bops := crlfBops s.bops }

/-- In a configuration. -/
def crlfConfig (c : Config) : Config :=
  { c with input := c.input.map crlfSect, filter := c.filter.map crlfSect, output := c.output.map crlfSect }

end Verif.Spec
