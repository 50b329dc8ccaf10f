import Verif.Model.Ast
/-
Specification for C36: the tree with all nil elements removed, at every depth.
-/
namespace Verif.Spec
open Verif

mutual
/-- Remove the nil elements inside an attribute. -/
def dropNilAttr : Attr → Attr
  | .arr p n as c f => .arr p n (dropNilAttrs as) c f
  | .hash p n es c f => .hash p n (dropNilEntries es) c f
  | .plug p n v c => .plug p n (dropNilPlugin v) c
  | .nil => .nil
  | .str a => .str a
  | .num a => .num a
/-- Remove the nil elements of a list of attributes. -/
def dropNilAttrs : List Attr → List Attr
  | [] => []
  | .nil :: as => dropNilAttrs as
  | .arr p n l c f :: as => .arr p n (dropNilAttrs l) c f :: dropNilAttrs as
  | .hash p n es c f :: as => .hash p n (dropNilEntries es) c f :: dropNilAttrs as
  | .plug p n v c :: as => .plug p n (dropNilPlugin v) c :: dropNilAttrs as
  | .str a :: as => .str a :: dropNilAttrs as
  | .num a :: as => .num a :: dropNilAttrs as
/-- Remove the nil elements inside the values of hash entries. -/
def dropNilEntries : List HEntry → List HEntry
  | [] => []
  | .mk p k v c :: es => .mk p k (dropNilAttr v) c :: dropNilEntries es
/-- Remove the nil elements inside a plugin. -/
def dropNilPlugin : Plugin → Plugin
  | .mk p n as c f => .mk p n (dropNilAttrs as) c f
end

/-- Remove nil elements inside a value of a condition. -/
def dropNilRvalue : Rvalue → Rvalue
  | .arr p n as c f => .arr p n (dropNilAttrs as) c f
  | r => r

mutual
/-- Remove nil expressions (and nil array elements) inside an expression. -/
def dropNilExpr : Expr → Expr
  | .nil => .nil
  | .cond p b c => .cond p b (dropNilCond c)
  | .negCond p b c => .negCond p b (dropNilCond c)
  | .negSel p b s => .negSel p b s
  | .inE p b l r => .inE p b (dropNilRvalue l) (dropNilRvalue r)
  | .notIn p b l r => .notIn p b (dropNilRvalue l) (dropNilRvalue r)
  | .rval p b r => .rval p b (dropNilRvalue r)
  | .cmp p b l o r => .cmp p b (dropNilRvalue l) o (dropNilRvalue r)
  | .re p b l o r => .re p b (dropNilRvalue l) o (dropNilRvalue r)
/-- Remove the nil expressions of a condition. -/
def dropNilCond : List Expr → List Expr
  | [] => []
  | .nil :: es => dropNilCond es
  | .cond p b c :: es => .cond p b (dropNilCond c) :: dropNilCond es
  | .negCond p b c :: es => .negCond p b (dropNilCond c) :: dropNilCond es
  | .negSel p b s :: es => .negSel p b s :: dropNilCond es
  | .inE p b l r :: es => .inE p b (dropNilRvalue l) (dropNilRvalue r) :: dropNilCond es
  | .notIn p b l r :: es => .notIn p b (dropNilRvalue l) (dropNilRvalue r) :: dropNilCond es
  | .rval p b r :: es => .rval p b (dropNilRvalue r) :: dropNilCond es
  | .cmp p b l o r :: es => .cmp p b (dropNilRvalue l) o (dropNilRvalue r) :: dropNilCond es
  | .re p b l o r :: es => .re p b (dropNilRvalue l) o (dropNilRvalue r) :: dropNilCond es
end

mutual
/-- Remove the nil elements inside a branch or plugin. -/
def dropNilBOP : BOP → BOP
  | .nil => .nil
  | .plugin p => .plugin (dropNilPlugin p)
  | .pluginPtr p => .pluginPtr (dropNilPlugin p)
  | .branch p c b cm f ei el =>
    .branch p (dropNilCond c) (dropNilBOPs b) cm f (dropNilElifs ei) (dropNilElse el)
/-- Remove the nil elements of a block. -/
def dropNilBOPs : List BOP → List BOP
  | [] => []
  | .nil :: bs => dropNilBOPs bs
  | .plugin p :: bs => .plugin (dropNilPlugin p) :: dropNilBOPs bs
  | .pluginPtr p :: bs => .pluginPtr (dropNilPlugin p) :: dropNilBOPs bs
  | .branch p c b cm f ei el :: bs =>
    .branch p (dropNilCond c) (dropNilBOPs b) cm f (dropNilElifs ei) (dropNilElse el) ::
      dropNilBOPs bs
/-- Remove the nil elements inside else-if blocks. -/
def dropNilElifs : List Elif → List Elif
  | [] => []
  | .mk p c b cm f :: es => .mk p (dropNilCond c) (dropNilBOPs b) cm f :: dropNilElifs es
/-- Remove the nil elements inside an else block. -/
def dropNilElse : ElseB → ElseB
  | .mk p b cm f => .mk p (dropNilBOPs b) cm f
end

mutual
/-- No else block inside consists of nil elements only: removing them would make the
else block vanish. -/
def elseOkBOP : BOP → Prop
  | .nil => True
  | .plugin _ => True
  | .pluginPtr _ => True
  | .branch _ _ b _ _ ei el => elseOkBOPs b ∧ elseOkElifs ei ∧ elseOkElse el
/-- See `elseOkBOP`. -/
def elseOkBOPs : List BOP → Prop
  | [] => True
  | b :: bs => elseOkBOP b ∧ elseOkBOPs bs
/-- See `elseOkBOP`. -/
def elseOkElifs : List Elif → Prop
  | [] => True
  | .mk _ _ b _ _ :: es => elseOkBOPs b ∧ elseOkElifs es
/-- See `elseOkBOP`. -/
def elseOkElse : ElseB → Prop
  | .mk _ b _ _ => elseOkBOPs b ∧ (b = [] ∨ ∃ x ∈ b, x ≠ .nil)
end

/-- Remove all nil elements of a section. -/
def dropNilSection (s : Section) : Section := { s with bops := dropNilBOPs s.bops }

/-- Remove all nil elements of a configuration. -/
def dropNilConfig (c : Config) : Config :=
  { c with input := c.input.map dropNilSection, filter := c.filter.map dropNilSection,
           output := c.output.map dropNilSection }

/-- See `elseOkBOP`. -/
def elseOkConfig (c : Config) : Prop :=
  ∀ s, s ∈ c.input ∨ s ∈ c.filter ∨ s ∈ c.output → elseOkBOPs s.bops

end Verif.Spec
