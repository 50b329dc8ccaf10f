import Verif.Spec.Positioned
/-
The hash entries of a configuration, and the places where their keys are written.
-/
namespace Verif.Spec
open Verif

mutual
/-- The hash entries in an attribute. -/
def attrEntries : Attr → List HEntry
  | .arr _ _ as _ _ => attrsEntries as
  | .hash _ _ es _ _ => es ++ entriesEntries es
  | .plug _ _ p _ => pluginEntries p
  | _ => []
/-- The hash entries in a list of attributes. -/
def attrsEntries : List Attr → List HEntry
  | [] => []
  | a :: as => attrEntries a ++ attrsEntries as
/-- The hash entries in the values of hash entries. -/
def entriesEntries : List HEntry → List HEntry
  | [] => []
  | .mk _ _ v _ :: es => attrEntries v ++ entriesEntries es
/-- The hash entries in a plugin. -/
def pluginEntries : Plugin → List HEntry
  | .mk _ _ as _ _ => attrsEntries as
end

/-- The hash entries in a value of a condition. -/
def rvalueEntries : Rvalue → List HEntry
  | .arr _ _ as _ _ => attrsEntries as
  | _ => []

mutual
/-- The hash entries in an expression. -/
def exprHEntries : Expr → List HEntry
  | .cond _ _ c => condEntries c
  | .negCond _ _ c => condEntries c
  | .inE _ _ l r => rvalueEntries l ++ rvalueEntries r
  | .notIn _ _ l r => rvalueEntries l ++ rvalueEntries r
  | .rval _ _ r => rvalueEntries r
  | .cmp _ _ l _ r => rvalueEntries l ++ rvalueEntries r
  | .re _ _ l _ r => rvalueEntries l ++ rvalueEntries r
  | _ => []
/-- The hash entries in a condition. -/
def condEntries : List Expr → List HEntry
  | [] => []
  | e :: es => exprHEntries e ++ condEntries es
end

mutual
/-- The hash entries in a block element. -/
def bopEntries : BOP → List HEntry
  | .plugin p => pluginEntries p
  | .pluginPtr p => pluginEntries p
  | .branch _ c b _ _ ei el => condEntries c ++ bopsEntries b ++ elifsEntries ei ++ elseEntries el
  | .nil => []
/-- The hash entries in a block. -/
def bopsEntries : List BOP → List HEntry
  | [] => []
  | b :: bs => bopEntries b ++ bopsEntries bs
/-- The hash entries in else-if blocks. -/
def elifsEntries : List Elif → List HEntry
  | [] => []
  | .mk _ c b _ _ :: es => condEntries c ++ bopsEntries b ++ elifsEntries es
/-- The hash entries in an else block. -/
def elseEntries : ElseB → List HEntry
  | .mk _ b _ _ => bopsEntries b
end

/-- All hash entries of a configuration. -/
def configEntries (c : Config) : List HEntry := (c.input ++ c.filter ++ c.output).flatMap fun s => bopsEntries s.bops

end Verif.Spec
