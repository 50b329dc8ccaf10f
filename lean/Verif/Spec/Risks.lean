import Verif.Spec.Printable
import Verif.Spec.App
/-
The places of a configuration where formatting can go wrong, as a list: what has to be looked at to
see that a configuration returned by `Parse` is printable.
-/
namespace Verif.Spec
open Verif

/-- A place where formatting can go wrong. -/
inductive Risk
  /-- A number. -/
  | number (x : F64)
  /-- The text of a regular expression or of an element of a field reference. -/
  | pattern (b : Bytes)
  /-- An array in a condition, as printed. -/
  | array (b : Bytes)
  /-- The name of a plugin right after a branch that is printed without else block. -/
  | afterIf (name : Bytes)

/-- Formatting does not go wrong there. -/
def Risk.Fine : Risk → Prop
  | .number x => Exact x
  | .pattern b => Balanced b
  | .array b => ¬ SelLike b
  | .afterIf n => ¬ ElseName n

/-- A hash key. -/
def keyRisks : HKey → List Risk
  | .str _ => []
  | .num a => [.number a.value]

mutual
/-- Of a value. -/
def valRisks : Attr → List Risk
  | .nil => []
  | .str _ => []
  | .num a => [.number a.value]
  | .arr _ _ as _ _ => attrsRisks as
  | .hash _ _ es _ _ => entriesRisks es
  | .plug _ _ p _ => pluginRisks p
/-- Of attributes or array elements. -/
def attrsRisks : List Attr → List Risk
  | [] => []
  | a :: as => valRisks a ++ attrsRisks as
/-- Of hash entries. -/
def entriesRisks : List HEntry → List Risk
  | [] => []
  | .mk _ k v _ :: es => keyRisks k ++ valRisks v ++ entriesRisks es
/-- Of a plugin. -/
def pluginRisks : Plugin → List Risk
  | .mk _ _ as _ _ => attrsRisks as
end

/-- Of a field reference. -/
def selRisks (s : Selector) : List Risk := s.elems.map fun e => .pattern e.name

/-- Of a value in a condition. -/
def rvalueRisks : Rvalue → List Risk
  | .nil => []
  | .str _ => []
  | .num a => [.number a.value]
  | .sel s => selRisks s
  | .arr p n as c f => .array (Rvalue.arr p n as c f).valueStr :: attrsRisks as
  | .re r => [.pattern r.re]

mutual
/-- Of an expression. -/
def exprRisks : Expr → List Risk
  | .nil => []
  | .cond _ _ c => condRisks c
  | .negCond _ _ c => condRisks c
  | .negSel _ _ s => selRisks s
  | .inE _ _ l r => rvalueRisks l ++ rvalueRisks r
  | .notIn _ _ l r => rvalueRisks l ++ rvalueRisks r
  | .rval _ _ r => rvalueRisks r
  | .cmp _ _ l _ r => rvalueRisks l ++ rvalueRisks r
  | .re _ _ l _ r => rvalueRisks l ++ rvalueRisks r
/-- Of a condition. -/
def condRisks : List Expr → List Risk
  | [] => []
  | e :: es => exprRisks e ++ condRisks es
end

/-- The plugin at the beginning of the rest of a block, if there is one. -/
def headRisk : List BOP → List Risk
  | .plugin p :: _ => [.afterIf p.name]
  | .pluginPtr p :: _ => [.afterIf p.name]
  | _ => []

mutual
/-- Of a block element. -/
def bopRisks : BOP → List Risk
  | .nil => []
  | .plugin p => pluginRisks p
  | .pluginPtr p => pluginRisks p
  | .branch _ c b _ _ ei el => condRisks c ++ blockRisks b ++ elifsRisks ei ++ elseRisks el
/-- Of a block. -/
def blockRisks : List BOP → List Risk
  | [] => []
  | b :: bs => bopRisks b ++ (if b.isOpen then headRisk bs else []) ++ blockRisks bs
/-- Of else-if blocks. -/
def elifsRisks : List Elif → List Risk
  | [] => []
  | .mk _ c b _ _ :: es => condRisks c ++ blockRisks b ++ elifsRisks es
/-- Of an else block. -/
def elseRisks : ElseB → List Risk
  | .mk _ b _ _ => blockRisks b
end

/-- Of some sections. -/
def sectionsRisks (l : List Section) : List Risk := l.flatMap fun s => blockRisks s.bops

/-- Of a configuration. -/
def risks (c : Config) : List Risk := sectionsRisks c.input ++ sectionsRisks c.filter ++ sectionsRisks c.output

/-- The numbers of a configuration. -/
def numbers (c : Config) : List F64 := (risks c).filterMap fun r => match r with | .number x => some x | _ => none

/-- Its regular expressions and the elements of its field references. -/
def patterns (c : Config) : List Bytes := (risks c).filterMap fun r => match r with | .pattern b => some b | _ => none

/-- The arrays in its conditions, as printed. -/
def arraysInConditions (c : Config) : List Bytes := (risks c).filterMap fun r => match r with | .array b => some b | _ => none

/-- The names of plugins right after a branch that is printed without else block. -/
def namesAfterBranches (c : Config) : List Bytes := (risks c).filterMap fun r => match r with | .afterIf n => some n | _ => none

end Verif.Spec
