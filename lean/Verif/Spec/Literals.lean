import Verif.Model.Ast
import Verif.Spec.Cst
/-
The tokens a configuration is made of, in the order in which they are printed: names, string
literals with their quotes, field references and regular expressions.
-/
namespace Verif.Spec
open Verif

/-- `Spread ls t`: the texts `ls` occur in `t`, in this order and without overlap. -/
inductive Spread : List Bytes → Bytes → Prop
  | nil (t : Bytes) : Spread [] t
  | cons (g l : Bytes) {ls : List Bytes} {t : Bytes} : Spread ls t → Spread (l :: ls) (g ++ l ++ t)

/-- The literal of a string attribute. -/
def litText (a : StrAttr) : Bytes := (⟨a.sat, a.value⟩ : StrLit).text

/-- A hash key. -/
def keyLits : HKey → List Bytes
  | .str a => [litText a]
  | .num _ => []

mutual
/-- The tokens of a value. -/
def valLits : Attr → List Bytes
  | .nil => []
  | .str a => [litText a]
  | .num _ => []
  | .arr _ _ as _ _ => elemsLits as
  | .hash _ _ es _ _ => entriesLits es
  | .plug _ _ p _ => pluginLits p
/-- Of array elements. -/
def elemsLits : List Attr → List Bytes
  | [] => []
  | a :: as => valLits a ++ elemsLits as
/-- Of hash entries. -/
def entriesLits : List HEntry → List Bytes
  | [] => []
  | .mk _ k v _ :: es => keyLits k ++ valLits v ++ entriesLits es
/-- Of a plugin. -/
def pluginLits : Plugin → List Bytes
  | .mk _ n as _ _ => n :: attrsLits as
/-- Of attributes. -/
def attrsLits : List Attr → List Bytes
  | [] => []
  | .nil :: as => attrsLits as
  | .str a :: as => a.name :: litText a :: attrsLits as
  | .num a :: as => a.name :: attrsLits as
  | .arr _ n es _ _ :: as => n :: elemsLits es ++ attrsLits as
  | .hash _ n es _ _ :: as => n :: entriesLits es ++ attrsLits as
  | .plug _ n p _ :: as => n :: pluginLits p ++ attrsLits as
end

/-- Of a field reference. -/
def selLit (s : Selector) : Bytes := selText (s.elems.map (·.name))

/-- Of a value in a condition. -/
def rvalueLits : Rvalue → List Bytes
  | .nil => []
  | .str a => [litText a]
  | .num _ => []
  | .sel s => [selLit s]
  | .arr _ _ as _ _ => elemsLits as
  | .re r => [b!"/" ++ r.re ++ b!"/"]

mutual
/-- Of an expression. -/
def exprLits : Expr → List Bytes
  | .nil => []
  | .cond _ _ c => condLits c
  | .negCond _ _ c => condLits c
  | .negSel _ _ s => [selLit s]
  | .inE _ _ l r => rvalueLits l ++ rvalueLits r
  | .notIn _ _ l r => rvalueLits l ++ rvalueLits r
  | .rval _ _ r => rvalueLits r
  | .cmp _ _ l _ r => rvalueLits l ++ rvalueLits r
  | .re _ _ l _ r => rvalueLits l ++ rvalueLits r
/-- Of a condition. -/
def condLits : List Expr → List Bytes
  | [] => []
  | e :: es => exprLits e ++ condLits es
end

mutual
/-- Of a block element. -/
def bopLits : BOP → List Bytes
  | .nil => []
  | .plugin p => pluginLits p
  | .pluginPtr p => pluginLits p
  | .branch _ c b _ _ ei el => condLits c ++ blockLits b ++ elifsLits ei ++ elseLits el
/-- Of a block. -/
def blockLits : List BOP → List Bytes
  | [] => []
  | b :: bs => bopLits b ++ blockLits bs
/-- Of else-if blocks. -/
def elifsLits : List Elif → List Bytes
  | [] => []
  | .mk _ c b _ _ :: es => condLits c ++ blockLits b ++ elifsLits es
/-- Of an else block. -/
def elseLits : ElseB → List Bytes
  | .mk _ b _ _ => blockLits b
end

/-- Of a configuration. -/
def configLits (c : Config) : List Bytes :=
  (c.input ++ c.filter ++ c.output).flatMap fun s => blockLits s.bops

end Verif.Spec
