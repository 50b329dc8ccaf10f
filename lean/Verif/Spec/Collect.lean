import Verif.Spec.Cst
/-
What occurs in a configuration and in a concrete syntax tree, for C19 and C37: all conditions of an
AST, all arrays of an AST, all arrays of a file as written.
-/
namespace Verif.Spec
open Verif

/-! ### Arrays of an AST, outermost first, in source order -/

mutual
/-- The arrays in an attribute. -/
def attrArrays : Attr → List (List Attr)
  | .arr _ _ as _ _ => as :: attrsArrays as
  | .hash _ _ es _ _ => entriesArrays es
  | .plug _ _ p _ => pluginArrays p
  | _ => []
/-- The arrays in a list of attributes. -/
def attrsArrays : List Attr → List (List Attr)
  | [] => []
  | a :: as => attrArrays a ++ attrsArrays as
/-- The arrays in hash entries. -/
def entriesArrays : List HEntry → List (List Attr)
  | [] => []
  | .mk _ _ v _ :: es => attrArrays v ++ entriesArrays es
/-- The arrays in a plugin. -/
def pluginArrays : Plugin → List (List Attr)
  | .mk _ _ as _ _ => attrsArrays as
end

/-- The arrays in a value of a condition. -/
def rvalueArrays : Rvalue → List (List Attr)
  | .arr _ _ as _ _ => as :: attrsArrays as
  | _ => []

mutual
/-- The arrays in an expression. -/
def exprArrays : Expr → List (List Attr)
  | .cond _ _ c => condArrays c
  | .negCond _ _ c => condArrays c
  | .inE _ _ l r => rvalueArrays l ++ rvalueArrays r
  | .notIn _ _ l r => rvalueArrays l ++ rvalueArrays r
  | .rval _ _ r => rvalueArrays r
  | .cmp _ _ l _ r => rvalueArrays l ++ rvalueArrays r
  | .re _ _ l _ r => rvalueArrays l ++ rvalueArrays r
  | _ => []
/-- The arrays in a condition. -/
def condArrays : List Expr → List (List Attr)
  | [] => []
  | e :: es => exprArrays e ++ condArrays es
end

mutual
/-- The arrays in a block element. -/
def bopArrays : BOP → List (List Attr)
  | .plugin p => pluginArrays p
  | .pluginPtr p => pluginArrays p
  | .branch _ c b _ _ ei el => condArrays c ++ bopsArrays b ++ elifsArrays ei ++ elseArrays el
  | .nil => []
/-- The arrays in a block. -/
def bopsArrays : List BOP → List (List Attr)
  | [] => []
  | b :: bs => bopArrays b ++ bopsArrays bs
/-- The arrays in else-if blocks. -/
def elifsArrays : List Elif → List (List Attr)
  | [] => []
  | .mk _ c b _ _ :: es => condArrays c ++ bopsArrays b ++ elifsArrays es
/-- The arrays in an else block. -/
def elseArrays : ElseB → List (List Attr)
  | .mk _ b _ _ => bopsArrays b
end

/-- The arrays in a list of sections. -/
def sectsArrays (l : List Section) : List (List Attr) := l.flatMap fun s => bopsArrays s.bops

/-! ### Conditions of an AST -/

mutual
/-- The conditions in an expression. -/
def exprConds : Expr → List Condition
  | .cond _ _ c => c :: condConds c
  | .negCond _ _ c => c :: condConds c
  | _ => []
/-- The conditions inside a condition. -/
def condConds : List Expr → List Condition
  | [] => []
  | e :: es => exprConds e ++ condConds es
end

mutual
/-- The conditions in a block element. -/
def bopConds : BOP → List Condition
  | .branch _ c b _ _ ei el => c :: condConds c ++ bopsConds b ++ elifsConds ei ++ elseConds el
  | _ => []
/-- The conditions in a block. -/
def bopsConds : List BOP → List Condition
  | [] => []
  | b :: bs => bopConds b ++ bopsConds bs
/-- The conditions in else-if blocks. -/
def elifsConds : List Elif → List Condition
  | [] => []
  | .mk _ c b _ _ :: es => c :: condConds c ++ bopsConds b ++ elifsConds es
/-- The conditions in an else block. -/
def elseConds : ElseB → List Condition
  | .mk _ b _ _ => bopsConds b
end

/-- All conditions of a configuration. -/
def configConds (c : Config) : List Condition :=
  (c.input ++ c.filter ++ c.output).flatMap fun s => bopsConds s.bops

/-! ### Arrays of a file as written -/

mutual
/-- The arrays in a value. -/
def CVal.arrays : CVal → List (List CElem)
  | .arr es _ => es :: elemsArrays es
  | .hash es _ => centriesArrays es
  | .plug p => p.arrays
  | _ => []
/-- The arrays in array elements. -/
def elemsArrays : List CElem → List (List CElem)
  | [] => []
  | .mk _ _ v :: r => v.arrays ++ elemsArrays r
/-- The arrays in hash entries. -/
def centriesArrays : List CEntry → List (List CElem)
  | [] => []
  | .mk _ _ _ _ _ v :: r => v.arrays ++ centriesArrays r
/-- The arrays in a plugin. -/
def CPlugin.arrays : CPlugin → List (List CElem)
  | .mk _ _ as _ => cattrsArrays as
/-- The arrays in attributes. -/
def cattrsArrays : List CAttr → List (List CElem)
  | [] => []
  | .mk _ _ _ _ _ v :: r => v.arrays ++ cattrsArrays r
end

/-- The arrays in a value of a condition. -/
def CRval.arrays : CRval → List (List CElem)
  | .arr es _ => es :: elemsArrays es
  | _ => []

mutual
/-- The arrays in an expression. -/
def CExpr.arrays : CExpr → List (List CElem)
  | .paren _ c _ => c.arrays
  | .notParen _ _ c _ => c.arrays
  | .notSel _ _ => []
  | .inE l _ _ r => l.arrays ++ r.arrays
  | .notIn l _ _ _ r => l.arrays ++ r.arrays
  | .cmp l _ _ _ r => l.arrays ++ r.arrays
  | .re l _ _ _ r => l.arrays ++ r.arrays
  | .rval r => r.arrays
/-- The arrays in a condition. -/
def CCond.arrays : CCond → List (List CElem)
  | .mk e more => e.arrays ++ moreArrays more
/-- The arrays in further expressions. -/
def moreArrays : List CMore → List (List CElem)
  | [] => []
  | .mk _ _ _ e :: r => e.arrays ++ moreArrays r
end

mutual
/-- The arrays in a block element. -/
def CItem.arrays : CItem → List (List CElem)
  | .plugin _ p => p.arrays
  | .branch _ _ c _ items _ elifs els => c.arrays ++ itemsArrays items ++ celifsArrays elifs ++ els.arrays
/-- The arrays in a block. -/
def itemsArrays : List CItem → List (List CElem)
  | [] => []
  | i :: r => i.arrays ++ itemsArrays r
/-- The arrays in else-if blocks. -/
def celifsArrays : List CElif → List (List CElem)
  | [] => []
  | .mk _ _ _ c _ items _ :: r => c.arrays ++ itemsArrays items ++ celifsArrays r
/-- The arrays in an else block. -/
def CElse.arrays : CElse → List (List CElem)
  | .none => []
  | .mk _ _ items _ => itemsArrays items
end

/-- The sections of a file as written. -/
def CFile.secs : CFile → List CSection
  | .empty _ => []
  | .config s ss _ => s :: ss

/-- The arrays of a file as written, in the sections of one type. -/
def CFile.arrays (k : CFile) (t : PluginType) : List (List CElem) :=
  (k.secs.filter (·.ptype = t)).flatMap fun s => itemsArrays s.items

/-- Is the element a plugin? -/
def CElem.isPlug : CElem → Bool
  | .mk _ _ v => v.isPlug

end Verif.Spec
