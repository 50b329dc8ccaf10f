import Verif.Spec.Cst
/-
The layout of a file: two concrete syntax trees have the same tokens when they are equal after
emptying all gaps (whitespace and comments).
-/
namespace Verif.Spec
open Verif

mutual
/-- The value with all gaps emptied. -/
def CVal.strip : CVal → CVal
  | .str s => .str s
  | .num t => .num t
  | .arr elems _ => .arr (elemsStrip elems) .empty
  | .hash entries _ => .hash (entriesStrip entries) .empty
  | .plug p => .plug p.strip
/-- The same for array elements. -/
def elemsStrip : List CElem → List CElem
  | [] => []
  | .mk _ _ v :: r => .mk .empty .empty v.strip :: elemsStrip r
/-- The same for hash entries. -/
def entriesStrip : List CEntry → List CEntry
  | [] => []
  | .mk _ _ k _ _ v :: r => .mk [] .empty k .empty .empty v.strip :: entriesStrip r
/-- The same for a plugin. -/
def CPlugin.strip : CPlugin → CPlugin
  | .mk name _ attrs _ => .mk name .empty (attrsStrip attrs) .empty
/-- The same for attributes. -/
def attrsStrip : List CAttr → List CAttr
  | [] => []
  | .mk _ _ n _ _ v :: r => .mk [] .empty n .empty .empty v.strip :: attrsStrip r
end

/-- The same for a value in a condition. -/
def CRval.strip : CRval → CRval
  | .arr elems _ => .arr (elemsStrip elems) .empty
  | .str s => .str s
  | .num t => .num t
  | .sel names => .sel names
  | .re body => .re body

mutual
/-- The same for an expression. -/
def CExpr.strip : CExpr → CExpr
  | .paren _ c _ => .paren .empty c.strip .empty
  | .notParen _ _ c _ => .notParen .empty .empty c.strip .empty
  | .notSel _ names => .notSel .empty names
  | .inE l _ _ r => .inE l.strip .empty .empty r.strip
  | .notIn l _ _ _ r => .notIn l.strip .empty .empty .empty r.strip
  | .cmp l _ op _ r => .cmp l.strip .empty op .empty r.strip
  | .re l _ op _ r => .re l.strip .empty op .empty r.strip
  | .rval r => .rval r.strip
/-- The same for a condition. -/
def CCond.strip : CCond → CCond
  | .mk e more => .mk e.strip (moreStrip more)
/-- The same for the further expressions. -/
def moreStrip : List CMore → List CMore
  | [] => []
  | .mk _ op _ e :: r => .mk .empty op .empty e.strip :: moreStrip r
end

mutual
/-- The same for a block element. -/
def CItem.strip : CItem → CItem
  | .plugin _ p => .plugin .empty p.strip
  | .branch _ _ c _ items _ elifs els =>
    .branch .empty .empty c.strip .empty (itemsStrip items) .empty (elifsStrip elifs) els.strip
/-- The same for a block. -/
def itemsStrip : List CItem → List CItem
  | [] => []
  | i :: r => i.strip :: itemsStrip r
/-- The same for else-if blocks. -/
def elifsStrip : List CElif → List CElif
  | [] => []
  | .mk _ _ _ c _ items _ :: r =>
    .mk .empty .empty .empty c.strip .empty (itemsStrip items) .empty :: elifsStrip r
/-- The same for an else block. -/
def CElse.strip : CElse → CElse
  | .none => .none
  | .mk _ _ items _ => .mk .empty .empty (itemsStrip items) .empty
end

/-- The same for a section. -/
def CSection.strip (s : CSection) : CSection := ⟨.empty, s.ptype, .empty, itemsStrip s.items, .empty⟩

/-- The same for a file. -/
def CFile.strip : CFile → CFile
  | .empty _ => .empty .empty
  | .config s ss _ => .config s.strip (ss.map CSection.strip) .empty

end Verif.Spec
