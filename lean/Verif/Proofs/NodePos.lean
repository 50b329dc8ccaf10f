import Verif.Spec.Positioned
import Verif.Spec.MapAst
/-
The AST with positions, with its positions zeroed, is the AST without positions.
-/
namespace Verif
open Spec

theorem np_str (p : Pos) (s : StrLit) : AMap.noPos.str (s.astAt p) = s.ast := rfl
theorem np_num (t : Bytes) : AMap.noPos.num (numAst t) = numAst t := rfl

theorem np_key (pos : Nat → Pos) (k : Nat) (c : CKey) : AMap.noPos.hkey (c.astAt pos k) = c.ast := by cases c <;> rfl

theorem np_com (x : CommentBlock) (a : Attr) : AMap.noPos.attr (withComment x a) = withComment x (AMap.noPos.attr a) := by
  cases a <;> simp [AMap.attr, withComment, AMap.str, AMap.num, AMap.noPos]

theorem np_name (p : Pos) (n : Bytes) (a : Attr) : AMap.noPos.attr (withNameAt p n a) = withName n (AMap.noPos.attr a) := by
  cases a <;> simp [AMap.attr, withNameAt, withName, AMap.str, AMap.num, AMap.noPos]

variable (ign : Bool) (pos : Nat → Pos)

mutual
theorem np_val : ∀ (c : CVal) (k : Nat), AMap.noPos.attr (c.astAt ign pos k) = c.ast ign
  | .str s, k => by rw [CVal.astAt, CVal.ast, AMap.attr, np_str]
  | .num t, k => by rw [CVal.astAt, CVal.ast, AMap.attr, np_num]
  | .arr es f, k => by rw [CVal.astAt, CVal.ast, AMap.attr, np_elems es]; rfl
  | .hash es f, k => by rw [CVal.astAt, CVal.ast, AMap.attr, np_entries es]; rfl
  | .plug p, k => by rw [CVal.astAt, CVal.ast, AMap.attr, np_plugin p]; rfl
theorem np_elems : ∀ (es : List CElem) (first : Bool) (k : Nat), AMap.noPos.attrs (elemsAt ign pos first k es) = elemsAst ign first es
  | [], first, k => by rw [elemsAt, elemsAst, AMap.attrs]
  | .mk pre com v :: r, first, k => by
    rw [elemsAt, elemsAst]
    split
    · exact np_elems r false _
    · rw [AMap.attrs, np_com, np_val v, np_elems r]
theorem np_entries : ∀ (es : List CEntry) (first : Bool) (k : Nat), AMap.noPos.hentries (entriesAt ign pos first k es) = entriesAst ign first es
  | [], first, k => by rw [entriesAt, entriesAst, AMap.hentries]
  | .mk sep com key g1 g2 v :: r, first, k => by
    rw [entriesAt, entriesAst, AMap.hentries, AMap.hentry, np_val v, np_entries r, np_key]; rfl
theorem np_plugin : ∀ (p : CPlugin) (k : Nat) (c : CommentBlock), AMap.noPos.plugin (p.astAt ign pos k c) = p.ast ign c
  | .mk n g as f, k, c => by rw [CPlugin.astAt, CPlugin.ast, AMap.plugin, np_attrs as]; rfl
theorem np_attrs : ∀ (as : List CAttr) (first : Bool) (k : Nat), AMap.noPos.attrs (attrsAt ign pos first k as) = attrsAst ign first as
  | [], first, k => by rw [attrsAt, attrsAst, AMap.attrs]
  | .mk sep com n g1 g2 v :: r, first, k => by
    rw [attrsAt, attrsAst, AMap.attrs, np_com, np_name, np_val v, np_attrs r]
end

theorem np_selElems : ∀ (names : List Bytes) (k : Nat), (selElemsAt pos k names).map AMap.noPos.selElem = names.map fun n => ⟨Pos.zero, n⟩
  | [], k => rfl
  | n :: r, k => by rw [selElemsAt, List.map_cons, List.map_cons, np_selElems r]; rfl

theorem np_sel (names : List Bytes) (k : Nat) : AMap.noPos.selector (selAt pos k names) = selAst names := by
  rw [selAt, AMap.selector, np_selElems]; rfl

theorem np_rval (r : CRval) (k : Nat) : AMap.noPos.rvalue (r.astAt ign pos k) = r.ast ign := by
  cases r with
  | str s => rfl
  | num t => rfl
  | sel n => rw [CRval.astAt, AMap.rvalue, np_sel]; rfl
  | arr es f => rw [CRval.astAt, AMap.rvalue, np_elems]; rfl
  | re b => rfl

mutual
theorem np_expr : ∀ (e : CExpr) (k : Nat) (j : BoolExpr), AMap.noPos.expr (e.astAt ign pos k j) = e.ast ign j.op.op
  | .paren g1 c g2, k, j => by rw [CExpr.astAt, CExpr.ast, AMap.expr, np_cond c]; rfl
  | .notParen g0 g1 c g2, k, j => by rw [CExpr.astAt, CExpr.ast, AMap.expr, np_cond c]; rfl
  | .notSel g names, k, j => by rw [CExpr.astAt, CExpr.ast, AMap.expr, np_sel]; rfl
  | .inE l g1 g2 r, k, j => by rw [CExpr.astAt, CExpr.ast, AMap.expr, np_rval, np_rval]; rfl
  | .notIn l g1 g2 g3 r, k, j => by rw [CExpr.astAt, CExpr.ast, AMap.expr, np_rval, np_rval]; rfl
  | .cmp l g1 op g2 r, k, j => by rw [CExpr.astAt, CExpr.ast, AMap.expr, np_rval, np_rval]; rfl
  | .re l g1 op g2 r, k, j => by rw [CExpr.astAt, CExpr.ast, AMap.expr, np_rval, np_rval]; rfl
  | .rval r, k, j => by rw [CExpr.astAt, CExpr.ast, AMap.expr, np_rval]; rfl
theorem np_cond : ∀ (c : CCond) (k : Nat), AMap.noPos.cond (c.astAt ign pos k) = c.ast ign
  | .mk e more, k => by rw [CCond.astAt, CCond.ast, AMap.cond, np_expr e, np_more more]; rfl
theorem np_more : ∀ (m : List CMore) (k : Nat), AMap.noPos.cond (moreAt ign pos k m) = moreAst ign m
  | [], k => by rw [moreAt, moreAst, AMap.cond]
  | .mk g1 op g2 e :: r, k => by rw [moreAt, moreAst, AMap.cond, np_expr e, np_more r]; rfl
end

mutual
theorem np_item : ∀ (i : CItem) (k : Nat), AMap.noPos.bop (i.astAt ign pos k) = i.ast ign
  | .plugin com p, k => by rw [CItem.astAt, CItem.ast, AMap.bop, np_plugin]
  | .branch com g1 c g2 is ft es el, k => by
    rw [CItem.astAt, CItem.ast, AMap.bop, np_cond, np_items is, np_elifs es, np_else el]; rfl
theorem np_items : ∀ (is : List CItem) (k : Nat), AMap.noPos.bops (itemsAt ign pos k is) = itemsAst ign is
  | [], k => by rw [itemsAt, itemsAst, AMap.bops]
  | i :: r, k => by rw [itemsAt, itemsAst, AMap.bops, np_item i, np_items r]
theorem np_elifs : ∀ (es : List CElif) (k : Nat), AMap.noPos.elifs (elifsAt ign pos k es) = elifsAst ign es
  | [], k => by rw [elifsAt, elifsAst, AMap.elifs]
  | .mk com g0 g1 c g2 is ft :: r, k => by
    rw [elifsAt, elifsAst, AMap.elifs, AMap.elif, np_cond, np_items is, np_elifs r]; rfl
theorem np_else : ∀ (e : CElse) (k : Nat), AMap.noPos.elseB (e.astAt ign pos k) = e.ast ign
  | .none, k => rfl
  | .mk com g is ft, k => by rw [CElse.astAt, CElse.ast, AMap.elseB, np_items is]; rfl
end

end Verif
