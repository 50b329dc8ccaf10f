import Verif.Spec.Positioned
import Verif.Spec.MapAst
import Verif.Spec.Cut
/-
The AST with positions, with its positions mapped, is the AST with the mapped positions.
-/
namespace Verif
open Spec

section
variable {g : Pos → Pos} (hg : g Pos.zero = Pos.zero) (ign : Bool) (pos : Nat → Pos)

theorem gp_str (p : Pos) (s : StrLit) : (AMap.onPos g).str (s.astAt p) = s.astAt (g p) := rfl
include hg in
theorem gp_num (t : Bytes) : (AMap.onPos g).num (numAst t) = numAst t := by
  simp only [AMap.num, numAst, AMap.onPos, hg]

include hg in
theorem gp_key (k : Nat) (c : CKey) : (AMap.onPos g).hkey (c.astAt pos k) = c.astAt (g ∘ pos) k := by
  cases c
  all_goals first | rfl | (simp only [CKey.astAt, AMap.hkey, gp_num hg]) | skip

theorem gp_com (x : CommentBlock) (a : Attr) : (AMap.onPos g).attr (withComment x a) = withComment x ((AMap.onPos g).attr a) := by
  cases a <;> simp [AMap.attr, withComment, AMap.str, AMap.num, AMap.onPos]

theorem gp_name (p : Pos) (n : Bytes) (a : Attr) : (AMap.onPos g).attr (withNameAt p n a) = withNameAt (g p) n ((AMap.onPos g).attr a) := by
  cases a <;> simp [AMap.attr, withNameAt, AMap.str, AMap.num, AMap.onPos]

include hg
mutual
theorem gp_val : ∀ (c : CVal) (k : Nat), (AMap.onPos g).attr (c.astAt ign pos k) = c.astAt ign (g ∘ pos) k
  | .str s, k => by simp only [CVal.astAt, AMap.attr]; rfl
  | .num t, k => by simp only [CVal.astAt, AMap.attr, gp_num hg]
  | .arr es f, k => by simp only [CVal.astAt, AMap.attr, gp_elems es]; simp only [AMap.onPos, hg]
  | .hash es f, k => by simp only [CVal.astAt, AMap.attr, gp_entries es]; simp only [AMap.onPos, hg]
  | .plug p, k => by simp only [CVal.astAt, AMap.attr, gp_plugin p]; simp only [AMap.onPos, hg]
theorem gp_elems : ∀ (es : List CElem) (first : Bool) (k : Nat),
    (AMap.onPos g).attrs (elemsAt ign pos first k es) = elemsAt ign (g ∘ pos) first k es
  | [], first, k => by simp only [elemsAt, AMap.attrs]
  | .mk pre com v :: r, first, k => by
    simp only [elemsAt]
    split
    · exact gp_elems r false _
    · simp only [AMap.attrs, gp_com, gp_val v, gp_elems r]
theorem gp_entries : ∀ (es : List CEntry) (first : Bool) (k : Nat),
    (AMap.onPos g).hentries (entriesAt ign pos first k es) = entriesAt ign (g ∘ pos) first k es
  | [], first, k => by simp only [entriesAt, AMap.hentries]
  | .mk sep com key g1 g2 v :: r, first, k => by
    simp only [entriesAt, AMap.hentries, AMap.hentry, gp_val v, gp_entries r, gp_key hg]; rfl
theorem gp_plugin : ∀ (p : CPlugin) (k : Nat) (c : CommentBlock),
    (AMap.onPos g).plugin (p.astAt ign pos k c) = p.astAt ign (g ∘ pos) k c
  | .mk n gg as f, k, c => by simp only [CPlugin.astAt, AMap.plugin, gp_attrs as]; rfl
theorem gp_attrs : ∀ (as : List CAttr) (first : Bool) (k : Nat),
    (AMap.onPos g).attrs (attrsAt ign pos first k as) = attrsAt ign (g ∘ pos) first k as
  | [], first, k => by simp only [attrsAt, AMap.attrs]
  | .mk sep com n g1 g2 v :: r, first, k => by
    simp only [attrsAt, AMap.attrs, gp_com, gp_name, gp_val v, gp_attrs r]; rfl
end

omit hg in
theorem gp_selElems : ∀ (names : List Bytes) (k : Nat), (selElemsAt pos k names).map (AMap.onPos g).selElem = selElemsAt (g ∘ pos) k names
  | [], k => rfl
  | n :: r, k => by simp only [selElemsAt, List.map_cons, gp_selElems r]; rfl

omit hg in
theorem gp_sel (names : List Bytes) (k : Nat) : (AMap.onPos g).selector (selAt pos k names) = selAt (g ∘ pos) k names := by
  simp only [selAt, AMap.selector, gp_selElems]; rfl

theorem gp_rval (r : CRval) (k : Nat) : (AMap.onPos g).rvalue (r.astAt ign pos k) = r.astAt ign (g ∘ pos) k := by
  cases r with
  | str s => rfl
  | num t => simp only [CRval.astAt, AMap.rvalue, gp_num hg]
  | sel n => simp only [CRval.astAt, AMap.rvalue, gp_sel]
  | arr es f => simp only [CRval.astAt, AMap.rvalue, gp_elems hg]; simp only [AMap.onPos, hg]
  | re b => rfl

theorem gp_unjoined : (AMap.onPos g).boolExpr unjoined = unjoined := by
  simp only [AMap.boolExpr, unjoined, AMap.boolOp, AMap.onPos, hg]

mutual
theorem gp_expr : ∀ (e : CExpr) (k : Nat) (j : BoolExpr),
    (AMap.onPos g).expr (e.astAt ign pos k j) = e.astAt ign (g ∘ pos) k ((AMap.onPos g).boolExpr j)
  | .paren g1 c g2, k, j => by simp only [CExpr.astAt, AMap.expr, gp_cond c]; rfl
  | .notParen g0 g1 c g2, k, j => by simp only [CExpr.astAt, AMap.expr, gp_cond c]; rfl
  | .notSel gg names, k, j => by simp only [CExpr.astAt, AMap.expr, gp_sel]; rfl
  | .inE l g1 g2 r, k, j => by simp only [CExpr.astAt, AMap.expr, gp_rval hg]; rfl
  | .notIn l g1 g2 g3 r, k, j => by simp only [CExpr.astAt, AMap.expr, gp_rval hg]; rfl
  | .cmp l g1 op g2 r, k, j => by simp only [CExpr.astAt, AMap.expr, gp_rval hg]; rfl
  | .re l g1 op g2 r, k, j => by simp only [CExpr.astAt, AMap.expr, gp_rval hg]; rfl
  | .rval r, k, j => by simp only [CExpr.astAt, AMap.expr, gp_rval hg]; rfl
theorem gp_cond : ∀ (c : CCond) (k : Nat), (AMap.onPos g).cond (c.astAt ign pos k) = c.astAt ign (g ∘ pos) k
  | .mk e more, k => by simp only [CCond.astAt, AMap.cond, gp_expr e, gp_more more, gp_unjoined hg]
theorem gp_more : ∀ (m : List CMore) (k : Nat), (AMap.onPos g).cond (moreAt ign pos k m) = moreAt ign (g ∘ pos) k m
  | [], k => by simp only [moreAt, AMap.cond]
  | .mk g1 op g2 e :: r, k => by simp only [moreAt, AMap.cond, gp_expr e, gp_more r]; rfl
end

mutual
theorem gp_item : ∀ (i : CItem) (k : Nat), (AMap.onPos g).bop (i.astAt ign pos k) = i.astAt ign (g ∘ pos) k
  | .plugin com p, k => by simp only [CItem.astAt, AMap.bop, gp_plugin hg]
  | .branch com g1 c g2 is ft es el, k => by
    simp only [CItem.astAt, AMap.bop, gp_cond hg, gp_items is, gp_elifs es, gp_else el]; rfl
theorem gp_items : ∀ (is : List CItem) (k : Nat), (AMap.onPos g).bops (itemsAt ign pos k is) = itemsAt ign (g ∘ pos) k is
  | [], k => by simp only [itemsAt, AMap.bops]
  | i :: r, k => by simp only [itemsAt, AMap.bops, gp_item i, gp_items r]
theorem gp_elifs : ∀ (es : List CElif) (k : Nat), (AMap.onPos g).elifs (elifsAt ign pos k es) = elifsAt ign (g ∘ pos) k es
  | [], k => by simp only [elifsAt, AMap.elifs]
  | .mk com g0 g1 c g2 is ft :: r, k => by
    simp only [elifsAt, AMap.elifs, AMap.elif, gp_cond hg, gp_items is, gp_elifs r]; rfl
theorem gp_else : ∀ (e : CElse) (k : Nat), (AMap.onPos g).elseB (e.astAt ign pos k) = e.astAt ign (g ∘ pos) k
  | .none, k => by simp only [CElse.astAt, AMap.elseB, AMap.bops]; simp only [AMap.onPos, hg]
  | .mk com gg is ft, k => by simp only [CElse.astAt, AMap.elseB, gp_items is]; rfl
end

theorem gp_sect (s : CSection) (k : Nat) (b : Bool) : (AMap.onPos g).sect (s.astAt ign pos k b) = s.astAt ign (g ∘ pos) k b := by
  simp only [CSection.astAt, AMap.sect, gp_items hg]; rfl

end
end Verif
