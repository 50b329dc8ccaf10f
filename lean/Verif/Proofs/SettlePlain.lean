import Verif.Proofs.Settle
import Verif.Proofs.AMapComp
/-
`settle` changes nothing (but positions) in a configuration without comments.
-/
namespace Verif
open Spec

theorem plain_hkey (k : HKey) : AMap.noPos.hkey (AMap.noComments.hkey k) = AMap.skeleton.hkey k := by cases k <;> rfl

theorem plain_with (b : Bool) (a : Attr) :
    withComment (markFirst b (AMap.noComments.attr a).comment) (AMap.skeleton.attr a) = AMap.skeleton.attr a := by
  cases a <;> simp only [AMap.attr, withComment, Attr.comment, AMap.noComments, AMap.skeleton, AMap.str, AMap.num, markFirst]

mutual
theorem plain_attr : ∀ a, settleVal (AMap.noComments.attr a) = AMap.skeleton.attr a
  | .nil => rfl
  | .str a => rfl
  | .num a => rfl
  | .arr p n as c f => by rw [AMap.attr, AMap.attr, settleVal, plain_attrs as]; rfl
  | .hash p n es c f => by rw [AMap.attr, AMap.attr, settleVal, plain_entries es]; rfl
  | .plug p n v c => by rw [AMap.attr, AMap.attr, settleVal, plain_plugin v]; rfl
theorem plain_attrs : ∀ as first, settleAttrs first (AMap.noComments.attrs as) = AMap.skeleton.attrs as
  | [], _ => rfl
  | a :: as, first => by rw [AMap.attrs, AMap.attrs, settleAttrs, plain_attrs as, plain_attr a, plain_with]
theorem plain_entries : ∀ es first, settleEntries first (AMap.noComments.hentries es) = AMap.skeleton.hentries es
  | [], _ => rfl
  | .mk p k v c :: es, first => by
    rw [AMap.hentries, AMap.hentries, AMap.hentry, AMap.hentry, settleEntries, plain_entries es, plain_attr v, plain_hkey]; rfl
theorem plain_plugin : ∀ p, settlePlugin (AMap.noComments.plugin p) = AMap.skeleton.plugin p
  | .mk p n as c f => by rw [AMap.plugin, AMap.plugin, settlePlugin, plain_attrs as]; rfl
end

theorem plain_selector (s : Selector) : AMap.noPos.selector (AMap.noComments.selector s) = AMap.skeleton.selector s := by
  simp only [AMap.selector, List.map_map]; rfl

theorem plain_rvalue (r : Rvalue) : settleRvalue (AMap.noComments.rvalue r) = AMap.skeleton.rvalue r := by
  cases r with
  | arr p n as c f => simp only [AMap.rvalue, settleRvalue, plain_attrs]; rfl
  | sel s => simp only [AMap.rvalue, settleRvalue, plain_selector]
  | _ => rfl

mutual
theorem plain_expr : ∀ e, settleExpr (AMap.noComments.expr e) = AMap.skeleton.expr e
  | .nil => rfl
  | .cond p b c => by rw [AMap.expr, AMap.expr, settleExpr, plain_cond c]; rfl
  | .negCond p b c => by rw [AMap.expr, AMap.expr, settleExpr, plain_cond c]; rfl
  | .negSel p b s => by rw [AMap.expr, AMap.expr, settleExpr, plain_selector]; rfl
  | .inE p b l r => by rw [AMap.expr, AMap.expr, settleExpr, plain_rvalue, plain_rvalue]; rfl
  | .notIn p b l r => by rw [AMap.expr, AMap.expr, settleExpr, plain_rvalue, plain_rvalue]; rfl
  | .rval p b r => by rw [AMap.expr, AMap.expr, settleExpr, plain_rvalue]; rfl
  | .cmp p b l o r => by rw [AMap.expr, AMap.expr, settleExpr, plain_rvalue, plain_rvalue]; rfl
  | .re p b l o r => by rw [AMap.expr, AMap.expr, settleExpr, plain_rvalue, plain_rvalue]; rfl
theorem plain_cond : ∀ es, settleCond (AMap.noComments.cond es) = AMap.skeleton.cond es
  | [] => rfl
  | e :: es => by rw [AMap.cond, AMap.cond, settleCond, plain_expr e, plain_cond es]
end

mutual
theorem plain_bop : ∀ b, settleBop (AMap.noComments.bop b) = AMap.skeleton.bop (derefBop b)
  | .nil => rfl
  | .plugin p => by rw [AMap.bop, derefBop, AMap.bop, settleBop, plain_plugin]
  | .pluginPtr p => by rw [AMap.bop, derefBop, AMap.bop, settleBop, plain_plugin]
  | .branch p c b cm f ei el => by
    rw [AMap.bop, derefBop, AMap.bop, settleBop, plain_cond, plain_bops b, plain_elifs ei, plain_else el]; rfl
theorem plain_bops : ∀ bs, settleBlock (AMap.noComments.bops bs) = AMap.skeleton.bops (derefBlock bs)
  | [] => rfl
  | b :: bs => by rw [AMap.bops, derefBlock, AMap.bops, settleBlock, plain_bop b, plain_bops bs]
theorem plain_elifs : ∀ es, settleElifs (AMap.noComments.elifs es) = AMap.skeleton.elifs (derefElifs es)
  | [] => rfl
  | .mk p c b cm f :: es => by
    rw [AMap.elifs, derefElifs, AMap.elifs, AMap.elif, AMap.elif, settleElifs, plain_cond, plain_bops b, plain_elifs es]; rfl
theorem plain_else : ∀ e, settleElse (AMap.noComments.elseB e) = AMap.skeleton.elseB (derefElse e)
  | .mk p b cm f => by rw [AMap.elseB, derefElse, AMap.elseB, settleElse, plain_bops b]; rfl
end

theorem plain_sections (first : Bool) (l : List Section) :
    settleSections first (l.map AMap.noComments.sect) = (derefSects l).map AMap.skeleton.sect := by
  have key : ∀ first s, settleSection first [] (AMap.noComments.sect s) = AMap.skeleton.sect { s with bops := derefBlock s.bops } := by
    intro first s
    simp only [settleSection, AMap.sect, plain_bops]
    cases first <;> rfl
  cases l with
  | nil => rfl
  | cons s ss =>
    simp only [List.map_cons, settleSections, derefSects, List.map_map]
    rw [show (AMap.noComments.sect s).comment = [] from rfl, key]
    congr 1
    exact List.map_congr_left fun x _ => key _ x

theorem settle_plain (c : Config) : settle (dropComments c) = skeleton (deref c) := by
  simp only [settle, dropComments, skeleton, AMap.config, deref, plain_sections]
  congr 1
  exact ite_self _

/-- Formatting and parsing again changes nothing but positions when there are no comments. -/
theorem settle_noComments {c : Config} (h : dropComments c = c) (hd : deref c = c) : settle c = content c := by
  have h1 := settle_plain c
  rw [h, hd] at h1
  rw [h1]
  have h2 := congrArg content h
  rw [← h2]
  have h3 := comp_config AMap.noPos AMap.noComments c
  have h4 : content (dropComments c) = { AMap.noPos.config (AMap.noComments.config c) with warnings := [] } := rfl
  rw [h4, h3]
  rfl

end Verif
