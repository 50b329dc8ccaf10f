import Verif.Model.Print
import Verif.Spec.MapAst
/-
Printing does not depend on source positions.
-/
namespace Verif
open Spec

variable {m : AMap} (hm : ∀ c, m.com c = c)
include hm

theorem strMap_hkey (k : HKey) : (m.hkey k).valueStr = k.valueStr := by cases k <;> rfl

theorem map_isNil (a : Attr) : (m.attr a).isNil = a.isNil := by cases a <;> simp [AMap.attr, Attr.isNil]
theorem map_name (a : Attr) : (m.attr a).name = a.name := by cases a <;> simp [AMap.attr, Attr.name, AMap.str, AMap.num]
theorem map_commentStr (a : Attr) : (m.attr a).commentStr = a.commentStr := by
  cases a <;> simp [AMap.attr, Attr.commentStr, AMap.str, AMap.num, hm]

mutual
theorem strMap_attr : ∀ a, (m.attr a).valueStr = a.valueStr
  | .nil => by rw [AMap.attr]
  | .str a => by rw [AMap.attr]; rfl
  | .num a => by rw [AMap.attr]; rfl
  | .arr p n as c f => by rw [AMap.attr, Attr.valueStr, Attr.valueStr, strMap_elems as, hm]
  | .hash p n es c f => by rw [AMap.attr, Attr.valueStr, Attr.valueStr, strMap_entries es, hm]
  | .plug p n v c => by rw [AMap.attr, Attr.valueStr, Attr.valueStr, strMap_plugin v]
theorem strMap_elems : ∀ as first, arrElems first (m.attrs as) = arrElems first as
  | [], _ => by rw [AMap.attrs]
  | a :: as, first => by
    rw [AMap.attrs, arrElems, arrElems, strMap_attr a, strMap_elems as, strMap_elems as, map_isNil hm, map_commentStr hm]
theorem strMap_entries : ∀ es, hashElems (m.hentries es) = hashElems es
  | [] => by rw [AMap.hentries]
  | .mk p k v c :: es => by
    rw [AMap.hentries, AMap.hentry, hashElems, hashElems, strMap_attr v, strMap_entries es, strMap_hkey hm, hm]
theorem strMap_plugin : ∀ p, (m.plugin p).str = p.str
  | .mk p n as c f => by rw [AMap.plugin, Plugin.str, Plugin.str, strMap_attrs as, hm, hm]
theorem strMap_attrs : ∀ as, attrElems (m.attrs as) = attrElems as
  | [] => by rw [AMap.attrs]
  | a :: as => by
    rw [AMap.attrs, attrElems, attrElems, strMap_attr a, strMap_attrs as, map_isNil hm, map_commentStr hm, map_name hm]
end

theorem strMap_selector (s : Selector) : (m.selector s).str = s.str := by
  unfold Selector.str AMap.selector
  simp only [List.flatMap_map]; rfl

theorem strMap_rvalue (r : Rvalue) : (m.rvalue r).valueStr = r.valueStr := by
  cases r with
  | arr p n as c f =>
    have := strMap_attr hm (.arr p n as c f)
    rw [AMap.attr] at this
    rw [AMap.rvalue, Rvalue.valueStr, Rvalue.valueStr, this]
  | sel s => rw [AMap.rvalue, Rvalue.valueStr, Rvalue.valueStr, strMap_selector hm]
  | _ => rfl

theorem map_rvalNil (r : Rvalue) : (m.rvalue r).isNil = r.isNil := by cases r <;> rfl

mutual
theorem strMap_expr : ∀ e, (m.expr e).str = e.str
  | .nil => by rw [AMap.expr]
  | .cond p b c => by rw [AMap.expr, Expr.str, Expr.str, strMap_cond c]; rfl
  | .negCond p b c => by rw [AMap.expr, Expr.str, Expr.str, strMap_cond c]; rfl
  | .negSel p b s => by rw [AMap.expr, Expr.str, Expr.str, strMap_selector hm]; rfl
  | .inE p b l r => by
    rw [AMap.expr, Expr.str, Expr.str, strMap_rvalue hm, strMap_rvalue hm, map_rvalNil hm, map_rvalNil hm]; rfl
  | .notIn p b l r => by rw [AMap.expr, Expr.str, Expr.str, strMap_rvalue hm, strMap_rvalue hm]; rfl
  | .rval p b r => by rw [AMap.expr, Expr.str, Expr.str, strMap_rvalue hm]; rfl
  | .cmp p b l o r => by rw [AMap.expr, Expr.str, Expr.str, strMap_rvalue hm, strMap_rvalue hm]; rfl
  | .re p b l o r => by rw [AMap.expr, Expr.str, Expr.str, strMap_rvalue hm, strMap_rvalue hm]; rfl
theorem strMap_cond : ∀ es, condStr (m.cond es) = condStr es
  | [] => by rw [AMap.cond]
  | e :: es => by rw [AMap.cond, condStr, condStr, strMap_expr e, strMap_cond es]
end

theorem map_bopNil (b : BOP) : (m.bop b).isNil = b.isNil := by cases b <;> simp [AMap.bop, BOP.isNil]
theorem map_bopsEmpty (b : List BOP) : (m.bops b).isEmpty = b.isEmpty := by cases b <;> simp [AMap.bops]

mutual
theorem strMap_bop : ∀ b, (m.bop b).str = b.str
  | .nil => by rw [AMap.bop]
  | .plugin p => by rw [AMap.bop, BOP.str, BOP.str, strMap_plugin hm]
  | .pluginPtr p => by rw [AMap.bop, BOP.str, BOP.str, strMap_plugin hm]
  | .branch p c b cm f ei el => by
    rw [AMap.bop, BOP.str, BOP.str, strMap_cond hm, strMap_bops b, strMap_elifs ei, strMap_else el, hm, hm]
theorem strMap_bops : ∀ bs first, bopElems first (m.bops bs) = bopElems first bs
  | [], _ => by rw [AMap.bops]
  | b :: bs, first => by
    rw [AMap.bops, bopElems, bopElems, strMap_bop b, strMap_bops bs, strMap_bops bs, map_bopNil hm]
theorem strMap_elif : ∀ e, (m.elif e).str = e.str
  | .mk p c b cm f => by rw [AMap.elif, Elif.str, Elif.str, strMap_cond hm, strMap_bops b, hm, hm]
theorem strMap_elifs : ∀ es, elifsStr (m.elifs es) = elifsStr es
  | [] => by rw [AMap.elifs]
  | e :: es => by rw [AMap.elifs, elifsStr, elifsStr, strMap_elif e, strMap_elifs es]
theorem strMap_else : ∀ e, (m.elseB e).str = e.str
  | .mk p b cm f => by rw [AMap.elseB, ElseB.str, ElseB.str, strMap_bops b, map_bopsEmpty hm, hm, hm]
end

theorem strMap_loop (pt : Bytes) (c0 : CommentBlock) (l : List Section) : sectionsLoop pt c0 (l.map m.sect) = sectionsLoop pt c0 l := by
  induction l with
  | nil => rfl
  | cons s l ih =>
    rw [List.map_cons, sectionsLoop, sectionsLoop, ih]
    unfold AMap.sect Section.str
    simp only [strMap_bops hm, hm, List.isEmpty_map]

theorem strMap_sections (pt : Bytes) (l : List Section) : sectionsStr pt (l.map m.sect) = sectionsStr pt l := by
  cases l with
  | nil => rfl
  | cons s l =>
    have := strMap_loop hm pt s.comment (s :: l)
    rw [List.map_cons, sectionsStr, sectionsStr, ← this, List.map_cons]
    unfold AMap.sect; simp only [hm]

theorem strMap_config (c : Config) : (m.config c).str = c.str := by
  unfold AMap.config Config.str
  simp only [strMap_sections hm, hm]

omit hm in
/-- Printing depends on the content of a configuration only. -/
theorem str_content (c : Config) : (content c).str = c.str := by
  have := strMap_config (m := AMap.noPos) (fun _ => rfl) c
  rw [← this]; rfl

end Verif
