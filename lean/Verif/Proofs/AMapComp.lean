import Verif.Spec.MapAst
/-
Composition of AST maps.
-/
namespace Verif
open Spec

/-- First `n`, then `m`. -/
def amComp (m n : AMap) : AMap := ⟨fun p => m.pos (n.pos p), fun c => m.com (n.com c)⟩

variable (m n : AMap)

theorem comp_hkey (k : HKey) : m.hkey (n.hkey k) = (amComp m n).hkey k := by cases k <;> rfl

mutual
theorem comp_attr : ∀ a, m.attr (n.attr a) = (amComp m n).attr a
  | .nil => rfl
  | .str _ => rfl
  | .num _ => rfl
  | .arr p _ as c f => by rw [AMap.attr, AMap.attr, AMap.attr, comp_attrs as]; rfl
  | .hash p _ es c f => by rw [AMap.attr, AMap.attr, AMap.attr, comp_hentries es]; rfl
  | .plug p _ v c => by rw [AMap.attr, AMap.attr, AMap.attr, comp_plugin v]; rfl
theorem comp_attrs : ∀ l, m.attrs (n.attrs l) = (amComp m n).attrs l
  | [] => rfl
  | a :: l => by rw [AMap.attrs, AMap.attrs, AMap.attrs, comp_attr a, comp_attrs l]
theorem comp_hentry : ∀ e, m.hentry (n.hentry e) = (amComp m n).hentry e
  | .mk p k v c => by rw [AMap.hentry, AMap.hentry, AMap.hentry, comp_attr v, comp_hkey]; rfl
theorem comp_hentries : ∀ l, m.hentries (n.hentries l) = (amComp m n).hentries l
  | [] => rfl
  | a :: l => by rw [AMap.hentries, AMap.hentries, AMap.hentries, comp_hentry a, comp_hentries l]
theorem comp_plugin : ∀ p, m.plugin (n.plugin p) = (amComp m n).plugin p
  | .mk p _ as c f => by rw [AMap.plugin, AMap.plugin, AMap.plugin, comp_attrs as]; rfl
end

theorem comp_selector (s : Selector) : m.selector (n.selector s) = (amComp m n).selector s := by
  simp only [AMap.selector, List.map_map]; rfl

theorem comp_rvalue (r : Rvalue) : m.rvalue (n.rvalue r) = (amComp m n).rvalue r := by
  cases r with
  | arr => simp only [AMap.rvalue, comp_attrs]; rfl
  | sel => simp only [AMap.rvalue, comp_selector]
  | _ => rfl

mutual
theorem comp_expr : ∀ e, m.expr (n.expr e) = (amComp m n).expr e
  | .nil => rfl
  | .cond p b c => by rw [AMap.expr, AMap.expr, AMap.expr, comp_cond c]; rfl
  | .negCond p b c => by rw [AMap.expr, AMap.expr, AMap.expr, comp_cond c]; rfl
  | .negSel p b s => by rw [AMap.expr, AMap.expr, AMap.expr, comp_selector]; rfl
  | .inE p b l r => by rw [AMap.expr, AMap.expr, AMap.expr, comp_rvalue, comp_rvalue]; rfl
  | .notIn p b l r => by rw [AMap.expr, AMap.expr, AMap.expr, comp_rvalue, comp_rvalue]; rfl
  | .rval p b r => by rw [AMap.expr, AMap.expr, AMap.expr, comp_rvalue]; rfl
  | .cmp p b l o r => by rw [AMap.expr, AMap.expr, AMap.expr, comp_rvalue, comp_rvalue]; rfl
  | .re p b l o r => by rw [AMap.expr, AMap.expr, AMap.expr, comp_rvalue, comp_rvalue]; rfl
theorem comp_cond : ∀ l, m.cond (n.cond l) = (amComp m n).cond l
  | [] => rfl
  | e :: l => by rw [AMap.cond, AMap.cond, AMap.cond, comp_expr e, comp_cond l]
end

mutual
theorem comp_bop : ∀ b, m.bop (n.bop b) = (amComp m n).bop b
  | .nil => rfl
  | .plugin p => by rw [AMap.bop, AMap.bop, AMap.bop, comp_plugin]
  | .pluginPtr p => by rw [AMap.bop, AMap.bop, AMap.bop, comp_plugin]
  | .branch p c b cm f ei el => by
    rw [AMap.bop, AMap.bop, AMap.bop, comp_cond, comp_bops b, comp_elifs ei, comp_elseB el]; rfl
theorem comp_bops : ∀ l, m.bops (n.bops l) = (amComp m n).bops l
  | [] => rfl
  | b :: l => by rw [AMap.bops, AMap.bops, AMap.bops, comp_bop b, comp_bops l]
theorem comp_elif : ∀ e, m.elif (n.elif e) = (amComp m n).elif e
  | .mk p c b cm f => by rw [AMap.elif, AMap.elif, AMap.elif, comp_cond, comp_bops b]; rfl
theorem comp_elifs : ∀ l, m.elifs (n.elifs l) = (amComp m n).elifs l
  | [] => rfl
  | b :: l => by rw [AMap.elifs, AMap.elifs, AMap.elifs, comp_elif b, comp_elifs l]
theorem comp_elseB : ∀ e, m.elseB (n.elseB e) = (amComp m n).elseB e
  | .mk p b cm f => by rw [AMap.elseB, AMap.elseB, AMap.elseB, comp_bops b]; rfl
end

theorem comp_sect (s : Section) : m.sect (n.sect s) = (amComp m n).sect s := by
  simp only [AMap.sect, comp_bops]; rfl

theorem comp_config (c : Config) : m.config (n.config c) = (amComp m n).config c := by
  have h : m.sect ∘ n.sect = (amComp m n).sect := by funext s; exact comp_sect m n s
  simp only [AMap.config, List.map_map, h]; rfl

theorem skeleton_content (c : Config) : skeleton (content c) = skeleton c := by
  have h := comp_config AMap.skeleton AMap.noPos c
  have h2 : skeleton (content c) = { AMap.skeleton.config (AMap.noPos.config c) with warnings := [] } := rfl
  rw [h2, h]; rfl

end Verif
