import Verif.Spec.Strip
import Verif.Spec.Clear
import Verif.Spec.MapAst
/-
The configuration of a tree, up to positions and comments, depends on the tokens only.
-/
namespace Verif
open Spec

theorem block_true (g : Gap) (a b : Bool) : g.block true a b = [] := rfl

theorem isPlug_strip (v : CVal) : v.strip.isPlug = v.isPlug := by cases v <;> simp [CVal.strip, CVal.isPlug]

theorem skel_withComment (c : CommentBlock) (a : Attr) :
    AMap.skeleton.attr (withComment c a) = withComment [] (AMap.skeleton.attr a) := by
  cases a <;> simp [withComment, AMap.attr, AMap.str, AMap.num, AMap.skeleton]
theorem skel_withName (n : Bytes) (a : Attr) :
    AMap.skeleton.attr (withName n a) = withName n (AMap.skeleton.attr a) := by
  cases a <;> simp [withName, AMap.attr, AMap.str, AMap.num]

theorem skel_key (k : CKey) : AMap.skeleton.hkey k.ast = k.ast := by cases k <;> rfl

mutual
theorem val_skel (ign : Bool) : ∀ v : CVal, AMap.skeleton.attr (v.ast ign) = v.ast true
  | .str s => by simp [CVal.ast, AMap.attr]; rfl
  | .num t => by simp [CVal.ast, AMap.attr]; rfl
  | .arr es ft => by simp [CVal.ast, AMap.attr, elems_skel ign true es, block_true]; exact ⟨rfl, rfl, rfl⟩
  | .hash es ft => by simp [CVal.ast, AMap.attr, entries_skel ign true es, block_true]; exact ⟨rfl, rfl, rfl⟩
  | .plug p => by simp [CVal.ast, AMap.attr, plugin_skel ign [] p]; exact ⟨rfl, rfl⟩
theorem elems_skel (ign : Bool) : ∀ (first : Bool) (es : List CElem), AMap.skeleton.attrs (elemsAst ign first es) = elemsAst true first es
  | _, [] => by simp [elemsAst, AMap.attrs]
  | first, .mk p c v :: r => by
    rw [elemsAst, elemsAst]
    split
    · exact elems_skel ign false r
    · rw [AMap.attrs, skel_withComment, val_skel ign v, elems_skel ign false r, block_true]
theorem entries_skel (ign : Bool) : ∀ (first : Bool) (es : List CEntry), AMap.skeleton.hentries (entriesAst ign first es) = entriesAst true first es
  | _, [] => by simp [entriesAst, AMap.hentries]
  | first, .mk _ c k _ _ v :: r => by
    rw [entriesAst, entriesAst, AMap.hentries, AMap.hentry, val_skel ign v, entries_skel ign false r, block_true, skel_key]; rfl
theorem plugin_skel (ign : Bool) (c : CommentBlock) : ∀ p : CPlugin, AMap.skeleton.plugin (p.ast ign c) = p.ast true []
  | .mk n g as ft => by rw [CPlugin.ast, AMap.plugin, attrs_skel ign true as, CPlugin.ast, block_true]; rfl
theorem attrs_skel (ign : Bool) : ∀ (first : Bool) (es : List CAttr), AMap.skeleton.attrs (attrsAst ign first es) = attrsAst true first es
  | _, [] => by simp [attrsAst, AMap.attrs]
  | first, .mk _ c n _ _ v :: r => by
    rw [attrsAst, attrsAst, AMap.attrs, skel_withComment, skel_withName, val_skel ign v, attrs_skel ign false r, block_true]
end

mutual
theorem val_strip : ∀ v : CVal, v.strip.ast true = v.ast true
  | .str s => by simp [CVal.strip]
  | .num t => by simp [CVal.strip]
  | .arr es ft => by simp [CVal.strip, CVal.ast, elems_strip true es, block_true]
  | .hash es ft => by simp [CVal.strip, CVal.ast, entries_strip true es, block_true]
  | .plug p => by simp [CVal.strip, CVal.ast, plugin_strip [] p]
theorem elems_strip : ∀ (first : Bool) (es : List CElem), elemsAst true first (elemsStrip es) = elemsAst true first es
  | _, [] => by simp [elemsStrip]
  | first, .mk p c v :: r => by
    rw [elemsStrip, elemsAst, elemsAst, isPlug_strip, elems_strip false r, val_strip v, block_true, block_true]
theorem entries_strip : ∀ (first : Bool) (es : List CEntry), entriesAst true first (entriesStrip es) = entriesAst true first es
  | _, [] => by simp [entriesStrip]
  | first, .mk _ c k _ _ v :: r => by
    rw [entriesStrip, entriesAst, entriesAst, entries_strip false r, val_strip v, block_true, block_true]
theorem plugin_strip (c : CommentBlock) : ∀ p : CPlugin, p.strip.ast true c = p.ast true c
  | .mk n g as ft => by rw [CPlugin.strip, CPlugin.ast, attrs_strip true as, CPlugin.ast, block_true, block_true]
theorem attrs_strip : ∀ (first : Bool) (es : List CAttr), attrsAst true first (attrsStrip es) = attrsAst true first es
  | _, [] => by simp [attrsStrip]
  | first, .mk _ c n _ _ v :: r => by
    rw [attrsStrip, attrsAst, attrsAst, attrs_strip false r, val_strip v, block_true, block_true]
end

theorem skel_sel (n : List Bytes) : AMap.skeleton.selector (selAst n) = selAst n := by
  simp [selAst, AMap.selector, AMap.selElem]; exact ⟨rfl, fun _ _ => rfl⟩

theorem rval_skel (ign : Bool) (r : CRval) : AMap.skeleton.rvalue (r.ast ign) = r.ast true := by
  cases r with
  | arr es ft => simp [CRval.ast, AMap.rvalue, elems_skel ign true es, block_true]; exact ⟨rfl, rfl, rfl⟩
  | sel n => simp [CRval.ast, AMap.rvalue, skel_sel]
  | _ => simp [CRval.ast, AMap.rvalue]; rfl

theorem rval_strip (r : CRval) : r.strip.ast true = r.ast true := by
  cases r <;> simp [CRval.strip, CRval.ast, elems_strip, block_true]

mutual
theorem expr_skel (ign : Bool) (op : BoolOpKind) : ∀ e : CExpr, AMap.skeleton.expr (e.ast ign op) = e.ast true op
  | .paren _ c _ => by rw [CExpr.ast, AMap.expr, cond_skel ign c]; rfl
  | .notParen _ _ c _ => by rw [CExpr.ast, AMap.expr, cond_skel ign c]; rfl
  | .notSel _ _ => by rw [CExpr.ast, AMap.expr, skel_sel]; rfl
  | .inE l _ _ r => by rw [CExpr.ast, AMap.expr, rval_skel, rval_skel]; rfl
  | .notIn l _ _ _ r => by rw [CExpr.ast, AMap.expr, rval_skel, rval_skel]; rfl
  | .cmp l _ _ _ r => by rw [CExpr.ast, AMap.expr, rval_skel, rval_skel]; rfl
  | .re l _ _ _ r => by rw [CExpr.ast, AMap.expr, rval_skel, rval_skel]; rfl
  | .rval r => by rw [CExpr.ast, AMap.expr, rval_skel]; rfl
theorem cond_skel (ign : Bool) : ∀ c : CCond, AMap.skeleton.cond (c.ast ign) = c.ast true
  | .mk e more => by rw [CCond.ast, AMap.cond, expr_skel ign .noOp e, more_skel ign more, CCond.ast]
theorem more_skel (ign : Bool) : ∀ m : List CMore, AMap.skeleton.cond (moreAst ign m) = moreAst true m
  | [] => by simp [moreAst, AMap.cond]
  | .mk _ op _ e :: r => by rw [moreAst, moreAst, AMap.cond, expr_skel ign op e, more_skel ign r]
end

mutual
theorem expr_strip (op : BoolOpKind) : ∀ e : CExpr, e.strip.ast true op = e.ast true op
  | .paren _ c _ => by rw [CExpr.strip, CExpr.ast, cond_strip c, CExpr.ast]
  | .notParen _ _ c _ => by rw [CExpr.strip, CExpr.ast, cond_strip c, CExpr.ast]
  | .notSel _ _ => by rw [CExpr.strip, CExpr.ast, CExpr.ast]
  | .inE l _ _ r => by rw [CExpr.strip, CExpr.ast, rval_strip, rval_strip, CExpr.ast]
  | .notIn l _ _ _ r => by rw [CExpr.strip, CExpr.ast, rval_strip, rval_strip, CExpr.ast]
  | .cmp l _ _ _ r => by rw [CExpr.strip, CExpr.ast, rval_strip, rval_strip, CExpr.ast]
  | .re l _ _ _ r => by rw [CExpr.strip, CExpr.ast, rval_strip, rval_strip, CExpr.ast]
  | .rval r => by rw [CExpr.strip, CExpr.ast, rval_strip, CExpr.ast]
theorem cond_strip : ∀ c : CCond, c.strip.ast true = c.ast true
  | .mk e more => by rw [CCond.strip, CCond.ast, expr_strip .noOp e, more_strip more, CCond.ast]
theorem more_strip : ∀ m : List CMore, moreAst true (moreStrip m) = moreAst true m
  | [] => by simp [moreStrip]
  | .mk _ op _ e :: r => by rw [moreStrip, moreAst, moreAst, expr_strip op e, more_strip r]
end

mutual
theorem item_skel (ign : Bool) : ∀ i : CItem, AMap.skeleton.bop (i.ast ign) = i.ast true
  | .plugin com p => by rw [CItem.ast, AMap.bop, plugin_skel, CItem.ast]; rfl
  | .branch _ _ c _ is _ ei el => by
    rw [CItem.ast, AMap.bop, cond_skel, items_skel ign is, elifs_skel ign ei, else_skel ign el, CItem.ast]; rfl
theorem items_skel (ign : Bool) : ∀ l : List CItem, AMap.skeleton.bops (itemsAst ign l) = itemsAst true l
  | [] => by simp [itemsAst, AMap.bops]
  | i :: r => by rw [itemsAst, itemsAst, AMap.bops, item_skel ign i, items_skel ign r]
theorem elifs_skel (ign : Bool) : ∀ l : List CElif, AMap.skeleton.elifs (elifsAst ign l) = elifsAst true l
  | [] => by simp [elifsAst, AMap.elifs]
  | .mk _ _ _ c _ is _ :: r => by
    rw [elifsAst, elifsAst, AMap.elifs, AMap.elif, cond_skel, items_skel ign is, elifs_skel ign r]; rfl
theorem else_skel (ign : Bool) : ∀ l : CElse, AMap.skeleton.elseB (l.ast ign) = l.ast true
  | .none => by rw [CElse.ast, AMap.elseB, CElse.ast]; rfl
  | .mk _ _ is _ => by rw [CElse.ast, AMap.elseB, items_skel ign is, CElse.ast]; rfl
end

mutual
theorem item_strip : ∀ i : CItem, i.strip.ast true = i.ast true
  | .plugin com p => by rw [CItem.strip, CItem.ast, plugin_strip, CItem.ast]; rfl
  | .branch _ _ c _ is _ ei el => by
    rw [CItem.strip, CItem.ast, cond_strip, items_strip is, elifs_strip ei, else_strip el, CItem.ast]; rfl
theorem items_strip : ∀ l : List CItem, itemsAst true (itemsStrip l) = itemsAst true l
  | [] => by simp [itemsStrip]
  | i :: r => by rw [itemsStrip, itemsAst, itemsAst, item_strip i, items_strip r]
theorem elifs_strip : ∀ l : List CElif, elifsAst true (elifsStrip l) = elifsAst true l
  | [] => by simp [elifsStrip]
  | .mk _ _ _ c _ is _ :: r => by
    rw [elifsStrip, elifsAst, elifsAst, cond_strip, items_strip is, elifs_strip r]; rfl
theorem else_strip : ∀ l : CElse, l.strip.ast true = l.ast true
  | .none => by rw [CElse.strip]
  | .mk _ _ is _ => by rw [CElse.strip, CElse.ast, items_strip is, CElse.ast]; rfl
end

theorem sect_skel (ign first : Bool) (s : CSection) : AMap.skeleton.sect (s.ast ign first) = s.ast true false := by
  simp only [AMap.sect, CSection.ast, items_skel]; rfl
theorem sect_strip (s : CSection) : s.strip.ast true false = s.ast true false := by
  simp only [CSection.ast, CSection.strip, items_strip]; rfl

theorem sections_skel (ign : Bool) (k : CFile) : (k.sections ign).map AMap.skeleton.sect = k.sections true := by
  cases k with
  | empty g => rfl
  | config s ss ft =>
    simp only [CFile.sections, List.map_cons, List.map_map, sect_skel]
    congr 1
    exact List.map_congr_left fun s _ => sect_skel ..

theorem file_skel (ign : Bool) (k : CFile) : skeleton (k.ast ign) = k.ast true := by
  have h : ∀ t, ((k.sections ign).filter (·.ptype = t)).map AMap.skeleton.sect = (k.sections true).filter (·.ptype = t) := by
    intro t
    rw [← sections_skel ign, List.filter_map]
    rfl
  simp only [skeleton, CFile.ast, AMap.config, h]
  cases k <;> rfl

theorem file_strip (k : CFile) : k.strip.ast true = k.ast true := by
  have h : k.strip.sections true = k.sections true := by
    cases k with
    | empty g => rfl
    | config s ss ft =>
      simp only [CFile.strip, CFile.sections, List.map_map]
      congr 1
      · exact sect_strip s
      · exact List.map_congr_left fun s _ => sect_strip s
  simp only [CFile.ast, h]
  cases k <;> rfl

theorem name_strip (p : CPlugin) : p.strip.name = p.name := by cases p; simp [CPlugin.strip, CPlugin.name]
theorem isOpen_strip (i : CItem) : i.strip.isOpen = i.isOpen := by
  cases i with
  | plugin => rfl
  | branch a b c d e f g els => cases els <;> simp [CItem.strip, CElse.strip, CItem.isOpen]
theorem notElse_strip (l : List CItem) : notElse (itemsStrip l) ↔ notElse l := by
  cases l with
  | nil => simp [itemsStrip]
  | cons i r => cases i <;> simp [itemsStrip, CItem.strip, notElse, name_strip]

mutual
theorem item_clear : ∀ i : CItem, i.strip.Clear ↔ i.Clear
  | .plugin com p => by rw [CItem.strip, CItem.Clear, name_strip, CItem.Clear]
  | .branch _ _ c _ is _ ei el => by
    rw [CItem.strip, CItem.Clear, items_clear is, elifs_clear ei, else_clear el, CItem.Clear]
theorem items_clear : ∀ l : List CItem, itemsClear (itemsStrip l) ↔ itemsClear l
  | [] => by simp [itemsStrip]
  | i :: r => by rw [itemsStrip, itemsClear, itemsClear, item_clear i, items_clear r, isOpen_strip, notElse_strip]
theorem elifs_clear : ∀ l : List CElif, elifsClear (elifsStrip l) ↔ elifsClear l
  | [] => by simp [elifsStrip]
  | .mk _ _ _ c _ is _ :: r => by rw [elifsStrip, elifsClear, elifsClear, items_clear is, elifs_clear r]
theorem else_clear : ∀ l : CElse, l.strip.Clear ↔ l.Clear
  | .none => by rw [CElse.strip]
  | .mk _ _ is _ => by rw [CElse.strip, CElse.Clear, items_clear is, CElse.Clear]
end

theorem file_clear (k : CFile) : k.strip.Clear ↔ k.Clear := by
  cases k with
  | empty g => simp [CFile.strip, CFile.Clear]
  | config s ss ft =>
    simp only [CFile.strip, CFile.Clear, CSection.strip, List.forall_mem_map, items_clear]

end Verif
