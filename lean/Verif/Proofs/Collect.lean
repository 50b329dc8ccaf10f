import Verif.Proofs.SoundBlock
import Verif.Spec.Collect
/-
Arrays and conditions of the configuration denoted by a concrete syntax tree.
-/
namespace Verif
open Spec

/-! ### Arrays -/

/-- No element of the arrays is a plugin. -/
def NoPlug (l : List (List CElem)) : Prop := ∀ es ∈ l, ∀ e ∈ es, e.isPlug = false

theorem NoPlug.left {l r : List (List CElem)} (h : NoPlug (l ++ r)) : NoPlug l := fun es he => h es (by simp [he])
theorem NoPlug.right {l r : List (List CElem)} (h : NoPlug (l ++ r)) : NoPlug r := fun es he => h es (by simp [he])
theorem NoPlug.tail {e : List CElem} {r : List (List CElem)} (h : NoPlug (e :: r)) : NoPlug r := fun es he => h es (by simp [he])
theorem NoPlug.head {e : List CElem} {r : List (List CElem)} (h : NoPlug (e :: r)) : ∀ x ∈ e, x.isPlug = false := h e (by simp)

theorem attrArrays_withComment (c : CommentBlock) (a : Attr) : attrArrays (withComment c a) = attrArrays a := by
  cases a <;> simp [withComment, attrArrays]
theorem attrArrays_withName (n : Bytes) (a : Attr) : attrArrays (withName n a) = attrArrays a := by
  cases a <;> simp [withName, attrArrays]

theorem elemsAst_length (ign first : Bool) (es : List CElem) (h : ∀ e ∈ es, e.isPlug = false) :
    (elemsAst ign first es).length = es.length := by
  induction es generalizing first with
  | nil => simp [elemsAst]
  | cons e r ih =>
    obtain ⟨p, c, v⟩ := e
    have h1 : v.isPlug = false := h (.mk p c v) (by simp)
    rw [elemsAst, h1]
    simp [ih false (fun x hx => h x (by simp [hx]))]

mutual
theorem val_arrays (ign : Bool) : ∀ v : CVal, NoPlug v.arrays →
    (attrArrays (v.ast ign)).map List.length = v.arrays.map List.length
  | .str s, _ => by simp [CVal.ast, attrArrays, CVal.arrays]
  | .num t, _ => by simp [CVal.ast, attrArrays, CVal.arrays]
  | .arr es ft, h => by
    rw [CVal.arrays] at h
    have := elems_arrays ign true es h.head h.tail
    simp [CVal.ast, attrArrays, CVal.arrays, this, elemsAst_length ign true es h.head]
  | .hash es ft, h => by
    rw [CVal.arrays] at h
    have := entries_arrays ign true es h
    simp [CVal.ast, attrArrays, CVal.arrays, this]
  | .plug p, h => by
    rw [CVal.arrays] at h
    have := plugin_arrays ign [] p h
    simp [CVal.ast, attrArrays, CVal.arrays, this]
theorem elems_arrays (ign : Bool) : ∀ (first : Bool) (es : List CElem), (∀ e ∈ es, e.isPlug = false) → NoPlug (elemsArrays es) →
    (attrsArrays (elemsAst ign first es)).map List.length = (elemsArrays es).map List.length
  | _, [], _, _ => by simp [elemsAst, attrsArrays, elemsArrays]
  | first, .mk p c v :: r, h0, h => by
    rw [elemsArrays] at h
    have h1 := val_arrays ign v h.left
    have h2 := elems_arrays ign false r (fun x hx => h0 x (by simp [hx])) h.right
    have h3 : v.isPlug = false := h0 (.mk p c v) (by simp)
    rw [elemsAst, h3]
    simp [attrsArrays, attrArrays_withComment, elemsArrays, h1, h2]
theorem entries_arrays (ign : Bool) : ∀ (first : Bool) (es : List CEntry), NoPlug (centriesArrays es) →
    (entriesArrays (entriesAst ign first es)).map List.length = (centriesArrays es).map List.length
  | _, [], _ => by simp [entriesAst, entriesArrays, centriesArrays]
  | first, .mk s c k g1 g2 v :: r, h => by
    rw [centriesArrays] at h
    have h1 := val_arrays ign v h.left
    have h2 := entries_arrays ign false r h.right
    rw [entriesAst]
    simp [entriesArrays, centriesArrays, h1, h2]
theorem plugin_arrays (ign : Bool) (cb : CommentBlock) : ∀ p : CPlugin, NoPlug p.arrays →
    (pluginArrays (p.ast ign cb)).map List.length = p.arrays.map List.length
  | .mk n g as ft, h => by
    rw [CPlugin.arrays] at h
    have := attrs_arrays ign true as h
    simp [CPlugin.ast, pluginArrays, CPlugin.arrays, this]
theorem attrs_arrays (ign : Bool) : ∀ (first : Bool) (as : List CAttr), NoPlug (cattrsArrays as) →
    (attrsArrays (attrsAst ign first as)).map List.length = (cattrsArrays as).map List.length
  | _, [], _ => by simp [attrsAst, attrsArrays, cattrsArrays]
  | first, .mk s c n g1 g2 v :: r, h => by
    rw [cattrsArrays] at h
    have h1 := val_arrays ign v h.left
    have h2 := attrs_arrays ign false r h.right
    rw [attrsAst]
    simp [attrsArrays, attrArrays_withComment, attrArrays_withName, cattrsArrays, h1, h2]
end

theorem rval_arrays (ign : Bool) (r : CRval) (h : NoPlug r.arrays) :
    (rvalueArrays (r.ast ign)).map List.length = r.arrays.map List.length := by
  cases r with
  | arr es ft =>
    simp only [CRval.arrays] at h
    have := elems_arrays ign true es h.head h.tail
    simp [CRval.ast, rvalueArrays, CRval.arrays, this, elemsAst_length ign true es h.head]
  | _ => simp [CRval.ast, rvalueArrays, CRval.arrays]

mutual
theorem expr_arrays (ign : Bool) (op : BoolOpKind) : ∀ e : CExpr, NoPlug e.arrays →
    (exprArrays (e.ast ign op)).map List.length = e.arrays.map List.length
  | .paren g1 c g2, h => by
    rw [CExpr.arrays] at h
    simp [CExpr.ast, exprArrays, CExpr.arrays, cond_arrays ign c h]
  | .notParen g0 g1 c g2, h => by
    rw [CExpr.arrays] at h
    simp [CExpr.ast, exprArrays, CExpr.arrays, cond_arrays ign c h]
  | .notSel g s, h => by simp [CExpr.ast, exprArrays, CExpr.arrays]
  | .inE l g1 g2 r, h => by
    rw [CExpr.arrays] at h
    simp [CExpr.ast, exprArrays, CExpr.arrays, rval_arrays ign l h.left, rval_arrays ign r h.right]
  | .notIn l g1 g2 g3 r, h => by
    rw [CExpr.arrays] at h
    simp [CExpr.ast, exprArrays, CExpr.arrays, rval_arrays ign l h.left, rval_arrays ign r h.right]
  | .cmp l g1 k g2 r, h => by
    rw [CExpr.arrays] at h
    simp [CExpr.ast, exprArrays, CExpr.arrays, rval_arrays ign l h.left, rval_arrays ign r h.right]
  | .re l g1 k g2 r, h => by
    rw [CExpr.arrays] at h
    simp [CExpr.ast, exprArrays, CExpr.arrays, rval_arrays ign l h.left, rval_arrays ign r h.right]
  | .rval r, h => by
    rw [CExpr.arrays] at h
    simp [CExpr.ast, exprArrays, CExpr.arrays, rval_arrays ign r h]
theorem cond_arrays (ign : Bool) : ∀ c : CCond, NoPlug c.arrays →
    (condArrays (c.ast ign)).map List.length = c.arrays.map List.length
  | .mk e m, h => by
    rw [CCond.arrays] at h
    simp [CCond.ast, condArrays, CCond.arrays, expr_arrays ign .noOp e h.left, more_arrays ign m h.right]
theorem more_arrays (ign : Bool) : ∀ m : List CMore, NoPlug (moreArrays m) →
    (condArrays (moreAst ign m)).map List.length = (moreArrays m).map List.length
  | [], _ => by simp [moreAst, condArrays, moreArrays]
  | .mk g1 op g2 e :: r, h => by
    rw [moreArrays] at h
    simp [moreAst, condArrays, moreArrays, expr_arrays ign op e h.left, more_arrays ign r h.right]
end

mutual
theorem item_arrays (ign : Bool) : ∀ i : CItem, NoPlug i.arrays →
    (bopArrays (i.ast ign)).map List.length = i.arrays.map List.length
  | .plugin com p, h => by
    rw [CItem.arrays] at h
    simp [CItem.ast, bopArrays, CItem.arrays, plugin_arrays ign _ p h]
  | .branch com g1 c g2 is ft es el, h => by
    rw [CItem.arrays] at h
    simp [CItem.ast, bopArrays, CItem.arrays, cond_arrays ign c h.left.left.left, items_arrays ign is h.left.left.right,
      elifs_arrays ign es h.left.right, else_arrays ign el h.right]
theorem items_arrays (ign : Bool) : ∀ is : List CItem, NoPlug (itemsArrays is) →
    (bopsArrays (itemsAst ign is)).map List.length = (itemsArrays is).map List.length
  | [], _ => by simp [itemsAst, bopsArrays, itemsArrays]
  | i :: r, h => by
    rw [itemsArrays] at h
    simp [itemsAst, bopsArrays, itemsArrays, item_arrays ign i h.left, items_arrays ign r h.right]
theorem elifs_arrays (ign : Bool) : ∀ es : List CElif, NoPlug (celifsArrays es) →
    (elifsArrays (elifsAst ign es)).map List.length = (celifsArrays es).map List.length
  | [], _ => by simp [elifsAst, elifsArrays, celifsArrays]
  | .mk com g0 g1 c g2 is ft :: r, h => by
    rw [celifsArrays] at h
    simp [elifsAst, elifsArrays, celifsArrays, cond_arrays ign c h.left.left, items_arrays ign is h.left.right,
      elifs_arrays ign r h.right]
theorem else_arrays (ign : Bool) : ∀ el : CElse, NoPlug el.arrays →
    (elseArrays (el.ast ign)).map List.length = el.arrays.map List.length
  | .none, _ => by simp [CElse.ast, elseArrays, bopsArrays, CElse.arrays]
  | .mk com g is ft, h => by
    rw [CElse.arrays] at h
    simp [CElse.ast, elseArrays, CElse.arrays, items_arrays ign is h]
end

theorem filter_sections (ign : Bool) (k : CFile) (t : PluginType) :
    ((k.sections ign).filter (·.ptype = t)).flatMap (fun s => bopsArrays s.bops) =
      (k.secs.filter (·.ptype = t)).flatMap (fun s => bopsArrays (itemsAst ign s.items)) := by
  have key : ∀ (l : List CSection) (first : Bool), ((l.map (CSection.ast ign first)).filter (·.ptype = t)).flatMap (fun s => bopsArrays s.bops) =
      (l.filter (·.ptype = t)).flatMap (fun s => bopsArrays (itemsAst ign s.items)) := by
    intro l first
    induction l with
    | nil => rfl
    | cons s l ih =>
      simp only [List.map_cons, List.filter_cons, show (CSection.ast ign first s).ptype = s.ptype from rfl]
      split
      · simp only [List.flatMap_cons, ih]; rfl
      · exact ih
  cases k with
  | empty g => rfl
  | config s ss ft =>
    have h1 := key [s] true
    have h2 := key ss false
    rw [CFile.sections, CFile.secs]
    rw [show ∀ (a : Section) (l : List Section), a :: l = [a] ++ l from fun _ _ => rfl,
      show s :: ss = [s] ++ ss from rfl, List.filter_append, List.filter_append, List.flatMap_append, List.flatMap_append, ← h1, ← h2]
    rfl

theorem secs_arrays (ign : Bool) (l : List CSection) (h : NoPlug (l.flatMap fun s => itemsArrays s.items)) :
    (l.flatMap fun s => bopsArrays (itemsAst ign s.items)).map List.length =
      (l.flatMap fun s => itemsArrays s.items).map List.length := by
  induction l with
  | nil => rfl
  | cons s l ih =>
    rw [List.flatMap_cons] at h
    simp only [List.flatMap_cons, List.map_append, items_arrays ign s.items h.left, ih h.right]

/-! ### Arrays and conditions under a map of the tree -/

variable (m : AMap)

mutual
theorem attrArrays_map : ∀ a : Attr, (attrArrays (m.attr a)).map List.length = (attrArrays a).map List.length
  | .nil => rfl
  | .str _ => rfl
  | .num _ => rfl
  | .arr p n as c f => by
    have h : ∀ l : List Attr, (m.attrs l).length = l.length := by
      intro l
      induction l with
      | nil => rfl
      | cons a l ih => simp [AMap.attrs, ih]
    simp [AMap.attr, attrArrays, attrsArrays_map as, h]
  | .hash p n es c f => by simp [AMap.attr, attrArrays, entriesArrays_map es]
  | .plug p n v c => by simp [AMap.attr, attrArrays, pluginArrays_map v]
theorem attrsArrays_map : ∀ a : List Attr, (attrsArrays (m.attrs a)).map List.length = (attrsArrays a).map List.length
  | [] => rfl
  | a :: as => by simp [AMap.attrs, attrsArrays, attrArrays_map a, attrsArrays_map as]
theorem entriesArrays_map : ∀ a : List HEntry, (entriesArrays (m.hentries a)).map List.length = (entriesArrays a).map List.length
  | [] => rfl
  | .mk p k v c :: as => by simp [AMap.hentries, AMap.hentry, entriesArrays, attrArrays_map v, entriesArrays_map as]
theorem pluginArrays_map : ∀ a : Plugin, (pluginArrays (m.plugin a)).map List.length = (pluginArrays a).map List.length
  | .mk p n as c f => by simp [AMap.plugin, pluginArrays, attrsArrays_map as]
end

theorem attrs_len (l : List Attr) : (m.attrs l).length = l.length := by
  induction l with
  | nil => rfl
  | cons a l ih => simp [AMap.attrs, ih]

theorem rvalueArrays_map (r : Rvalue) : (rvalueArrays (m.rvalue r)).map List.length = (rvalueArrays r).map List.length := by
  cases r <;> simp [AMap.rvalue, rvalueArrays, attrs_len, attrsArrays_map]

mutual
theorem exprArrays_map : ∀ a : Expr, (exprArrays (m.expr a)).map List.length = (exprArrays a).map List.length
  | .nil => rfl
  | .cond p b c => by simp [AMap.expr, exprArrays, condArrays_map c]
  | .negCond p b c => by simp [AMap.expr, exprArrays, condArrays_map c]
  | .negSel p b s => by simp [AMap.expr, exprArrays]
  | .inE p b l r => by simp [AMap.expr, exprArrays, rvalueArrays_map]
  | .notIn p b l r => by simp [AMap.expr, exprArrays, rvalueArrays_map]
  | .rval p b r => by simp [AMap.expr, exprArrays, rvalueArrays_map]
  | .cmp p b l o r => by simp [AMap.expr, exprArrays, rvalueArrays_map]
  | .re p b l o r => by simp [AMap.expr, exprArrays, rvalueArrays_map]
theorem condArrays_map : ∀ a : List Expr, (condArrays (m.cond a)).map List.length = (condArrays a).map List.length
  | [] => rfl
  | a :: as => by simp [AMap.cond, condArrays, exprArrays_map a, condArrays_map as]
end

mutual
theorem bopArrays_map : ∀ a : BOP, (bopArrays (m.bop a)).map List.length = (bopArrays a).map List.length
  | .nil => rfl
  | .plugin p => by simp [AMap.bop, bopArrays, pluginArrays_map]
  | .pluginPtr p => by simp [AMap.bop, bopArrays, pluginArrays_map]
  | .branch p c b cm f ei el => by
    simp [AMap.bop, bopArrays, condArrays_map, bopsArrays_map b, elifsArrays_map ei, elseArrays_map el]
theorem bopsArrays_map : ∀ a : List BOP, (bopsArrays (m.bops a)).map List.length = (bopsArrays a).map List.length
  | [] => rfl
  | a :: as => by simp [AMap.bops, bopsArrays, bopArrays_map a, bopsArrays_map as]
theorem elifsArrays_map : ∀ a : List Elif, (elifsArrays (m.elifs a)).map List.length = (elifsArrays a).map List.length
  | [] => rfl
  | .mk p c b cm f :: as => by
    simp [AMap.elifs, AMap.elif, elifsArrays, condArrays_map, bopsArrays_map b, elifsArrays_map as]
theorem elseArrays_map : ∀ a : ElseB, (elseArrays (m.elseB a)).map List.length = (elseArrays a).map List.length
  | .mk p b cm f => by simp [AMap.elseB, elseArrays, bopsArrays_map b]
end

theorem sectsArrays_map (l : List Section) : (sectsArrays (l.map m.sect)).map List.length = (sectsArrays l).map List.length := by
  induction l with
  | nil => rfl
  | cons s l ih =>
    simp only [sectsArrays, List.map_cons, List.flatMap_cons, List.map_append] at ih ⊢
    rw [ih]
    simp [AMap.sect, bopsArrays_map]

mutual
theorem exprConds_map : ∀ a : Expr, exprConds (m.expr a) = (exprConds a).map m.cond
  | .nil => rfl
  | .cond p b c => by simp [AMap.expr, exprConds, condConds_map c]
  | .negCond p b c => by simp [AMap.expr, exprConds, condConds_map c]
  | .negSel p b s => by simp [AMap.expr, exprConds]
  | .inE p b l r => by simp [AMap.expr, exprConds]
  | .notIn p b l r => by simp [AMap.expr, exprConds]
  | .rval p b r => by simp [AMap.expr, exprConds]
  | .cmp p b l o r => by simp [AMap.expr, exprConds]
  | .re p b l o r => by simp [AMap.expr, exprConds]
theorem condConds_map : ∀ a : List Expr, condConds (m.cond a) = (condConds a).map m.cond
  | [] => rfl
  | a :: as => by simp [AMap.cond, condConds, exprConds_map a, condConds_map as]
end

mutual
theorem bopConds_map : ∀ a : BOP, bopConds (m.bop a) = (bopConds a).map m.cond
  | .nil => rfl
  | .plugin p => by simp [AMap.bop, bopConds]
  | .pluginPtr p => by simp [AMap.bop, bopConds]
  | .branch p c b cm f ei el => by
    simp [AMap.bop, bopConds, condConds_map, bopsConds_map b, elifsConds_map ei, elseConds_map el]
theorem bopsConds_map : ∀ a : List BOP, bopsConds (m.bops a) = (bopsConds a).map m.cond
  | [] => rfl
  | a :: as => by simp [AMap.bops, bopsConds, bopConds_map a, bopsConds_map as]
theorem elifsConds_map : ∀ a : List Elif, elifsConds (m.elifs a) = (elifsConds a).map m.cond
  | [] => rfl
  | .mk p c b cm f :: as => by
    simp [AMap.elifs, AMap.elif, elifsConds, condConds_map, bopsConds_map b, elifsConds_map as]
theorem elseConds_map : ∀ a : ElseB, elseConds (m.elseB a) = (elseConds a).map m.cond
  | .mk p b cm f => by simp [AMap.elseB, elseConds, bopsConds_map b]
end

theorem configConds_map (c : Config) : configConds (m.config c) = (configConds c).map m.cond := by
  have h : ∀ l : List Section, (l.map m.sect).flatMap (fun s => bopsConds s.bops) =
      (l.flatMap fun s => bopsConds s.bops).map m.cond := by
    intro l
    induction l with
    | nil => rfl
    | cons s l ih =>
      simp only [List.map_cons, List.flatMap_cons, List.map_append] at ih ⊢
      rw [ih]
      simp [AMap.sect, bopsConds_map]
  simp [configConds, AMap.config, h]

/-! ### Conditions of trees -/

/-- A condition starts with an expression. -/
def CondOk (c : Condition) : Prop := ∃ e r, c = e :: r ∧ e ≠ .nil

theorem expr_ne_nil (ign : Bool) (op : BoolOpKind) (e : CExpr) : e.ast ign op ≠ .nil := by
  cases e <;> simp [CExpr.ast]

mutual
theorem expr_conds (ign : Bool) (op : BoolOpKind) : ∀ e : CExpr, ∀ c ∈ exprConds (e.ast ign op), CondOk c
  | .paren g1 c g2 => by
    simp only [CExpr.ast, exprConds, List.mem_cons, forall_eq_or_imp]
    exact ⟨cond_ok ign c, cond_conds ign c⟩
  | .notParen g0 g1 c g2 => by
    simp only [CExpr.ast, exprConds, List.mem_cons, forall_eq_or_imp]
    exact ⟨cond_ok ign c, cond_conds ign c⟩
  | .notSel g s => by simp [CExpr.ast, exprConds]
  | .inE l g1 g2 r => by simp [CExpr.ast, exprConds]
  | .notIn l g1 g2 g3 r => by simp [CExpr.ast, exprConds]
  | .cmp l g1 k g2 r => by simp [CExpr.ast, exprConds]
  | .re l g1 k g2 r => by simp [CExpr.ast, exprConds]
  | .rval r => by simp [CExpr.ast, exprConds]
theorem cond_ok (ign : Bool) : ∀ c : CCond, CondOk (c.ast ign)
  | .mk e m => ⟨_, _, by rw [CCond.ast], expr_ne_nil _ _ _⟩
theorem cond_conds (ign : Bool) : ∀ c : CCond, ∀ x ∈ condConds (c.ast ign), CondOk x
  | .mk e m => by
    simp only [CCond.ast, condConds, List.mem_append]
    rintro x (h | h)
    · exact expr_conds ign _ e x h
    · exact more_conds ign m x h
theorem more_conds (ign : Bool) : ∀ m : List CMore, ∀ x ∈ condConds (moreAst ign m), CondOk x
  | [] => by simp [moreAst, condConds]
  | .mk g1 op g2 e :: r => by
    simp only [moreAst, condConds, List.mem_append]
    rintro x (h | h)
    · exact expr_conds ign _ e x h
    · exact more_conds ign r x h
end

mutual
theorem item_conds (ign : Bool) : ∀ i : CItem, ∀ x ∈ bopConds (i.ast ign), CondOk x
  | .plugin com p => by simp [CItem.ast, bopConds]
  | .branch com g1 c g2 is ft es el => by
    simp only [CItem.ast, bopConds, List.cons_append, List.mem_cons, List.mem_append]
    rintro x (rfl | (((h | h) | h) | h))
    · exact cond_ok ign c
    · exact cond_conds ign c x h
    · exact items_conds ign is x h
    · exact elifs_conds ign es x h
    · exact else_conds ign el x h
theorem items_conds (ign : Bool) : ∀ is : List CItem, ∀ x ∈ bopsConds (itemsAst ign is), CondOk x
  | [] => by simp [itemsAst, bopsConds]
  | i :: r => by
    simp only [itemsAst, bopsConds, List.mem_append]
    rintro x (h | h)
    · exact item_conds ign i x h
    · exact items_conds ign r x h
theorem elifs_conds (ign : Bool) : ∀ es : List CElif, ∀ x ∈ elifsConds (elifsAst ign es), CondOk x
  | [] => by simp [elifsAst, elifsConds]
  | .mk com g0 g1 c g2 is ft :: r => by
    simp only [elifsAst, elifsConds, List.cons_append, List.mem_cons, List.mem_append]
    rintro x (rfl | ((h | h) | h))
    · exact cond_ok ign c
    · exact cond_conds ign c x h
    · exact items_conds ign is x h
    · exact elifs_conds ign r x h
theorem else_conds (ign : Bool) : ∀ el : CElse, ∀ x ∈ elseConds (el.ast ign), CondOk x
  | .none => by simp [CElse.ast, elseConds, bopsConds]
  | .mk com g is ft => by
    simp only [CElse.ast, elseConds]
    exact items_conds ign is
end

theorem file_conds (ign : Bool) (k : CFile) : ∀ x ∈ configConds (k.ast ign), CondOk x := by
  have h : ∀ s ∈ k.sections ign, ∀ x ∈ bopsConds s.bops, CondOk x := by
    cases k with
    | empty g => simp [CFile.sections]
    | config s ss ft =>
      simp only [CFile.sections, List.mem_cons, List.mem_map]
      rintro t (rfl | ⟨u, _, rfl⟩)
      · exact items_conds ign _
      · exact items_conds ign _
  intro x hx
  simp only [configConds, CFile.ast, List.flatMap_append, List.mem_append, List.mem_flatMap, List.mem_filter] at hx
  rcases hx with ((⟨s, ⟨hs, _⟩, h1⟩ | ⟨s, ⟨hs, _⟩, h1⟩) | ⟨s, ⟨hs, _⟩, h1⟩) <;> exact h s hs x h1

end Verif
