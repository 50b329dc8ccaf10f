import Verif.Proofs.Crlf
import Verif.Proofs.Utf8Split
import Verif.Spec.Literals
/-
A configuration whose names and literals contain no newline is left alone; valid UTF-8 remains valid.
-/
namespace Verif.Spec
open Verif

/-- No text of the list contains a newline. -/
abbrev No10 (l : List Bytes) : Prop := ∀ t ∈ l, 10 ∉ t

theorem litText_same {a : StrAttr} (hn : a.name = []) (h : 10 ∉ litText a) : crlfStr a = a := by
  obtain ⟨p, n, v, s, c⟩ := a
  simp only at hn
  subst hn
  simp only [litText, StrLit.text, List.mem_append, not_or] at h
  simp [crlfStr, crlf_id h.1.2]

theorem key_same {k : CKey} (h : No10 (keyLits k.ast)) : crlfKey k.ast = k.ast := by
  cases k with
  | str s => exact congrArg HKey.str (litText_same rfl (h _ (List.mem_singleton.2 rfl)))
  | num t => rfl

theorem valLits_comment (c : CommentBlock) (a : Attr) : valLits (withComment c a) = valLits a := by cases a <;> rfl

theorem attrsLits_cons (c : CommentBlock) (n : Bytes) (ign : Bool) (v : CVal) (l : List Attr) :
    attrsLits (withComment c (withName n (v.ast ign)) :: l) = n :: (valLits (v.ast ign) ++ attrsLits l) := by
  cases v <;> simp [CVal.ast, withName, withComment, attrsLits, valLits, litText, numAst]

theorem No10.app {a b : List Bytes} (h : No10 (a ++ b)) : No10 a ∧ No10 b :=
  ⟨fun t ht => h t (List.mem_append_left _ ht), fun t ht => h t (List.mem_append_right _ ht)⟩

mutual
theorem val_same (ign : Bool) : ∀ v : CVal, No10 (valLits (v.ast ign)) → crlfAttr (v.ast ign) = v.ast ign
  | .str s, h => congrArg Attr.str (litText_same rfl (h _ (List.mem_singleton.2 rfl)))
  | .num t, _ => rfl
  | .arr es f, h => by
    simp only [CVal.ast, crlfAttr, valLits] at h ⊢
    rw [elems_same ign true es h]; rfl
  | .hash es f, h => by
    simp only [CVal.ast, crlfAttr, valLits] at h ⊢
    rw [entries_same ign true es h]; rfl
  | .plug p, h => by
    simp only [CVal.ast, crlfAttr, valLits] at h ⊢
    rw [plug_same ign [] p h]; rfl
theorem elems_same (ign : Bool) : ∀ b (es : List CElem), No10 (elemsLits (elemsAst ign b es)) → crlfAttrs (elemsAst ign b es) = elemsAst ign b es
  | _, [], _ => rfl
  | b, .mk pre com v :: r, h => by
    simp only [elemsAst] at h ⊢
    split at h
    · next hv => rw [if_pos hv]; exact elems_same ign false r h
    · next hv =>
      rw [if_neg hv]
      simp only [elemsLits, valLits_comment] at h
      rw [crlfAttrs, withComment_crlf, val_same ign v h.app.1, elems_same ign false r h.app.2]
theorem entries_same (ign : Bool) : ∀ b (es : List CEntry), No10 (entriesLits (entriesAst ign b es)) →
    crlfEntries (entriesAst ign b es) = entriesAst ign b es
  | _, [], _ => rfl
  | b, .mk sep com k g1 g2 v :: r, h => by
    simp only [entriesAst, entriesLits] at h ⊢
    rw [crlfEntries, key_same h.app.1.app.1, val_same ign v h.app.1.app.2, entries_same ign false r h.app.2]
theorem plug_same (ign : Bool) (c : CommentBlock) : ∀ p : CPlugin, No10 (pluginLits (p.ast ign c)) → crlfPlugin (p.ast ign c) = p.ast ign c
  | .mk n g as f, h => by
    simp only [CPlugin.ast, pluginLits, crlfPlugin] at h ⊢
    rw [crlf_id (h _ (List.mem_cons_self ..)), attrs_same ign true as fun t ht => h t (List.mem_cons_of_mem _ ht)]
theorem attrs_same (ign : Bool) : ∀ b (as : List CAttr), No10 (attrsLits (attrsAst ign b as)) → crlfAttrs (attrsAst ign b as) = attrsAst ign b as
  | _, [], _ => rfl
  | b, .mk sep com n g1 g2 v :: r, h => by
    simp only [attrsAst, attrsLits_cons] at h ⊢
    have h2 := No10.app fun t ht => h t (List.mem_cons_of_mem _ ht)
    rw [crlfAttrs, withComment_crlf, withName_crlf, val_same ign v h2.1, attrs_same ign false r h2.2, crlf_id (h _ (List.mem_cons_self ..))]
end

theorem sel_same {ns : List Bytes} (h : 10 ∉ selLit (selAst ns)) : crlfSel (selAst ns) = selAst ns := by
  rw [← sel_crlf_ast]
  congr 1
  have : ns.map crlf = ns.map id := by
    apply List.map_congr_left
    intro n hn
    refine crlf_id fun hm => h ?_
    simp only [selLit, selAst, selText, List.map_map, List.mem_flatMap, List.mem_map]
    exact ⟨n, ⟨n, hn, rfl⟩, by simp [hm]⟩
  rw [this, List.map_id]

theorem rval_same (ign : Bool) {r : CRval} (h : No10 (rvalueLits (r.ast ign))) : crlfRvalue (r.ast ign) = r.ast ign := by
  cases r with
  | str s => exact congrArg Rvalue.str (litText_same rfl (h _ (List.mem_singleton.2 rfl)))
  | num t => rfl
  | sel ns => exact congrArg Rvalue.sel (sel_same (h _ (List.mem_singleton.2 rfl)))
  | arr es f =>
    simp only [CRval.ast, crlfRvalue, rvalueLits] at h ⊢
    rw [elems_same ign true es h]; rfl
  | re b =>
    have := h _ (List.mem_singleton.2 rfl)
    simp only [List.mem_append, not_or] at this
    simp only [CRval.ast, crlfRvalue, crlf_id this.1.2]

mutual
theorem expr_same (ign : Bool) : ∀ (op : BoolOpKind) (e : CExpr), No10 (exprLits (e.ast ign op)) → crlfExpr (e.ast ign op) = e.ast ign op
  | op, .paren g1 c g2, h => by
    simp only [CExpr.ast, crlfExpr, exprLits] at h ⊢; rw [cond_same ign c h]
  | op, .notParen g0 g1 c g2, h => by
    simp only [CExpr.ast, crlfExpr, exprLits] at h ⊢; rw [cond_same ign c h]
  | op, .notSel g ns, h => by
    simp only [CExpr.ast, crlfExpr, exprLits] at h ⊢; rw [sel_same (h _ (List.mem_singleton.2 rfl))]
  | op, .inE l g1 g2 r, h => by
    simp only [CExpr.ast, crlfExpr, exprLits] at h ⊢; rw [rval_same ign h.app.1, rval_same ign h.app.2]
  | op, .notIn l g1 g2 g3 r, h => by
    simp only [CExpr.ast, crlfExpr, exprLits] at h ⊢; rw [rval_same ign h.app.1, rval_same ign h.app.2]
  | op, .cmp l g1 o g2 r, h => by
    simp only [CExpr.ast, crlfExpr, exprLits] at h ⊢; rw [rval_same ign h.app.1, rval_same ign h.app.2]
  | op, .re l g1 o g2 r, h => by
    simp only [CExpr.ast, crlfExpr, exprLits] at h ⊢; rw [rval_same ign h.app.1, rval_same ign h.app.2]
  | op, .rval r, h => by
    simp only [CExpr.ast, crlfExpr, exprLits] at h ⊢; rw [rval_same ign h]
theorem cond_same (ign : Bool) : ∀ c : CCond, No10 (condLits (c.ast ign)) → crlfCond (c.ast ign) = c.ast ign
  | .mk e more, h => by
    simp only [CCond.ast, crlfCond, condLits] at h ⊢
    rw [expr_same ign .noOp e h.app.1, more_same ign more h.app.2]
theorem more_same (ign : Bool) : ∀ l : List CMore, No10 (condLits (moreAst ign l)) → crlfCond (moreAst ign l) = moreAst ign l
  | [], _ => rfl
  | .mk g1 op g2 e :: r, h => by
    simp only [moreAst, crlfCond, condLits] at h ⊢
    rw [expr_same ign op e h.app.1, more_same ign r h.app.2]
end

mutual
theorem item_same (ign : Bool) : ∀ i : CItem, No10 (bopLits (i.ast ign)) → crlfBop (i.ast ign) = i.ast ign
  | .plugin com p, h => by
    simp only [CItem.ast, crlfBop, bopLits] at h ⊢; rw [plug_same ign _ p h]
  | .branch com g1 c g2 items foot elifs els, h => by
    simp only [CItem.ast, crlfBop, bopLits] at h ⊢
    rw [cond_same ign c h.app.1.app.1.app.1, items_same ign items h.app.1.app.1.app.2, elifs_same ign elifs h.app.1.app.2, else_same ign els h.app.2]
theorem items_same (ign : Bool) : ∀ l : List CItem, No10 (blockLits (itemsAst ign l)) → crlfBops (itemsAst ign l) = itemsAst ign l
  | [], _ => rfl
  | i :: r, h => by
    simp only [itemsAst, crlfBops, blockLits] at h ⊢
    rw [item_same ign i h.app.1, items_same ign r h.app.2]
theorem elifs_same (ign : Bool) : ∀ l : List CElif, No10 (elifsLits (elifsAst ign l)) → crlfElifs (elifsAst ign l) = elifsAst ign l
  | [], _ => rfl
  | .mk com g0 g1 c g2 items foot :: r, h => by
    simp only [elifsAst, crlfElifs, elifsLits] at h ⊢
    rw [cond_same ign c h.app.1.app.1, items_same ign items h.app.1.app.2, elifs_same ign r h.app.2]
theorem else_same (ign : Bool) : ∀ e : CElse, No10 (elseLits (e.ast ign)) → crlfElse (e.ast ign) = e.ast ign
  | .none, _ => rfl
  | .mk com g items foot, h => by
    simp only [CElse.ast, crlfElse, elseLits] at h ⊢
    rw [items_same ign items h]
end

theorem file_same (ign : Bool) (k : CFile) (h : No10 (configLits (k.ast ign))) : crlfConfig (k.ast ign) = k.ast ign := by
  have key : ∀ s ∈ (k.ast ign).input ++ (k.ast ign).filter ++ (k.ast ign).output, crlfSect s = s := by
    intro s hs
    have h1 : No10 (blockLits s.bops) := fun t ht => h t (List.mem_flatMap.2 ⟨s, hs, ht⟩)
    have h2 : ∃ is, s.bops = itemsAst ign is := by
      have h3 : s ∈ k.sections ign := by
        simp only [CFile.ast, List.mem_append, List.mem_filter] at hs
        rcases hs with (hs | hs) | hs <;> exact hs.1
      cases k with
      | empty g => cases h3
      | config t ts f =>
        simp only [CFile.sections, List.mem_cons, List.mem_map] at h3
        rcases h3 with rfl | ⟨x, -, rfl⟩
        · exact ⟨_, rfl⟩
        · exact ⟨_, rfl⟩
    obtain ⟨is, h2⟩ := h2
    rw [h2] at h1
    have := items_same ign is h1
    rw [← h2] at this
    unfold crlfSect
    rw [this]
  have hm : ∀ l : List Section, (∀ s ∈ l, crlfSect s = s) → l.map crlfSect = l := by
    intro l hl
    conv => rhs; rw [← List.map_id l]
    exact List.map_congr_left hl
  unfold crlfConfig
  rw [hm _ fun s hs => key s (by simp [hs]), hm _ fun s hs => key s (by simp [hs]), hm _ fun s hs => key s (by simp [hs])]

theorem validUTF8_crlf : ∀ {t : Bytes}, ValidUTF8 t → ValidUTF8 (crlf t) := by
  have key : ∀ (t u : Bytes), 10 ∉ u → ValidUTF8 (u ++ t) → ValidUTF8 (u ++ crlf t) := by
    intro t
    induction t with
    | nil => exact fun u _ h => h
    | cons c t ih =>
      intro u hu h
      by_cases hc : c = 10
      · subst hc
        obtain ⟨h1, h2⟩ := validUTF8_split (fun d r hd => by injection hd with hd _; rw [← hd]; decide) h
        have h3 := validUTF8_drop_ascii (a := [10]) (by decide) h2
        rw [crlf_cons, if_pos rfl]
        have h4 := ih [] (by simp) h3
        exact validUTF8_append h1 (validUTF8_append (a := [13, 10]) (validUTF8_ascii (by decide)) h4)
      · have := ih (u ++ [c]) (by simp [hu, Ne.symm hc]) (by simpa using h)
        rw [crlf_cons, if_neg hc]
        simpa using this
  exact fun {t} h => key t [] (by simp) h

end Verif.Spec
