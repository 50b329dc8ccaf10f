import Verif.Proofs.Risks
import Verif.Proofs.OkMap
/-
The numbers of a configuration are written in its text.
-/
namespace Verif
open Verif.Spec

/-! ### Positions do not matter -/

theorem keyRisks_map (k : HKey) : keyRisks (AMap.noPos.hkey k) = keyRisks k := by cases k <;> rfl

mutual
theorem valRisks_map : ∀ a, valRisks (AMap.noPos.attr a) = valRisks a
  | .nil => by rw [AMap.attr]
  | .str a => by rw [AMap.attr]; rfl
  | .num a => by rw [AMap.attr]; rfl
  | .arr p n as c f => by rw [AMap.attr, valRisks, valRisks, attrsRisks_map as]
  | .hash p n es c f => by rw [AMap.attr, valRisks, valRisks, entriesRisks_map es]
  | .plug p n v c => by rw [AMap.attr, valRisks, valRisks, pluginRisks_map v]
theorem attrsRisks_map : ∀ as, attrsRisks (AMap.noPos.attrs as) = attrsRisks as
  | [] => by rw [AMap.attrs]
  | a :: as => by rw [AMap.attrs, attrsRisks, attrsRisks, valRisks_map a, attrsRisks_map as]
theorem entriesRisks_map : ∀ es, entriesRisks (AMap.noPos.hentries es) = entriesRisks es
  | [] => by rw [AMap.hentries]
  | .mk p k v c :: es => by
    rw [AMap.hentries, AMap.hentry, entriesRisks, entriesRisks, keyRisks_map, valRisks_map v, entriesRisks_map es]
theorem pluginRisks_map : ∀ p, pluginRisks (AMap.noPos.plugin p) = pluginRisks p
  | .mk p n as c f => by rw [AMap.plugin, pluginRisks, pluginRisks, attrsRisks_map as]
end

theorem selRisks_map (s : Selector) : selRisks (AMap.noPos.selector s) = selRisks s := by
  simp only [selRisks, AMap.selector, List.map_map]; rfl

theorem rvalueRisks_map (r : Rvalue) : rvalueRisks (AMap.noPos.rvalue r) = rvalueRisks r := by
  cases r with
  | arr p n as c f =>
    have h := strMap_rvalue (m := AMap.noPos) (fun _ => rfl) (.arr p n as c f)
    rw [AMap.rvalue] at h ⊢
    rw [rvalueRisks, rvalueRisks, attrsRisks_map, h]
  | sel s => simp only [AMap.rvalue, rvalueRisks, selRisks_map]
  | _ => rfl

mutual
theorem exprRisks_map : ∀ e, exprRisks (AMap.noPos.expr e) = exprRisks e
  | .nil => by rw [AMap.expr]
  | .cond p b c => by rw [AMap.expr, exprRisks, exprRisks, condRisks_map c]
  | .negCond p b c => by rw [AMap.expr, exprRisks, exprRisks, condRisks_map c]
  | .negSel p b s => by rw [AMap.expr, exprRisks, exprRisks, selRisks_map]
  | .inE p b l r => by rw [AMap.expr, exprRisks, exprRisks, rvalueRisks_map, rvalueRisks_map]
  | .notIn p b l r => by rw [AMap.expr, exprRisks, exprRisks, rvalueRisks_map, rvalueRisks_map]
  | .rval p b r => by rw [AMap.expr, exprRisks, exprRisks, rvalueRisks_map]
  | .cmp p b l o r => by rw [AMap.expr, exprRisks, exprRisks, rvalueRisks_map, rvalueRisks_map]
  | .re p b l o r => by rw [AMap.expr, exprRisks, exprRisks, rvalueRisks_map, rvalueRisks_map]
theorem condRisks_map : ∀ es, condRisks (AMap.noPos.cond es) = condRisks es
  | [] => by rw [AMap.cond]
  | e :: es => by rw [AMap.cond, condRisks, condRisks, exprRisks_map e, condRisks_map es]
end

theorem headRisk_map (bs : List BOP) : headRisk (AMap.noPos.bops bs) = headRisk bs := by
  cases bs with
  | nil => rw [AMap.bops]
  | cons b bs =>
    rw [AMap.bops]
    cases b <;> rw [AMap.bop] <;> simp only [headRisk, plugin_name_map]

mutual
theorem bopRisks_map : ∀ b, bopRisks (AMap.noPos.bop b) = bopRisks b
  | .nil => by rw [AMap.bop]
  | .plugin p => by rw [AMap.bop, bopRisks, bopRisks, pluginRisks_map]
  | .pluginPtr p => by rw [AMap.bop, bopRisks, bopRisks, pluginRisks_map]
  | .branch p c b cm f ei el => by
    rw [AMap.bop, bopRisks, bopRisks, condRisks_map, blockRisks_map b, elifsRisks_map ei, elseRisks_map el]
theorem blockRisks_map : ∀ bs, blockRisks (AMap.noPos.bops bs) = blockRisks bs
  | [] => by rw [AMap.bops]
  | b :: bs => by rw [AMap.bops, blockRisks, blockRisks, bopRisks_map b, isOpen_map, headRisk_map, blockRisks_map bs]
theorem elifsRisks_map : ∀ es, elifsRisks (AMap.noPos.elifs es) = elifsRisks es
  | [] => by rw [AMap.elifs]
  | .mk p c b cm f :: es => by
    rw [AMap.elifs, AMap.elif, elifsRisks, elifsRisks, condRisks_map, blockRisks_map b, elifsRisks_map es]
theorem elseRisks_map : ∀ e, elseRisks (AMap.noPos.elseB e) = elseRisks e
  | .mk p b cm f => by rw [AMap.elseB, elseRisks, elseRisks, blockRisks_map b]
end

theorem sectionsRisks_map (l : List Section) : sectionsRisks (l.map AMap.noPos.sect) = sectionsRisks l := by
  simp only [sectionsRisks, List.flatMap_map, AMap.sect, blockRisks_map]

theorem risks_content (c : Config) : risks (content c) = risks c := by
  simp only [risks, content, AMap.config, sectionsRisks_map]

/-! ### Numbers come from the text -/

/-- Every number of the list is the value of a number token in the text. -/
def FromText (t : Bytes) (l : List Risk) : Prop :=
  ∀ x, Risk.number x ∈ l → ∃ n, NumTok n ∧ n <:+: t ∧ parseFloat n = some x

theorem from_nil (t : Bytes) : FromText t [] := by simp [FromText]
theorem from_append {t : Bytes} {a b : List Risk} (ha : FromText t a) (hb : FromText t b) : FromText t (a ++ b) := by
  intro x hx
  rcases List.mem_append.1 hx with h | h
  · exact ha x h
  · exact hb x h
theorem FromText.mono {s t : Bytes} {l : List Risk} (h : FromText s l) (hs : s <:+: t) : FromText t l := by
  intro x hx
  obtain ⟨n, h1, h2, h3⟩ := h x hx
  exact ⟨n, h1, h2.trans hs, h3⟩
theorem from_num {t : Bytes} (h : NumOk t) : FromText t [.number (numAst t).value] := by
  intro x hx
  simp only [List.mem_singleton, Risk.number.injEq] at hx
  obtain ⟨y, hy⟩ := Option.isSome_iff_exists.1 h.2
  exact ⟨t, h.1, List.infix_rfl, by rw [hy, hx]; simp [numAst, hy]⟩
theorem from_sel (t : Bytes) (s : Selector) : FromText t (selRisks s) := by
  intro x hx
  simp [selRisks] at hx

theorem infix_hit (a r : Bytes) : a <:+: a ++ r := (List.prefix_append a r).isInfix
theorem infix_skip {a r : Bytes} (p : Bytes) (h : a <:+: r) : a <:+: p ++ r := h.trans (List.suffix_append p r).isInfix
theorem infix_skip1 {a r : Bytes} (c : UInt8) (h : a <:+: r) : a <:+: c :: r := h.trans (List.suffix_cons c r).isInfix

/-- Find a text among concatenated ones. -/
macro "infx" : tactic => `(tactic| (
  (try simp only [List.append_assoc, List.cons_append, List.nil_append])
  repeat (first
    | exact List.infix_rfl
    | exact infix_hit _ _
    | apply infix_skip1
    | apply infix_skip)))

theorem valRisks_comment (c : CommentBlock) (a : Attr) : valRisks (withComment c a) = valRisks a := by
  cases a <;> simp [withComment, valRisks]
theorem valRisks_name (n : Bytes) (a : Attr) : valRisks (withName n a) = valRisks a := by
  cases a <;> simp [withName, valRisks]

theorem from_key {k : CKey} (h : k.Ok) : FromText k.text (keyRisks k.ast) := by
  cases k with
  | str s => exact from_nil _
  | num t => exact from_num h

mutual
theorem from_val (ign : Bool) : ∀ v : CVal, v.Ok → FromText v.text (valRisks (v.ast ign))
  | .str s, _ => by simp only [CVal.ast, valRisks]; exact from_nil _
  | .num t, h => by simp only [CVal.ast, CVal.text, valRisks]; exact from_num h
  | .arr elems foot, h => by
    simp only [CVal.Ok] at h
    simp only [CVal.ast, CVal.text, valRisks]
    exact (from_elems ign elems true h.1).mono (by infx)
  | .hash entries foot, h => by
    simp only [CVal.Ok] at h
    simp only [CVal.ast, CVal.text, valRisks]
    exact (from_entries ign entries true h.1).mono (by infx)
  | .plug p, h => by
    simp only [CVal.Ok] at h
    simp only [CVal.ast, CVal.text, valRisks]
    exact from_plugin ign p [] h
theorem from_elems (ign : Bool) : ∀ (es : List CElem) (first : Bool), elemsOk first es →
    FromText (elemsText first es) (attrsRisks (elemsAst ign first es))
  | [], first, _ => by simp only [elemsAst, attrsRisks]; exact from_nil _
  | .mk pre com v :: r, first, h => by
    simp only [elemsOk] at h
    obtain ⟨-, -, hv, -, hr⟩ := h
    simp only [elemsAst, elemsText]
    have h1 := from_elems ign r false hr
    by_cases hp : v.isPlug = true
    · rw [if_pos hp (α := List Attr)]; exact h1.mono (by infx)
    · rw [if_neg hp (α := List Attr)]; simp only [attrsRisks, valRisks_comment]
      exact from_append ((from_val ign v hv).mono (by infx)) (h1.mono (by infx))
theorem from_entries (ign : Bool) : ∀ (es : List CEntry) (first : Bool), entriesOk first es →
    FromText (entriesText first es) (entriesRisks (entriesAst ign first es))
  | [], first, _ => by simp only [entriesAst, entriesRisks]; exact from_nil _
  | .mk sep com k g1 g2 v :: r, first, h => by
    simp only [entriesOk] at h
    obtain ⟨-, -, hk, -, -, hv, -, hr⟩ := h
    simp only [entriesAst, entriesText, entriesRisks]
    exact from_append (from_append ((from_key hk).mono (by infx)) ((from_val ign v hv).mono (by infx)))
      ((from_entries ign r false hr).mono (by infx))
theorem from_plugin (ign : Bool) : ∀ (p : CPlugin) (c : CommentBlock), p.Ok → FromText p.text (pluginRisks (p.ast ign c))
  | .mk name g attrs foot, c, h => by
    simp only [CPlugin.Ok] at h
    simp only [CPlugin.ast, CPlugin.text, pluginRisks]
    exact (from_attrs ign attrs true h.2.2.1).mono (by infx)
theorem from_attrs (ign : Bool) : ∀ (es : List CAttr) (first : Bool), attrsOk first es →
    FromText (attrsText first es) (attrsRisks (attrsAst ign first es))
  | [], first, _ => by simp only [attrsAst, attrsRisks]; exact from_nil _
  | .mk sep com n g1 g2 v :: r, first, h => by
    simp only [attrsOk] at h
    obtain ⟨-, -, -, -, -, hv, hr⟩ := h
    simp only [attrsAst, attrsText, attrsRisks, valRisks_comment, valRisks_name]
    exact from_append ((from_val ign v hv).mono (by infx)) ((from_attrs ign r false hr).mono (by infx))
end

theorem from_rval (ign : Bool) {r : CRval} (h : r.Ok) : FromText r.text (rvalueRisks (r.ast ign)) := by
  cases r with
  | str s => exact from_nil _
  | num t => exact from_num h
  | sel names => exact from_sel _ _
  | arr elems foot =>
    have h1 := from_val ign (.arr elems foot) h.1
    simp only [CVal.ast, valRisks] at h1
    intro x hx
    simp only [CRval.ast, rvalueRisks, List.mem_cons, reduceCtorEq, false_or] at hx
    exact h1 x hx
  | re body => intro x hx; simp [CRval.ast, rvalueRisks] at hx

mutual
theorem from_expr (ign : Bool) : ∀ (e : CExpr) (op : BoolOpKind), e.Ok → FromText e.text (exprRisks (e.ast ign op))
  | .paren g1 c g2, op, h => by
    simp only [CExpr.Ok] at h
    simp only [CExpr.ast, CExpr.text, exprRisks]
    exact (from_cond ign c h.2.1).mono (by infx)
  | .notParen g0 g1 c g2, op, h => by
    simp only [CExpr.Ok] at h
    simp only [CExpr.ast, CExpr.text, exprRisks]
    exact (from_cond ign c h.2.2.1).mono (by infx)
  | .notSel g names, op, h => by simp only [CExpr.ast, exprRisks]; exact from_sel _ _
  | .inE l g1 g2 r, op, h => by
    simp only [CExpr.Ok] at h
    simp only [CExpr.ast, CExpr.text, exprRisks]
    exact from_append ((from_rval ign h.1).mono (by infx)) ((from_rval ign h.2.2.2).mono (by infx))
  | .notIn l g1 g2 g3 r, op, h => by
    simp only [CExpr.Ok] at h
    simp only [CExpr.ast, CExpr.text, exprRisks]
    exact from_append ((from_rval ign h.1).mono (by infx)) ((from_rval ign h.2.2.2.2).mono (by infx))
  | .cmp l g1 k g2 r, op, h => by
    simp only [CExpr.Ok] at h
    simp only [CExpr.ast, CExpr.text, exprRisks]
    exact from_append ((from_rval ign h.1).mono (by infx)) ((from_rval ign h.2.2.2.2).mono (by infx))
  | .re l g1 k g2 r, op, h => by
    simp only [CExpr.Ok] at h
    simp only [CExpr.ast, CExpr.text, exprRisks]
    exact from_append ((from_rval ign h.1).mono (by infx)) ((from_rval ign h.2.2.2.2.1).mono (by infx))
  | .rval r, op, h => by
    simp only [CExpr.Ok] at h
    simp only [CExpr.ast, CExpr.text, exprRisks]
    exact from_rval ign h
theorem from_cond (ign : Bool) : ∀ c : CCond, c.Ok → FromText c.text (condRisks (c.ast ign))
  | .mk e more, h => by
    simp only [CCond.Ok] at h
    simp only [CCond.ast, CCond.text, condRisks]
    exact from_append ((from_expr ign e _ h.1).mono (by infx)) ((from_more ign more h.2).mono (by infx))
theorem from_more (ign : Bool) : ∀ l : List CMore, moreOk l → FromText (moreText l) (condRisks (moreAst ign l))
  | [], _ => by simp only [moreAst, condRisks]; exact from_nil _
  | .mk g1 op g2 e :: r, h => by
    simp only [moreOk] at h
    simp only [moreAst, moreText, condRisks]
    exact from_append ((from_expr ign e _ h.2.2.2.1).mono (by infx)) ((from_more ign r h.2.2.2.2).mono (by infx))
end

theorem from_head (t : Bytes) (bs : List BOP) : FromText t (headRisk bs) := by
  intro x hx
  unfold headRisk at hx
  split at hx <;> simp at hx

mutual
theorem from_item (ign : Bool) : ∀ i : CItem, i.Ok → FromText i.text (bopRisks (i.ast ign))
  | .plugin com p, h => by
    simp only [CItem.Ok] at h
    simp only [CItem.ast, CItem.text, bopRisks]
    exact (from_plugin ign p _ h.2).mono (by infx)
  | .branch com g1 c g2 items foot elifs els, h => by
    simp only [CItem.Ok] at h
    obtain ⟨-, -, hc, -, hi, -, he, hl⟩ := h
    simp only [CItem.ast, CItem.text, bopRisks]
    exact from_append (from_append (from_append ((from_cond ign c hc).mono (by infx)) ((from_items ign items hi).mono (by infx)))
      ((from_elifs ign elifs he).mono (by infx))) ((from_else ign els hl).mono (by infx))
theorem from_items (ign : Bool) : ∀ l : List CItem, itemsOk l → FromText (itemsText l) (blockRisks (itemsAst ign l))
  | [], _ => by simp only [itemsAst, blockRisks]; exact from_nil _
  | i :: r, h => by
    simp only [itemsOk] at h
    simp only [itemsAst, itemsText, blockRisks]
    refine from_append (from_append ((from_item ign i h.1).mono (by infx)) ?_) ((from_items ign r h.2).mono (by infx))
    split
    · exact from_head _ _
    · exact from_nil _
theorem from_elifs (ign : Bool) : ∀ l : List CElif, elifsOk l → FromText (elifsText l) (elifsRisks (elifsAst ign l))
  | [], _ => by simp only [elifsAst, elifsRisks]; exact from_nil _
  | .mk com g0 g1 c g2 items foot :: r, h => by
    simp only [elifsOk] at h
    obtain ⟨-, -, -, hc, -, hi, -, hr⟩ := h
    simp only [elifsAst, elifsText, elifsRisks]
    exact from_append (from_append ((from_cond ign c hc).mono (by infx)) ((from_items ign items hi).mono (by infx)))
      ((from_elifs ign r hr).mono (by infx))
theorem from_else (ign : Bool) : ∀ e : CElse, e.Ok → FromText e.text (elseRisks (e.ast ign))
  | .none, _ => by simp only [CElse.ast, elseRisks, blockRisks]; exact from_nil _
  | .mk com g items foot, h => by
    simp only [CElse.Ok] at h
    simp only [CElse.ast, CElse.text, elseRisks]
    exact (from_items ign items h.2.2.1).mono (by infx)
end

theorem from_section (ign first : Bool) {s : CSection} (h : s.Ok) : FromText s.text (blockRisks (s.ast ign first).bops) :=
  (from_items ign s.items h.2.2.2.1).mono (by unfold CSection.text; infx)

theorem from_file (ign : Bool) {k : CFile} (h : k.Ok) : FromText k.text (risks (k.ast ign)) := by
  have hall : ∀ s ∈ k.sections ign, FromText k.text (blockRisks s.bops) := by
    intro s hs
    cases k with
    | empty g => simp [CFile.sections] at hs
    | config a ss foot =>
      rcases List.mem_cons.1 hs with rfl | hs
      · exact (from_section ign true h.1).mono (by unfold CFile.text; infx)
      · obtain ⟨t, ht, rfl⟩ := List.mem_map.1 hs
        refine (from_section ign false (h.2.1 t ht)).mono ?_
        obtain ⟨a', b', rfl⟩ := List.append_of_mem ht
        unfold CFile.text
        simp only [List.flatMap_append, List.flatMap_cons]
        infx
  have hs : ∀ t, FromText k.text (sectionsRisks ((k.sections ign).filter (·.ptype = t))) := by
    intro t x hx
    obtain ⟨s, h1, h2⟩ := List.mem_flatMap.1 hx
    exact hall s (List.mem_filter.1 h1).1 x h2
  exact from_append (from_append (hs _) (hs _)) (hs _)

end Verif
