import Verif.Proofs.StrMap
import Verif.Spec.Printable
/-
`Shaped` and `Printable` do not depend on source positions.
-/
namespace Verif
open Spec


theorem noPos_attr (a : Attr) : (AMap.noPos.attr a).isPlug = a.isPlug ∧ (AMap.noPos.attr a).name = a.name ∧ (AMap.noPos.attr a).comment = a.comment := by
  cases a <;> simp [AMap.attr, Attr.isPlug, Attr.name, Attr.comment, AMap.str, AMap.num, AMap.noPos]

theorem keyOk_map (t : Bool) (k : HKey) : KeyOk t (AMap.noPos.hkey k) ↔ KeyOk t k := by cases k <;> exact Iff.rfl

mutual
theorem valueOk_map (t : Bool) : ∀ a, ValueOk t (AMap.noPos.attr a) ↔ ValueOk t a
  | .nil => by rw [AMap.attr]
  | .str a => by rw [AMap.attr]; exact Iff.rfl
  | .num a => by rw [AMap.attr]; exact Iff.rfl
  | .arr p n as c f => by rw [AMap.attr, ValueOk, ValueOk, elemsOk_map t as]; exact Iff.rfl
  | .hash p n es c f => by rw [AMap.attr, ValueOk, ValueOk, entriesOk_map t es]; exact Iff.rfl
  | .plug p n v c => by
    rw [AMap.attr, ValueOk, ValueOk, pluginOk_map t v]
    cases v; rw [AMap.plugin]; exact Iff.rfl
theorem elemsOk_map (t : Bool) : ∀ as, ElemsOk t (AMap.noPos.attrs as) ↔ ElemsOk t as
  | [] => by rw [AMap.attrs]
  | a :: as => by
    have h := noPos_attr a
    rw [AMap.attrs, ElemsOk, ElemsOk, valueOk_map t a, elemsOk_map t as, h.1, h.2.1, h.2.2]
theorem entriesOk_map (t : Bool) : ∀ es, EntriesOk t (AMap.noPos.hentries es) ↔ EntriesOk t es
  | [] => by rw [AMap.hentries]
  | .mk p k v c :: es => by
    have h := noPos_attr v
    rw [AMap.hentries, AMap.hentry, EntriesOk, EntriesOk, valueOk_map t v, entriesOk_map t es, h.1, h.2.1, h.2.2, keyOk_map]; exact Iff.rfl
theorem pluginOk_map (t : Bool) : ∀ p, PluginOk t (AMap.noPos.plugin p) ↔ PluginOk t p
  | .mk p n as c f => by rw [AMap.plugin, PluginOk, PluginOk, attrsOk_map t as]; exact Iff.rfl
theorem attrsOk_map (t : Bool) : ∀ as, AttrsOk t (AMap.noPos.attrs as) ↔ AttrsOk t as
  | [] => by rw [AMap.attrs]
  | a :: as => by
    have h := noPos_attr a
    rw [AMap.attrs, AttrsOk, AttrsOk, valueOk_map t a, attrsOk_map t as, h.2.1, h.2.2]
end

theorem selOk_map (s : Selector) : (AMap.noPos.selector s).elems.map (·.name) = s.elems.map (·.name) := by
  simp only [AMap.selector, List.map_map]; rfl

theorem selBal_map (t : Bool) (s : Selector) :
    (t = true → ∀ e ∈ (AMap.noPos.selector s).elems, Balanced e.name) ↔ (t = true → ∀ e ∈ s.elems, Balanced e.name) := by
  simp only [AMap.selector, List.mem_map, forall_exists_index, and_imp, forall_apply_eq_imp_iff₂]; exact Iff.rfl

theorem rvalueOk_map (t : Bool) (r : Rvalue) : RvalueOk t (AMap.noPos.rvalue r) ↔ RvalueOk t r := by
  cases r with
  | arr p n as c f =>
    have h := strMap_rvalue (m := AMap.noPos) (fun _ => rfl) (.arr p n as c f)
    rw [AMap.rvalue] at h ⊢
    simp only [RvalueOk, elemsOk_map, h]
    exact Iff.rfl
  | sel s => simp only [AMap.rvalue, RvalueOk, selOk_map, selBal_map]
  | _ => exact Iff.rfl

mutual
theorem exprOk_map (t : Bool) : ∀ e first, ExprOk t first (AMap.noPos.expr e) ↔ ExprOk t first e
  | .nil, _ => by rw [AMap.expr]
  | .cond p b c, _ => by rw [AMap.expr, ExprOk, ExprOk, condOk_map t c]; exact Iff.rfl
  | .negCond p b c, _ => by rw [AMap.expr, ExprOk, ExprOk, condOk_map t c]; exact Iff.rfl
  | .negSel p b s, _ => by rw [AMap.expr, ExprOk, ExprOk, selOk_map, selBal_map]; exact Iff.rfl
  | .inE p b l r, _ => by rw [AMap.expr, ExprOk, ExprOk, rvalueOk_map, rvalueOk_map]; exact Iff.rfl
  | .notIn p b l r, _ => by rw [AMap.expr, ExprOk, ExprOk, rvalueOk_map, rvalueOk_map]; exact Iff.rfl
  | .rval p b r, _ => by rw [AMap.expr, ExprOk, ExprOk, rvalueOk_map]; exact Iff.rfl
  | .cmp p b l o r, _ => by rw [AMap.expr, ExprOk, ExprOk, rvalueOk_map, rvalueOk_map]; exact Iff.rfl
  | .re p b l o r, _ => by
    have : IsPattern (AMap.noPos.rvalue r) ↔ IsPattern r := by cases r <;> exact Iff.rfl
    rw [AMap.expr, ExprOk, ExprOk, rvalueOk_map, rvalueOk_map, this]; exact Iff.rfl
theorem condOk_map (t : Bool) : ∀ es first, CondOk t first (AMap.noPos.cond es) ↔ CondOk t first es
  | [], _ => by rw [AMap.cond]
  | e :: es, first => by rw [AMap.cond, CondOk, CondOk, exprOk_map t e, condOk_map t es]
end

theorem plugin_name_map (p : Plugin) : (AMap.noPos.plugin p).name = p.name := by cases p; rw [AMap.plugin]; rfl

theorem isOpen_map (b : BOP) : (AMap.noPos.bop b).isOpen = b.isOpen := by
  cases b with
  | branch p c b cm f ei el =>
    obtain ⟨lp, lb, lc, lf⟩ := el
    rw [AMap.bop, AMap.elseB]
    cases lb <;> cases lc <;> cases lf <;> simp [BOP.isOpen, AMap.bops, AMap.noPos]
  | _ => rw [AMap.bop]; try rfl

theorem noElse_map (bs : List BOP) : NoElse (AMap.noPos.bops bs) ↔ NoElse bs := by
  cases bs with
  | nil => rw [AMap.bops]
  | cons b bs =>
    rw [AMap.bops]
    cases b <;> rw [AMap.bop] <;> simp only [NoElse, plugin_name_map]

mutual
theorem bopOk_map (t : Bool) : ∀ b, BopOk t (AMap.noPos.bop b) ↔ BopOk t b
  | .nil => by rw [AMap.bop]
  | .plugin p => by rw [AMap.bop, BopOk, BopOk, pluginOk_map, plugin_name_map]
  | .pluginPtr p => by rw [AMap.bop, BopOk, BopOk, pluginOk_map, plugin_name_map]
  | .branch p c b cm f ei el => by
    rw [AMap.bop, BopOk, BopOk, condOk_map, blockOk_map t b, elifsOk_map t ei, elseOk_map t el]; exact Iff.rfl
theorem blockOk_map (t : Bool) : ∀ bs, BlockOk t (AMap.noPos.bops bs) ↔ BlockOk t bs
  | [] => by rw [AMap.bops]
  | b :: bs => by rw [AMap.bops, BlockOk, BlockOk, bopOk_map t b, isOpen_map, noElse_map, blockOk_map t bs]
theorem elifsOk_map (t : Bool) : ∀ es, ElifsOk t (AMap.noPos.elifs es) ↔ ElifsOk t es
  | [] => by rw [AMap.elifs]
  | .mk p c b cm f :: es => by
    rw [AMap.elifs, AMap.elif, ElifsOk, ElifsOk, condOk_map, blockOk_map t b, elifsOk_map t es]; exact Iff.rfl
theorem elseOk_map (t : Bool) : ∀ e, ElseOk t (AMap.noPos.elseB e) ↔ ElseOk t e
  | .mk p b cm f => by rw [AMap.elseB, ElseOk, ElseOk, blockOk_map t b]; exact Iff.rfl
end

theorem sectionsOk_map (t : Bool) (pt : PluginType) (l : List Section) : SectionsOk t pt (l.map AMap.noPos.sect) ↔ SectionsOk t pt l := by
  unfold SectionsOk
  simp only [List.mem_map, forall_exists_index, and_imp, forall_apply_eq_imp_iff₂]
  refine forall_congr' fun s => imp_congr Iff.rfl ?_
  simp only [AMap.sect, blockOk_map]
  exact Iff.rfl

theorem configOk_content (t : Bool) (c : Config) : ConfigOk t (content c) ↔ ConfigOk t c := by
  unfold ConfigOk content AMap.config
  simp only [sectionsOk_map]
  exact Iff.rfl

/-! ### Pointers -/

mutual
theorem deref_bop : ∀ b, derefBop (AMap.noPos.bop b) = AMap.noPos.bop b → derefBop b = b
  | .nil, h => by rw [derefBop]
  | .plugin p, h => by rw [derefBop]
  | .pluginPtr p, h => by rw [AMap.bop, derefBop] at h; cases h
  | .branch p c b cm f ei el, h => by
    rw [AMap.bop, derefBop] at h
    injection h with _ _ h1 _ _ h2 h3
    rw [derefBop, deref_block b h1, deref_elifs ei h2, deref_else el h3]
theorem deref_block : ∀ bs, derefBlock (AMap.noPos.bops bs) = AMap.noPos.bops bs → derefBlock bs = bs
  | [], h => by rw [derefBlock]
  | b :: bs, h => by
    rw [AMap.bops, derefBlock] at h
    injection h with h1 h2
    rw [derefBlock, deref_bop b h1, deref_block bs h2]
theorem deref_elifs : ∀ es, derefElifs (AMap.noPos.elifs es) = AMap.noPos.elifs es → derefElifs es = es
  | [], h => by rw [derefElifs]
  | .mk p c b cm f :: es, h => by
    rw [AMap.elifs, AMap.elif, derefElifs] at h
    injection h with h1 h2
    injection h1 with _ _ h1 _ _
    rw [derefElifs, deref_block b h1, deref_elifs es h2]
theorem deref_else : ∀ e, derefElse (AMap.noPos.elseB e) = AMap.noPos.elseB e → derefElse e = e
  | .mk p b cm f, h => by
    rw [AMap.elseB, derefElse] at h
    injection h with _ h1 _ _
    rw [derefElse, deref_block b h1]
end

theorem deref_sects (l : List Section) (h : derefSects (l.map AMap.noPos.sect) = l.map AMap.noPos.sect) : derefSects l = l := by
  induction l with
  | nil => rfl
  | cons s l ih =>
    simp only [derefSects, List.map_cons] at h ih ⊢
    injection h with h1 h2
    rw [ih h2]
    congr 1
    have := congrArg Section.bops h1
    simp only [AMap.sect] at this
    rw [deref_block _ this]

theorem deref_content (c : Config) (h : deref (content c) = content c) : deref c = c := by
  unfold deref content AMap.config at h
  injection h with h1 h2 h3
  unfold deref
  rw [deref_sects _ h1, deref_sects _ h2, deref_sects _ h3]

mutual
theorem derefMap_bop (m : AMap) : ∀ b, derefBop (m.bop b) = m.bop (derefBop b)
  | .nil => rfl
  | .plugin p => rfl
  | .pluginPtr p => rfl
  | .branch p c b cm f ei el => by
    rw [AMap.bop, derefBop, derefBop, AMap.bop, derefMap_block m b, derefMap_elifs m ei, derefMap_else m el]
theorem derefMap_block (m : AMap) : ∀ bs, derefBlock (m.bops bs) = m.bops (derefBlock bs)
  | [] => rfl
  | b :: bs => by rw [AMap.bops, derefBlock, derefBlock, AMap.bops, derefMap_bop m b, derefMap_block m bs]
theorem derefMap_elifs (m : AMap) : ∀ es, derefElifs (m.elifs es) = m.elifs (derefElifs es)
  | [] => rfl
  | .mk p c b cm f :: es => by
    rw [AMap.elifs, AMap.elif, derefElifs, derefElifs, AMap.elifs, AMap.elif, derefMap_block m b, derefMap_elifs m es]
theorem derefMap_else (m : AMap) : ∀ e, derefElse (m.elseB e) = m.elseB (derefElse e)
  | .mk p b cm f => by rw [AMap.elseB, derefElse, derefElse, AMap.elseB, derefMap_block m b]
end

theorem derefMap_content (c : Config) : deref (content c) = content (deref c) := by
  have h : ∀ l : List Section, derefSects (l.map AMap.noPos.sect) = (derefSects l).map AMap.noPos.sect := by
    intro l
    simp only [derefSects, List.map_map]
    exact List.map_congr_left fun s _ => by simp [AMap.sect, derefMap_block]
  simp only [deref, content, AMap.config, h]

end Verif
