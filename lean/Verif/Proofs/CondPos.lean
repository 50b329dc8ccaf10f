import Verif.Proofs.Collect
import Verif.Spec.Positioned
import Verif.Proofs.Positions
/-
Where the conditions of a file stand.
-/
namespace Verif
open Spec

/-- The condition of the AST is one that is written in the file, with the position where it is written. -/
def CondAt (data : Bytes) (ign : Bool) (pos : Nat → Pos) (c : Condition) : Prop :=
  ∃ (x : CCond) (pre post : Bytes), data = pre ++ x.text ++ post ∧ c = x.astAt ign pos pre.length

variable {data : Bytes} {ign : Bool} {pos : Nat → Pos}

theorem CondAt.of {c : CCond} {k : Nat} (pre post : Bytes) (h : data = pre ++ c.text ++ post) (hk : k = pre.length) :
    CondAt data ign pos (c.astAt ign pos k) := ⟨c, pre, post, h, by rw [hk]⟩

mutual
theorem expr_condAt (j : BoolExpr) : ∀ (e : CExpr) (pre post : Bytes) (k : Nat), data = pre ++ e.text ++ post → k = pre.length →
    ∀ c ∈ exprConds (e.astAt ign pos k j), CondAt data ign pos c
  | .paren g1 c g2, pre, post, k, h, hk => by
    have h1 : data = (pre ++ (b!"(" ++ g1.text)) ++ c.text ++ (g2.text ++ b!")" ++ post) := by rw [h]; simp [CExpr.text]
    have h2 : k + 1 + g1.text.length = (pre ++ (b!"(" ++ g1.text)).length := by simp [hk]; omega
    simp only [CExpr.astAt, exprConds, List.mem_cons, forall_eq_or_imp]
    exact ⟨.of _ _ h1 h2, cond_condAt c _ _ _ h1 h2⟩
  | .notParen g0 g1 c g2, pre, post, k, h, hk => by
    have h1 : data = (pre ++ (b!"!" ++ g0.text ++ b!"(" ++ g1.text)) ++ c.text ++ (g2.text ++ b!")" ++ post) := by
      rw [h]; simp [CExpr.text]
    have h2 : k + 1 + g0.text.length + 1 + g1.text.length = (pre ++ (b!"!" ++ g0.text ++ b!"(" ++ g1.text)).length := by
      simp [hk]; omega
    simp only [CExpr.astAt, exprConds, List.mem_cons, forall_eq_or_imp]
    exact ⟨.of _ _ h1 h2, cond_condAt c _ _ _ h1 h2⟩
  | .notSel g s, _, _, _, _, _ => by simp [CExpr.astAt, exprConds]
  | .inE l g1 g2 r, _, _, _, _, _ => by simp [CExpr.astAt, exprConds]
  | .notIn l g1 g2 g3 r, _, _, _, _, _ => by simp [CExpr.astAt, exprConds]
  | .cmp l g1 k g2 r, _, _, _, _, _ => by simp [CExpr.astAt, exprConds]
  | .re l g1 k g2 r, _, _, _, _, _ => by simp [CExpr.astAt, exprConds]
  | .rval r, _, _, _, _, _ => by simp [CExpr.astAt, exprConds]
theorem cond_condAt : ∀ (c : CCond) (pre post : Bytes) (k : Nat), data = pre ++ c.text ++ post → k = pre.length →
    ∀ x ∈ condConds (c.astAt ign pos k), CondAt data ign pos x
  | .mk e m, pre, post, k, h, hk => by
    simp only [CCond.astAt, condConds, List.mem_append]
    rintro x (hx | hx)
    · exact expr_condAt _ e pre (moreText m ++ post) k (by rw [h]; simp [CCond.text]) hk x hx
    · exact more_condAt m (pre ++ e.text) post _ (by rw [h]; simp [CCond.text]) (by simp [hk]) x hx
theorem more_condAt : ∀ (m : List CMore) (pre post : Bytes) (k : Nat), data = pre ++ moreText m ++ post → k = pre.length →
    ∀ x ∈ condConds (moreAt ign pos k m), CondAt data ign pos x
  | [], _, _, _, _, _ => by simp [moreAt, condConds]
  | .mk g1 op g2 e :: r, pre, post, k, h, hk => by
    simp only [moreAt, condConds, List.mem_append]
    rintro x (hx | hx)
    · exact expr_condAt _ e (pre ++ (g1.text ++ boolText op ++ g2.text)) (moreText r ++ post) _ (by rw [h]; simp [moreText])
        (by simp [hk]; omega) x hx
    · exact more_condAt r (pre ++ (g1.text ++ boolText op ++ g2.text ++ e.text)) post _ (by rw [h]; simp [moreText])
        (by simp [hk]; omega) x hx
end

mutual
theorem item_condAt : ∀ (i : CItem) (pre post : Bytes) (k : Nat), data = pre ++ i.text ++ post → k = pre.length →
    ∀ x ∈ bopConds (i.astAt ign pos k), CondAt data ign pos x
  | .plugin com p, _, _, _, _, _ => by simp [CItem.astAt, bopConds]
  | .branch com g1 c g2 is ft es el, pre, post, k, h, hk => by
    have h1 : data = (pre ++ (com.text ++ b!"if" ++ g1.text)) ++ c.text ++
        (g2.text ++ b!"{" ++ itemsText is ++ ft.text ++ b!"}" ++ elifsText es ++ el.text ++ post) := by rw [h]; simp [CItem.text]
    have h2 : k + com.text.length + 2 + g1.text.length = (pre ++ (com.text ++ b!"if" ++ g1.text)).length := by simp [hk]; omega
    simp only [CItem.astAt, bopConds, List.cons_append, List.mem_cons, List.mem_append]
    rintro x (rfl | (((hx | hx) | hx) | hx))
    · exact .of _ _ h1 h2
    · exact cond_condAt c _ _ _ h1 h2 x hx
    · exact items_condAt is (pre ++ (com.text ++ b!"if" ++ g1.text ++ c.text ++ g2.text ++ b!"{"))
        (ft.text ++ b!"}" ++ elifsText es ++ el.text ++ post) _ (by rw [h]; simp [CItem.text]) (by simp [hk]; omega) x hx
    · exact elifs_condAt es (pre ++ (com.text ++ b!"if" ++ g1.text ++ c.text ++ g2.text ++ b!"{" ++ itemsText is ++ ft.text ++ b!"}"))
        (el.text ++ post) _ (by rw [h]; simp [CItem.text]) (by simp [hk]; omega) x hx
    · exact else_condAt el
        (pre ++ (com.text ++ b!"if" ++ g1.text ++ c.text ++ g2.text ++ b!"{" ++ itemsText is ++ ft.text ++ b!"}" ++ elifsText es))
        post _ (by rw [h]; simp [CItem.text]) (by simp [hk]; omega) x hx
theorem items_condAt : ∀ (is : List CItem) (pre post : Bytes) (k : Nat), data = pre ++ itemsText is ++ post → k = pre.length →
    ∀ x ∈ bopsConds (itemsAt ign pos k is), CondAt data ign pos x
  | [], _, _, _, _, _ => by simp [itemsAt, bopsConds]
  | i :: r, pre, post, k, h, hk => by
    simp only [itemsAt, bopsConds, List.mem_append]
    rintro x (hx | hx)
    · exact item_condAt i pre (itemsText r ++ post) k (by rw [h]; simp [itemsText]) hk x hx
    · exact items_condAt r (pre ++ i.text) post _ (by rw [h]; simp [itemsText]) (by simp [hk]) x hx
theorem elifs_condAt : ∀ (es : List CElif) (pre post : Bytes) (k : Nat), data = pre ++ elifsText es ++ post → k = pre.length →
    ∀ x ∈ elifsConds (elifsAt ign pos k es), CondAt data ign pos x
  | [], _, _, _, _, _ => by simp [elifsAt, elifsConds]
  | .mk com g0 g1 c g2 is ft :: r, pre, post, k, h, hk => by
    have h1 : data = (pre ++ (com.text ++ b!"else" ++ g0.text ++ b!"if" ++ g1.text)) ++ c.text ++
        (g2.text ++ b!"{" ++ itemsText is ++ ft.text ++ b!"}" ++ elifsText r ++ post) := by rw [h]; simp [elifsText]
    have h2 : k + com.text.length + 4 + g0.text.length + 2 + g1.text.length =
        (pre ++ (com.text ++ b!"else" ++ g0.text ++ b!"if" ++ g1.text)).length := by simp [hk]; omega
    simp only [elifsAt, elifsConds, List.cons_append, List.mem_cons, List.mem_append]
    rintro x (rfl | ((hx | hx) | hx))
    · exact .of _ _ h1 h2
    · exact cond_condAt c _ _ _ h1 h2 x hx
    · exact items_condAt is (pre ++ (com.text ++ b!"else" ++ g0.text ++ b!"if" ++ g1.text ++ c.text ++ g2.text ++ b!"{"))
        (ft.text ++ b!"}" ++ elifsText r ++ post) _ (by rw [h]; simp [elifsText]) (by simp [hk]; omega) x hx
    · exact elifs_condAt r
        (pre ++ (com.text ++ b!"else" ++ g0.text ++ b!"if" ++ g1.text ++ c.text ++ g2.text ++ b!"{" ++ itemsText is ++ ft.text ++ b!"}"))
        post _ (by rw [h]; simp [elifsText]) (by simp [hk]; omega) x hx
theorem else_condAt : ∀ (el : CElse) (pre post : Bytes) (k : Nat), data = pre ++ el.text ++ post → k = pre.length →
    ∀ x ∈ elseConds (el.astAt ign pos k), CondAt data ign pos x
  | .none, _, _, _, _, _ => by simp [CElse.astAt, elseConds, bopsConds]
  | .mk com g is ft, pre, post, k, h, hk => by
    simp only [CElse.astAt, elseConds]
    exact items_condAt is (pre ++ (com.text ++ b!"else" ++ g.text ++ b!"{")) (ft.text ++ b!"}" ++ post) _
      (by rw [h]; simp [CElse.text]) (by simp [hk]; omega)
end

theorem section_condAt (s : CSection) (first : Bool) (pre post : Bytes) (k : Nat) (h : data = pre ++ s.text ++ post)
    (hk : k = pre.length) : ∀ x ∈ bopsConds (s.astAt ign pos k first).bops, CondAt data ign pos x := by
  simp only [CSection.astAt]
  exact items_condAt s.items (pre ++ (s.com.text ++ ptypeText s.ptype ++ s.g.text ++ b!"{")) (s.foot.text ++ b!"}" ++ post) _
    (by rw [h]; simp [CSection.text]) (by simp [hk]; omega)

theorem sections_condAt : ∀ (ss : List CSection) (pre post : Bytes) (k : Nat), data = pre ++ ss.flatMap CSection.text ++ post →
    k = pre.length → ∀ t ∈ sectionsAt ign pos k ss, ∀ x ∈ bopsConds t.bops, CondAt data ign pos x
  | [], _, _, _, _, _ => by simp [sectionsAt]
  | s :: r, pre, post, k, h, hk => by
    simp only [sectionsAt, List.mem_cons]
    rintro t (rfl | ht)
    · exact section_condAt s false pre (r.flatMap CSection.text ++ post) k (by rw [h]; simp) hk
    · exact sections_condAt r (pre ++ s.text) post _ (by rw [h]; simp) (by simp [hk]) t ht

theorem file_condAt (on : Bool) (k : CFile) (h : k.text = data) :
    ∀ x ∈ configConds (k.astAt ign on pos), CondAt data ign pos x := by
  have h1 : ∀ t ∈ k.sectionsAt ign pos, ∀ x ∈ bopsConds t.bops, CondAt data ign pos x := by
    cases k with
    | empty g => simp [CFile.sectionsAt]
    | config s ss ft =>
      simp only [CFile.sectionsAt, List.mem_cons]
      rintro t (rfl | ht)
      · exact section_condAt s true [] (ss.flatMap CSection.text ++ ft.text) 0 (by rw [← h]; simp [CFile.text]) rfl
      · exact sections_condAt ss s.text ft.text _ (by rw [← h]; simp [CFile.text]) rfl t ht
  intro x hx
  simp only [configConds, CFile.astAt, List.flatMap_append, List.mem_append, List.mem_flatMap, List.mem_filter] at hx
  rcases hx with ((⟨s, ⟨hs, _⟩, h2⟩ | ⟨s, ⟨hs, _⟩, h2⟩) | ⟨s, ⟨hs, _⟩, h2⟩) <;> exact h1 s hs x h2

end Verif
