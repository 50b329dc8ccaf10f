import Verif.Spec.Entries
import Verif.Proofs.Positions
/-
Where the keys of hash entries stand.
-/
namespace Verif
open Spec

/-- The key of the entry is one that is written in the file, with the position where it is written. -/
def KeyAt (data : Bytes) (pos : Nat → Pos) : HEntry → Prop
  | .mk _ key _ _ => ∃ (x : CKey) (pre post : Bytes), data = pre ++ x.text ++ post ∧ key = x.astAt pos pre.length

variable {data : Bytes} {ign : Bool} {pos : Nat → Pos}

/-- All of them. -/
def KeysAt (data : Bytes) (pos : Nat → Pos) (l : List HEntry) : Prop := ∀ e ∈ l, KeyAt data pos e

theorem KeysAt.nil : KeysAt data pos [] := nofun
theorem KeysAt.app {a b : List HEntry} (ha : KeysAt data pos a) (hb : KeysAt data pos b) : KeysAt data pos (a ++ b) := by
  intro e he
  rcases List.mem_append.1 he with h | h
  · exact ha e h
  · exact hb e h

theorem attrEntries_com (c : CommentBlock) (a : Attr) : attrEntries (withComment c a) = attrEntries a := by
  cases a <;> simp [withComment, attrEntries]
theorem attrEntries_name (p : Pos) (n : Bytes) (a : Attr) : attrEntries (withNameAt p n a) = attrEntries a := by
  cases a <;> simp [withNameAt, attrEntries]

mutual
theorem val_keys : ∀ (c : CVal) (pre post : Bytes) (k : Nat), data = pre ++ c.text ++ post → k = pre.length →
    KeysAt data pos (attrEntries (c.astAt ign pos k))
  | .str s, _, _, _, _, _ => by rw [CVal.astAt, attrEntries]; · exact .nil
                                all_goals nofun
  | .num t, _, _, _, _, _ => by rw [CVal.astAt, attrEntries]; · exact .nil
                                all_goals nofun
  | .arr es f, pre, post, k, h, hk => by
    rw [CVal.astAt, attrEntries]
    exact elems_keys es true (pre ++ b!"[") (f.text ++ b!"]" ++ post) (k + 1) (by rw [h]; simp [CVal.text]) (by simp [hk])
  | .hash es f, pre, post, k, h, hk => by
    rw [CVal.astAt, attrEntries]
    have := entries_keys es true (pre ++ b!"{") (f.text ++ b!"}" ++ post) (k + 1) (by rw [h]; simp [CVal.text]) (by simp [hk])
    exact this.1.app this.2
  | .plug p, pre, post, k, h, hk => by
    rw [CVal.astAt, attrEntries]
    exact plugin_keys p pre post k [] (by rw [h]; simp [CVal.text]) hk
theorem elems_keys : ∀ (es : List CElem) (first : Bool) (pre post : Bytes) (k : Nat), data = pre ++ elemsText first es ++ post →
    k = pre.length → KeysAt data pos (attrsEntries (elemsAt ign pos first k es))
  | [], first, _, _, _, _, _ => by rw [elemsAt, attrsEntries]; exact .nil
  | .mk p com v :: r, first, pre, post, k, h, hk => by
    have hv := val_keys v (pre ++ ((if first then [] else p.text ++ b!",") ++ com.text)) (elemsText false r ++ post)
      (k + (if first then 0 else p.text.length + 1) + com.text.length)
      (by rw [h, elemsText]; cases first <;> simp) (by cases first <;> simp [hk] <;> omega)
    have hr := elems_keys r false (pre ++ ((if first then [] else p.text ++ b!",") ++ com.text ++ v.text)) post
      (k + (if first then 0 else p.text.length + 1) + com.text.length + v.text.length)
      (by rw [h, elemsText]; cases first <;> simp) (by cases first <;> simp [hk] <;> omega)
    rw [elemsAt]
    split
    · exact hr
    · rw [attrsEntries, attrEntries_com]; exact hv.app hr
theorem entries_keys : ∀ (es : List CEntry) (first : Bool) (pre post : Bytes) (k : Nat), data = pre ++ entriesText first es ++ post →
    k = pre.length → KeysAt data pos (entriesAt ign pos first k es) ∧ KeysAt data pos (entriesEntries (entriesAt ign pos first k es))
  | [], first, _, _, _, _, _ => by rw [entriesAt, entriesEntries]; exact ⟨.nil, .nil⟩
  | .mk sep com key g1 g2 v :: r, first, pre, post, k, h, hk => by
    have hv := val_keys v (pre ++ ((if first then [] else sep) ++ com.text ++ key.text ++ g1.text ++ b!"=>" ++ g2.text))
      (entriesText false r ++ post)
      (k + (if first then 0 else sep.length) + com.text.length + key.text.length + g1.text.length + 2 + g2.text.length)
      (by rw [h, entriesText]; cases first <;> simp) (by cases first <;> simp [hk] <;> omega)
    have hr := entries_keys r false (pre ++ ((if first then [] else sep) ++ com.text ++ key.text ++ g1.text ++ b!"=>" ++ g2.text ++ v.text)) post
      (k + (if first then 0 else sep.length) + com.text.length + key.text.length + g1.text.length + 2 + g2.text.length + v.text.length)
      (by rw [h, entriesText]; cases first <;> simp) (by cases first <;> simp [hk] <;> omega)
    rw [entriesAt, entriesEntries]
    refine ⟨?_, hv.app hr.2⟩
    intro e he
    rcases List.mem_cons.1 he with rfl | he
    · exact ⟨key, pre ++ ((if first then [] else sep) ++ com.text), g1.text ++ b!"=>" ++ g2.text ++ v.text ++ (entriesText false r ++ post),
        by rw [h, entriesText]; cases first <;> simp, by congr 1; cases first <;> simp [hk] <;> omega⟩
    · exact hr.1 e he
theorem plugin_keys : ∀ (p : CPlugin) (pre post : Bytes) (k : Nat) (c : CommentBlock), data = pre ++ p.text ++ post →
    k = pre.length → KeysAt data pos (pluginEntries (p.astAt ign pos k c))
  | .mk n g as f, pre, post, k, c, h, hk => by
    rw [CPlugin.astAt, pluginEntries]
    exact attrs_keys as true (pre ++ (n.text ++ g.text ++ b!"{")) (f.text ++ b!"}" ++ post) _ (by rw [h]; simp [CPlugin.text])
      (by simp [hk]; omega)
theorem attrs_keys : ∀ (as : List CAttr) (first : Bool) (pre post : Bytes) (k : Nat), data = pre ++ attrsText first as ++ post →
    k = pre.length → KeysAt data pos (attrsEntries (attrsAt ign pos first k as))
  | [], first, _, _, _, _, _ => by rw [attrsAt, attrsEntries]; exact .nil
  | .mk sep com n g1 g2 v :: r, first, pre, post, k, h, hk => by
    have hv := val_keys v (pre ++ ((if first then [] else sep) ++ com.text ++ n.text ++ g1.text ++ b!"=>" ++ g2.text))
      (attrsText false r ++ post)
      (k + (if first then 0 else sep.length) + com.text.length + n.text.length + g1.text.length + 2 + g2.text.length)
      (by rw [h, attrsText]; cases first <;> simp) (by cases first <;> simp [hk] <;> omega)
    have hr := attrs_keys r false (pre ++ ((if first then [] else sep) ++ com.text ++ n.text ++ g1.text ++ b!"=>" ++ g2.text ++ v.text)) post
      (k + (if first then 0 else sep.length) + com.text.length + n.text.length + g1.text.length + 2 + g2.text.length + v.text.length)
      (by rw [h, attrsText]; cases first <;> simp) (by cases first <;> simp [hk] <;> omega)
    rw [attrsAt, attrsEntries, attrEntries_com, attrEntries_name]
    exact hv.app hr
end

theorem rval_keys (r : CRval) (pre post : Bytes) (k : Nat) (h : data = pre ++ r.text ++ post) (hk : k = pre.length) :
    KeysAt data pos (rvalueEntries (r.astAt ign pos k)) := by
  cases r with
  | arr es f =>
    rw [CRval.astAt, rvalueEntries]
    exact elems_keys es true (pre ++ b!"[") (f.text ++ b!"]" ++ post) (k + 1) (by rw [h]; simp [CRval.text, CVal.text]) (by simp [hk])
  | _ => exact KeysAt.nil

/-- Two operands with something between them. -/
theorem two_keys (l r : CRval) (mid pre post : Bytes) (k k' : Nat) (h : data = pre ++ (l.text ++ mid ++ r.text) ++ post) (hk : k = pre.length)
    (hk' : k' = k + l.text.length + mid.length) :
    KeysAt data pos (rvalueEntries (l.astAt ign pos k) ++ rvalueEntries (r.astAt ign pos k')) :=
  (rval_keys l pre (mid ++ r.text ++ post) k (by rw [h]; simp) hk).app
    (rval_keys r (pre ++ (l.text ++ mid)) post k' (by rw [h]; simp) (by simp [hk', hk]; omega))

mutual
theorem expr_keys (j : BoolExpr) : ∀ (e : CExpr) (pre post : Bytes) (k : Nat), data = pre ++ e.text ++ post → k = pre.length →
    KeysAt data pos (exprHEntries (e.astAt ign pos k j))
  | .paren g1 c g2, pre, post, k, h, hk => by
    rw [CExpr.astAt, exprHEntries]
    exact cond_keys c (pre ++ (b!"(" ++ g1.text)) (g2.text ++ b!")" ++ post) _ (by rw [h]; simp [CExpr.text]) (by simp [hk]; omega)
  | .notParen g0 g1 c g2, pre, post, k, h, hk => by
    rw [CExpr.astAt, exprHEntries]
    exact cond_keys c (pre ++ (b!"!" ++ g0.text ++ b!"(" ++ g1.text)) (g2.text ++ b!")" ++ post) _ (by rw [h]; simp [CExpr.text])
      (by simp [hk]; omega)
  | .notSel g s, _, _, _, _, _ => by simp only [CExpr.astAt, exprHEntries]; exact .nil
  | .inE l g1 g2 r, pre, post, k, h, hk => by
    rw [CExpr.astAt, exprHEntries]
    exact two_keys l r (g1.text ++ b!"in" ++ g2.text) pre post k _ (by rw [h]; simp [CExpr.text]) hk (by simp; omega)
  | .notIn l g1 g2 g3 r, pre, post, k, h, hk => by
    rw [CExpr.astAt, exprHEntries]
    exact two_keys l r (g1.text ++ b!"not " ++ g2.text ++ b!"in" ++ g3.text) pre post k _ (by rw [h]; simp [CExpr.text]) hk (by simp; omega)
  | .cmp l g1 o g2 r, pre, post, k, h, hk => by
    rw [CExpr.astAt, exprHEntries]
    exact two_keys l r (g1.text ++ cmpText o ++ g2.text) pre post k _ (by rw [h]; simp [CExpr.text]) hk (by simp; omega)
  | .re l g1 o g2 r, pre, post, k, h, hk => by
    rw [CExpr.astAt, exprHEntries]
    exact two_keys l r (g1.text ++ reText o ++ g2.text) pre post k _ (by rw [h]; simp [CExpr.text]) hk (by simp; omega)
  | .rval r, pre, post, k, h, hk => by
    rw [CExpr.astAt, exprHEntries]
    exact rval_keys r pre post k (by rw [h]; simp [CExpr.text]) hk
theorem cond_keys : ∀ (c : CCond) (pre post : Bytes) (k : Nat), data = pre ++ c.text ++ post → k = pre.length →
    KeysAt data pos (condEntries (c.astAt ign pos k))
  | .mk e m, pre, post, k, h, hk => by
    rw [CCond.astAt, condEntries]
    exact (expr_keys _ e pre (moreText m ++ post) k (by rw [h]; simp [CCond.text]) hk).app
      (more_keys m (pre ++ e.text) post _ (by rw [h]; simp [CCond.text]) (by simp [hk]))
theorem more_keys : ∀ (m : List CMore) (pre post : Bytes) (k : Nat), data = pre ++ moreText m ++ post → k = pre.length →
    KeysAt data pos (condEntries (moreAt ign pos k m))
  | [], _, _, _, _, _ => by rw [moreAt, condEntries]; exact .nil
  | .mk g1 op g2 e :: r, pre, post, k, h, hk => by
    rw [moreAt, condEntries]
    exact (expr_keys _ e (pre ++ (g1.text ++ boolText op ++ g2.text)) (moreText r ++ post) _ (by rw [h]; simp [moreText])
        (by simp [hk]; omega)).app
      (more_keys r (pre ++ (g1.text ++ boolText op ++ g2.text ++ e.text)) post _ (by rw [h]; simp [moreText]) (by simp [hk]; omega))
end

mutual
theorem item_keys : ∀ (i : CItem) (pre post : Bytes) (k : Nat), data = pre ++ i.text ++ post → k = pre.length →
    KeysAt data pos (bopEntries (i.astAt ign pos k))
  | .plugin com p, pre, post, k, h, hk => by
    rw [CItem.astAt, bopEntries]
    exact plugin_keys p (pre ++ com.text) post _ _ (by rw [h]; simp [CItem.text]) (by simp [hk])
  | .branch com g1 c g2 is ft es el, pre, post, k, h, hk => by
    rw [CItem.astAt, bopEntries]
    refine KeysAt.app (.app (.app ?_ ?_) ?_) ?_
    · exact cond_keys c (pre ++ (com.text ++ b!"if" ++ g1.text))
        (g2.text ++ b!"{" ++ itemsText is ++ ft.text ++ b!"}" ++ elifsText es ++ el.text ++ post) _ (by rw [h]; simp [CItem.text]) (by simp [hk]; omega)
    · exact items_keys is (pre ++ (com.text ++ b!"if" ++ g1.text ++ c.text ++ g2.text ++ b!"{"))
        (ft.text ++ b!"}" ++ elifsText es ++ el.text ++ post) _ (by rw [h]; simp [CItem.text]) (by simp [hk]; omega)
    · exact elifs_keys es (pre ++ (com.text ++ b!"if" ++ g1.text ++ c.text ++ g2.text ++ b!"{" ++ itemsText is ++ ft.text ++ b!"}"))
        (el.text ++ post) _ (by rw [h]; simp [CItem.text]) (by simp [hk]; omega)
    · exact else_keys el
        (pre ++ (com.text ++ b!"if" ++ g1.text ++ c.text ++ g2.text ++ b!"{" ++ itemsText is ++ ft.text ++ b!"}" ++ elifsText es))
        post _ (by rw [h]; simp [CItem.text]) (by simp [hk]; omega)
theorem items_keys : ∀ (is : List CItem) (pre post : Bytes) (k : Nat), data = pre ++ itemsText is ++ post → k = pre.length →
    KeysAt data pos (bopsEntries (itemsAt ign pos k is))
  | [], _, _, _, _, _ => by rw [itemsAt, bopsEntries]; exact .nil
  | i :: r, pre, post, k, h, hk => by
    rw [itemsAt, bopsEntries]
    exact (item_keys i pre (itemsText r ++ post) k (by rw [h]; simp [itemsText]) hk).app
      (items_keys r (pre ++ i.text) post _ (by rw [h]; simp [itemsText]) (by simp [hk]))
theorem elifs_keys : ∀ (es : List CElif) (pre post : Bytes) (k : Nat), data = pre ++ elifsText es ++ post → k = pre.length →
    KeysAt data pos (elifsEntries (elifsAt ign pos k es))
  | [], _, _, _, _, _ => by rw [elifsAt, elifsEntries]; exact .nil
  | .mk com g0 g1 c g2 is ft :: r, pre, post, k, h, hk => by
    rw [elifsAt, elifsEntries]
    refine KeysAt.app (.app ?_ ?_) ?_
    · exact cond_keys c (pre ++ (com.text ++ b!"else" ++ g0.text ++ b!"if" ++ g1.text))
        (g2.text ++ b!"{" ++ itemsText is ++ ft.text ++ b!"}" ++ elifsText r ++ post) _ (by rw [h]; simp [elifsText]) (by simp [hk]; omega)
    · exact items_keys is (pre ++ (com.text ++ b!"else" ++ g0.text ++ b!"if" ++ g1.text ++ c.text ++ g2.text ++ b!"{"))
        (ft.text ++ b!"}" ++ elifsText r ++ post) _ (by rw [h]; simp [elifsText]) (by simp [hk]; omega)
    · exact elifs_keys r
        (pre ++ (com.text ++ b!"else" ++ g0.text ++ b!"if" ++ g1.text ++ c.text ++ g2.text ++ b!"{" ++ itemsText is ++ ft.text ++ b!"}"))
        post _ (by rw [h]; simp [elifsText]) (by simp [hk]; omega)
theorem else_keys : ∀ (el : CElse) (pre post : Bytes) (k : Nat), data = pre ++ el.text ++ post → k = pre.length →
    KeysAt data pos (elseEntries (el.astAt ign pos k))
  | .none, _, _, _, _, _ => by simp only [CElse.astAt, elseEntries, bopsEntries]; exact .nil
  | .mk com g is ft, pre, post, k, h, hk => by
    simp only [CElse.astAt, elseEntries]
    exact items_keys is (pre ++ (com.text ++ b!"else" ++ g.text ++ b!"{")) (ft.text ++ b!"}" ++ post) _
      (by rw [h]; simp [CElse.text]) (by simp [hk]; omega)
end

theorem section_keys (s : CSection) (first : Bool) (pre post : Bytes) (k : Nat) (h : data = pre ++ s.text ++ post)
    (hk : k = pre.length) : KeysAt data pos (bopsEntries (s.astAt ign pos k first).bops) := by
  simp only [CSection.astAt]
  exact items_keys s.items (pre ++ (s.com.text ++ ptypeText s.ptype ++ s.g.text ++ b!"{")) (s.foot.text ++ b!"}" ++ post) _
    (by rw [h]; simp [CSection.text]) (by simp [hk]; omega)

theorem sections_keys : ∀ (ss : List CSection) (pre post : Bytes) (k : Nat), data = pre ++ ss.flatMap CSection.text ++ post →
    k = pre.length → ∀ t ∈ sectionsAt ign pos k ss, KeysAt data pos (bopsEntries t.bops)
  | [], _, _, _, _, _ => by simp [sectionsAt]
  | s :: r, pre, post, k, h, hk => by
    simp only [sectionsAt, List.mem_cons]
    rintro t (rfl | ht)
    · exact section_keys s false pre (r.flatMap CSection.text ++ post) k (by rw [h]; simp) hk
    · exact sections_keys r (pre ++ s.text) post _ (by rw [h]; simp) (by simp [hk]) t ht

theorem file_keys (on : Bool) (k : CFile) (h : k.text = data) : KeysAt data pos (configEntries (k.astAt ign on pos)) := by
  have h1 : ∀ t ∈ k.sectionsAt ign pos, KeysAt data pos (bopsEntries t.bops) := by
    cases k with
    | empty g => simp [CFile.sectionsAt]
    | config s ss ft =>
      simp only [CFile.sectionsAt, List.mem_cons]
      rintro t (rfl | ht)
      · exact section_keys s true [] (ss.flatMap CSection.text ++ ft.text) 0 (by rw [← h]; simp [CFile.text]) rfl
      · exact sections_keys ss s.text ft.text _ (by rw [← h]; simp [CFile.text]) rfl t ht
  intro x hx
  simp only [configEntries, CFile.astAt, List.flatMap_append, List.mem_append, List.mem_flatMap, List.mem_filter] at hx
  rcases hx with ((⟨s, ⟨hs, _⟩, h2⟩ | ⟨s, ⟨hs, _⟩, h2⟩) | ⟨s, ⟨hs, _⟩, h2⟩) <;> exact h1 s hs x h2

end Verif
