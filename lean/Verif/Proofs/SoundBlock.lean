import Verif.Proofs.ClearIff
/-
Soundness of the grammar, continued: blocks, branches, sections, files.
-/
namespace Verif
open Spec

section
variable {o : Opts}

/-- Soundness of the rule `branchOrPlugin` on an input. -/
def BopSound (o : Opts) (b : Bytes) : Prop :=
  ∀ v b', Runs o G.branchOrPlugin b v b' → ∃ i : CItem, i.Ok ∧ b = i.text ++ b' ∧
    v = bopVal (i.ast o.ignoreComments) ∧ i.com = (gapOf b).1 ∧ (gapOf b).2 ≠ [] ∧ i.Clear ∧ (i.isOpen = true → BranchEnd o b')

theorem item_sound {n : Nat} (ih : ∀ b, b.length < n → BopSound o b) {b b' : Bytes} {v : Val} (hb : b.length < n)
    (h : Runs o itemEx b v b') : ∃ i : CItem, i.Ok ∧ b = i.text ++ b' ∧ v = bopVal (i.ast o.ignoreComments) ∧
      i.Clear ∧ (i.isOpen = true → BranchEnd o b') := by
  obtain ⟨f, h⟩ := h
  simp (discharger := decide) only [itemEx, action_ok, run_seq, seqR_cons_ok, seqR_nil_ok, labeled_ok, ref_ok, tok_ok, gapS_ok, warn_ok,
    runs_gap, runs_ref, gram] at h
  obtain ⟨v0, ⟨v1, b1, f1, ⟨⟨rfl, rfl⟩, rfl⟩, v2, b2, f2, ⟨h1, rfl⟩, rfl, rfl, rfl⟩, h2⟩ := h
  obtain ⟨i, i1, i2, rfl, i4, i5, i6, i7⟩ := ih _ (by have := gapOf_length b; omega) _ _ h1
  rw [gapOf_stop (gap_stop b)] at i4 i5
  simp only at i4 i5
  have hg : (gapOf b).1.Ok := by
    cases hc : (gapOf b).2 with
    | nil => exact absurd hc i5
    | cons c t => exact gapOf_ok hc
  have hb2 := (gapOf_spec b).1
  refine ⟨CItem.setCom (gapOf b).1 i, ?_, ?_, ?_, ?_, ?_⟩
  · cases i with
    | plugin com p => exact ⟨hg, i1.2⟩
    | branch => exact ⟨hg, i1.2⟩
  · conv => lhs; rw [hb2, i2]
    cases i with
    | plugin com p => 
      simp only [CItem.com] at i4
      subst i4
      simp [CItem.setCom, CItem.text, Gap.text, Gap.empty]
    | branch => 
      simp only [CItem.com] at i4
      subst i4
      simp [CItem.setCom, CItem.text, Gap.text, Gap.empty]
  · simp only [runAct, Frame.get, if_true, reduceCtorEq, if_false, block_gap] at h2
    cases i with
    | plugin com p =>
      obtain ⟨nm, g, as, ft⟩ := p
      simp only [CItem.ast, bopVal, CPlugin.ast] at h2
      injection h2 with h2
      rw [← h2]
      rfl
    | branch =>
      simp only [CItem.ast, bopVal] at h2
      injection h2 with h2
      rw [← h2]
      simp [CItem.setCom, CItem.ast, bopVal]
  · cases i <;> exact i6
  · intro ho
    apply i7
    cases i with
    | plugin => exact ho
    | branch _ _ _ _ _ _ _ el => cases el <;> exact ho

/-- What follows an open branch. -/
theorem notElse_of {is : List CItem} (hok : itemsOk is) {X : Bytes} (h : BranchEnd o (itemsText is ++ X)) : notElse is := by
  cases is with
  | nil => trivial
  | cons i is =>
    cases i with
    | plugin com p =>
      simp only [itemsText, CItem.text, List.append_assoc] at h
      exact (branchEnd_iff hok.1.1 hok.1.2 _).1 h
    | branch => trivial

theorem items_sound {n : Nat} (ih : ∀ b, b.length < n → BopSound o b) {b b' : Bytes} {vs : List Val}
    (h : Steps o itemEx b vs b') (hb : b.length < n) : ∃ is : List CItem, itemsOk is ∧
      b = itemsText is ++ b' ∧ vs = (itemsAst o.ignoreComments is).map bopVal ∧ itemsClear is := by
  induction h with
  | nil => exact ⟨[], trivial, rfl, rfl, trivial⟩
  | cons h1 _ ih2 =>
    obtain ⟨a, a1, rfl, rfl, a4, a5⟩ := item_sound ih hb h1
    obtain ⟨as, s1, rfl, rfl, s4⟩ := ih2 (by simp at hb; omega)
    exact ⟨a :: as, ⟨a1, s1⟩, by simp [itemsText], by simp [itemsAst], a4, fun ho => notElse_of s1 (a5 ho), s4⟩

/-- Soundness of the rule `ifCond`. -/
theorem if_sound {n : Nat} (ih : ∀ b, b.length < n → BopSound o b) {b b' : Bytes} {v : Val} (hb : b.length ≤ n)
    (h : Runs o G.ifCond b v b') : ∃ (g1 : Gap) (c : CCond) (g2 : Gap) (is : List CItem) (ft : Gap),
      g1.Ok ∧ c.Ok ∧ g2.Ok ∧ itemsOk is ∧ ft.Ok ∧
      b = b!"if" ++ g1.text ++ c.text ++ g2.text ++ b!"{" ++ itemsText is ++ ft.text ++ b!"}" ++ b' ∧
      v = .ifBlock Pos.zero (c.ast o.ignoreComments) (itemsAst o.ignoreComments is) []
        (ft.block o.ignoreComments false false) ∧ itemsClear is := by
  obtain ⟨f, h⟩ := h
  simp (discharger := decide) only [G.ifCond, block_eq, action_ok, run_seq, seqR_cons_ok, seqR_nil_ok, labeled_ok, ref_ok, tok_ok, gapS_ok, warn_ok,
    runs_gap, runs_ref, close_ok, gram] at h
  obtain ⟨v0, ⟨v1, b1, f1, ⟨rfl, rfl, rfl⟩, v2, b2, f2, ⟨rfl, rfl, rfl⟩, v3, b3, f3, ⟨rfl, rfl, rfl⟩, v4, b4, f4, ⟨h1, rfl⟩,
    v5, b5, f5, ⟨rfl, rfl, rfl⟩, v6, b6, f6, ⟨rfl, rfl, rfl⟩, v7, b7, f7, ⟨h2, rfl, rfl⟩, v8, b8, f8, ⟨⟨f9, h3⟩, rfl⟩,
    v9, b9, f10, ⟨⟨rfl, rfl⟩, rfl⟩, v11, b11, f11, ⟨h4, rfl, rfl⟩, rfl, rfl, rfl⟩, h5⟩ := h
  obtain ⟨c, c1, c2, rfl⟩ := condition_sound' h1
  obtain ⟨e1, e2⟩ := gap_split c2 (cond_text_ne c1)
  obtain ⟨e3, e4⟩ := gap_split h2 (by simp)
  obtain ⟨rfl, vs, rfl, h6, _⟩ := star_ok.1 h3
  obtain ⟨is, s1, s2, rfl, s4⟩ := items_sound ih h6 (by
    have l1 := gapOf_length b1
    have l2 := gapOf_length b4
    have l3 := congrArg List.length c2
    have l4 := congrArg List.length h2
    simp at l3 l4 hb; omega)
  obtain ⟨e5, e6⟩ := gap_split h4 (by simp)
  refine ⟨_, c, _, is, _, e1, c1, e3, s1, e5, ?_, ?_, s4⟩
  · conv => lhs; rw [e2, e4, s2, e6]
    simp
  · simp only [runAct, Frame.get, if_true, reduceCtorEq, if_false, block_gap, branchOrPlugins_bop] at h5
    injection h5 with h5
    exact h5.symm

/-- Soundness of the rule `elseIf`. -/
theorem elseIf_sound {n : Nat} (ih : ∀ b, b.length < n → BopSound o b) {b b' : Bytes} {v : Val} (hb : b.length ≤ n)
    (h : Runs o G.elseIf b v b') : ∃ (g0 g1 : Gap) (c : CCond) (g2 : Gap) (is : List CItem) (ft : Gap),
      g0.Ok ∧ g1.Ok ∧ c.Ok ∧ g2.Ok ∧ itemsOk is ∧ ft.Ok ∧
      b = b!"else" ++ g0.text ++ b!"if" ++ g1.text ++ c.text ++ g2.text ++ b!"{" ++ itemsText is ++ ft.text ++ b!"}" ++ b' ∧
      v = .elif (.mk Pos.zero (c.ast o.ignoreComments) (itemsAst o.ignoreComments is) []
        (ft.block o.ignoreComments false false)) ∧ itemsClear is := by
  obtain ⟨f, h⟩ := h
  simp (discharger := decide) only [G.elseIf, block_eq, action_ok, run_seq, seqR_cons_ok, seqR_nil_ok, labeled_ok, ref_ok, tok_ok, gapS_ok, warn_ok,
    runs_gap, runs_ref, close_ok, gram] at h
  obtain ⟨v0, ⟨w1, c1, g1, ⟨rfl, rfl, rfl⟩, w2, c2, g2, ⟨rfl, rfl, rfl⟩, w3, c3, g3, ⟨rfl, rfl, rfl⟩,
    v1, b1, f1, ⟨h0, rfl, rfl⟩, v2, b2, f2, ⟨rfl, rfl, rfl⟩, v3, b3, f3, ⟨rfl, rfl, rfl⟩, v4, b4, f4, ⟨h1, rfl⟩,
    v5, b5, f5, ⟨rfl, rfl, rfl⟩, v6, b6, f6, ⟨rfl, rfl, rfl⟩, v7, b7, f7, ⟨h2, rfl, rfl⟩, v8, b8, f8, ⟨⟨f9, h3⟩, rfl⟩,
    v9, b9, f10, ⟨⟨rfl, rfl⟩, rfl⟩, v11, b11, f11, ⟨h4, rfl, rfl⟩, rfl, rfl, rfl⟩, h5⟩ := h
  obtain ⟨c, k1, k2, rfl⟩ := condition_sound' h1
  obtain ⟨e7, e8⟩ := gap_split h0 (by simp)
  obtain ⟨e1, e2⟩ := gap_split k2 (cond_text_ne k1)
  obtain ⟨e3, e4⟩ := gap_split h2 (by simp)
  obtain ⟨rfl, vs, rfl, h6, _⟩ := star_ok.1 h3
  obtain ⟨is, s1, s2, rfl, s4⟩ := items_sound ih h6 (by
    have l0 := gapOf_length c1
    have l1 := gapOf_length b1
    have l2 := gapOf_length b4
    have l3 := congrArg List.length k2
    have l4 := congrArg List.length h2
    have l5 := congrArg List.length h0
    simp at l3 l4 l5 hb; omega)
  obtain ⟨e5, e6⟩ := gap_split h4 (by simp)
  refine ⟨_, _, c, _, is, _, e7, e1, k1, e3, s1, e5, ?_, ?_, s4⟩
  · conv => lhs; rw [e8, e2, e4, s2, e6]
    simp
  · simp only [runAct, Frame.get, if_true, reduceCtorEq, if_false, block_gap, branchOrPlugins_bop] at h5
    injection h5 with h5
    exact h5.symm

/-- Soundness of the rule `elseCond`. -/
theorem else_sound {n : Nat} (ih : ∀ b, b.length < n → BopSound o b) {b b' : Bytes} {v : Val} (hb : b.length ≤ n)
    (h : Runs o G.elseCond b v b') : ∃ (g : Gap) (is : List CItem) (ft : Gap),
      g.Ok ∧ itemsOk is ∧ ft.Ok ∧
      b = b!"else" ++ g.text ++ b!"{" ++ itemsText is ++ ft.text ++ b!"}" ++ b' ∧
      v = .elseB (.mk Pos.zero (itemsAst o.ignoreComments is) [] (ft.block o.ignoreComments false false)) ∧ itemsClear is := by
  obtain ⟨f, h⟩ := h
  simp (discharger := decide) only [G.elseCond, block_eq, action_ok, run_seq, seqR_cons_ok, seqR_nil_ok, labeled_ok, ref_ok, tok_ok, gapS_ok, warn_ok,
    runs_gap, runs_ref, close_ok, gram] at h
  obtain ⟨v0, ⟨v1, b1, f1, ⟨rfl, rfl, rfl⟩, 
    v5, b5, f5, ⟨rfl, rfl, rfl⟩, v6, b6, f6, ⟨rfl, rfl, rfl⟩, v7, b7, f7, ⟨h2, rfl, rfl⟩, v8, b8, f8, ⟨⟨f9, h3⟩, rfl⟩,
    v9, b9, f10, ⟨⟨rfl, rfl⟩, rfl⟩, v11, b11, f11, ⟨h4, rfl, rfl⟩, rfl, rfl, rfl⟩, h5⟩ := h
  obtain ⟨e3, e4⟩ := gap_split h2 (by simp)
  obtain ⟨rfl, vs, rfl, h6, _⟩ := star_ok.1 h3
  obtain ⟨is, s1, s2, rfl, s4⟩ := items_sound ih h6 (by
    have l1 := gapOf_length b1
    have l4 := congrArg List.length h2
    simp at l4 hb; omega)
  obtain ⟨e5, e6⟩ := gap_split h4 (by simp)
  refine ⟨_, is, _, e3, s1, e5, ?_, ?_, s4⟩
  · conv => lhs; rw [e4, s2, e6]
    simp
  · simp only [runAct, Frame.get, if_true, reduceCtorEq, if_false, block_gap, branchOrPlugins_bop] at h5
    injection h5 with h5
    exact h5.symm

theorem elif_sound {n : Nat} (ih : ∀ b, b.length < n → BopSound o b) {b b' : Bytes} {v : Val} (hb : b.length ≤ n)
    (h : Runs o elifEx b v b') : ∃ e : CElif, elifsOk [e] ∧ b = elifsText [e] ++ b' ∧
      [v] = (elifsAst o.ignoreComments [e]).map Val.elif ∧ elifsClear [e] := by
  obtain ⟨f, h⟩ := h
  simp (discharger := decide) only [elifEx, action_ok, run_seq, seqR_cons_ok, seqR_nil_ok, labeled_ok, ref_ok, tok_ok, gapS_ok, warn_ok,
    runs_gap, runs_ref, gram] at h
  obtain ⟨v0, ⟨v1, b1, f1, ⟨⟨rfl, rfl⟩, rfl⟩, v2, b2, f2, ⟨h1, rfl⟩, rfl, rfl, rfl⟩, h2⟩ := h
  obtain ⟨g0, g1, c, g2, is, ft, k0, k1, k2, k3, k4, k5, k6, rfl, k7⟩ := elseIf_sound ih (by have := gapOf_length b; omega) h1
  have k6' : (gapOf b).2 = b!"else" ++ (g0.text ++ b!"if" ++ g1.text ++ c.text ++ g2.text ++ b!"{" ++ itemsText is ++ ft.text ++ b!"}" ++ b') := by
    rw [k6]; simp
  obtain ⟨e1, e2⟩ := gap_split k6' (by simp)
  refine ⟨.mk _ g0 g1 c g2 is ft, ⟨e1, k0, k1, k2, k3, k4, k5, trivial⟩, ?_, ?_, k7, trivial⟩
  · conv => lhs; rw [e2]
    simp [elifsText]
  · simp only [runAct, Frame.get, if_true, reduceCtorEq, if_false, block_gap] at h2
    injection h2 with h2
    rw [← h2]
    simp [elifsAst]

theorem elifs_sound {n : Nat} (ih : ∀ b, b.length < n → BopSound o b) {b b' : Bytes} {vs : List Val}
    (h : Steps o elifEx b vs b') (hb : b.length ≤ n) : ∃ as : List CElif, elifsOk as ∧
      b = elifsText as ++ b' ∧ vs = (elifsAst o.ignoreComments as).map Val.elif ∧ elifsClear as := by
  induction h with
  | nil => exact ⟨[], trivial, rfl, rfl, trivial⟩
  | cons h1 _ ih2 =>
    obtain ⟨a, a1, rfl, a3, a4⟩ := elif_sound ih hb h1
    obtain ⟨as, s1, rfl, rfl, s4⟩ := ih2 (by simp at hb; omega)
    refine ⟨a :: as, (elifsOk_append a as).2 ⟨a1, s1⟩, ?_, ?_, ?_⟩
    · rw [elifsText_append a as, List.append_assoc]
    · rw [elifsAst_append, List.map_append, ← a3]; rfl
    · cases a; exact ⟨a4.1, s4⟩

theorem elseEx_sound {n : Nat} (ih : ∀ b, b.length < n → BopSound o b) {b b' : Bytes} {v : Val} (hb : b.length ≤ n)
    (h : Runs o elseEx b v b') : ∃ e : CElse, e.Ok ∧ b = e.text ++ b' ∧ v = .elseB (e.ast o.ignoreComments) ∧
      e.Clear ∧ e ≠ .none := by
  obtain ⟨f, h⟩ := h
  simp (discharger := decide) only [elseEx, action_ok, run_seq, seqR_cons_ok, seqR_nil_ok, labeled_ok, ref_ok, tok_ok, gapS_ok, warn_ok,
    runs_gap, runs_ref, gram] at h
  obtain ⟨v0, ⟨v1, b1, f1, ⟨⟨rfl, rfl⟩, rfl⟩, v2, b2, f2, ⟨h1, rfl⟩, rfl, rfl, rfl⟩, h2⟩ := h
  obtain ⟨g0, is, ft, k0, k4, k5, k6, rfl, k7⟩ := else_sound ih (by have := gapOf_length b; omega) h1
  have k6' : (gapOf b).2 = b!"else" ++ (g0.text ++ b!"{" ++ itemsText is ++ ft.text ++ b!"}" ++ b') := by
    rw [k6]; simp
  obtain ⟨e1, e2⟩ := gap_split k6' (by simp)
  refine ⟨.mk _ g0 is ft, ⟨e1, k0, k4, k5⟩, ?_, ?_, k7, by simp⟩
  · conv => lhs; rw [e2]
    simp [CElse.text]
  · simp only [runAct, Frame.get, if_true, reduceCtorEq, if_false, block_gap] at h2
    injection h2 with h2
    rw [← h2]
    simp [CElse.ast]

/-- Soundness of the rule `branch`. -/
theorem branch_sound {n : Nat} (ih : ∀ b, b.length < n → BopSound o b) {b b' : Bytes} {v : Val} (hb : b.length ≤ n)
    (h : Runs o G.branch b v b') : ∃ i : CItem, i.Ok ∧ b = i.text ++ b' ∧
    v = bopVal (i.ast o.ignoreComments) ∧ i.com = (gapOf b).1 ∧ (gapOf b).2 ≠ [] ∧ i.Clear ∧ (i.isOpen = true → BranchEnd o b') := by
  obtain ⟨f, h⟩ := h
  simp (discharger := decide) only [G.branch, action_ok, run_seq, seqR_cons_ok, seqR_nil_ok, labeled_ok, ref_ok, tok_ok, gapS_ok, warn_ok,
    runs_gap, runs_ref, close_ok, gram] at h
  obtain ⟨v0, ⟨v1, b1, f1, ⟨⟨rfl, rfl⟩, rfl⟩, v2, b2, f2, ⟨h1, rfl⟩, v3, b3, f3, ⟨⟨f4, h2⟩, rfl⟩, v4, b4, f5, ⟨⟨f6, h3⟩, rfl⟩,
    rfl, rfl, rfl⟩, h4⟩ := h
  obtain ⟨g1, c, g2, is, ft, k1, k2, k3, k4, k5, k6, rfl, k7⟩ := if_sound ih (by have := gapOf_length b; omega) h1
  have k6' : (gapOf b).2 = b!"if" ++ (g1.text ++ c.text ++ g2.text ++ b!"{" ++ itemsText is ++ ft.text ++ b!"}" ++ b2) := by
    rw [k6]; simp
  obtain ⟨e1, e2⟩ := gap_split k6' (by simp)
  have hl2 : b2.length ≤ n := by
    have l1 := congrArg List.length k6
    have l2 := gapOf_length b
    simp at l1; omega
  obtain ⟨rfl, vs, rfl, h5, hef⟩ := star_ok.1 h2
  obtain ⟨es, s1, s2, rfl, s4⟩ := elifs_sound ih h5 hl2
  obtain ⟨el, t1, t2, t3, t4, t5⟩ : ∃ e : CElse, e.Ok ∧ b3 = e.text ++ b' ∧
      ((v4 = .nil ∧ e = .none) ∨ v4 = .elseB (e.ast o.ignoreComments)) ∧ e.Clear ∧ (e = .none → BranchEnd o b') := by
    rcases opt_ok.1 h3 with ⟨h6, _⟩ | ⟨h6, rfl, rfl, _⟩
    · obtain ⟨e, t1, t2, rfl, t4, t5⟩ := elseEx_sound ih (by
        have l1 := congrArg List.length s2
        simp at l1; omega) h6
      exact ⟨e, t1, t2, .inr rfl, t4, fun h => absurd h t5⟩
    · exact ⟨.none, trivial, rfl, .inl ⟨rfl, rfl⟩, trivial, fun _ => ⟨hef, h6⟩⟩
  refine ⟨.branch _ g1 c g2 is ft es el, ⟨e1, k1, k2, k3, k4, k5, s1, t1⟩, ?_, ?_, rfl, ?_, ⟨k7, s4, t4⟩, ?_⟩
  · conv => lhs; rw [e2, s2, t2]
    simp [CItem.text]
  · simp only [runAct, Frame.get, if_true, reduceCtorEq, if_false, toIfaceSlice, collectElifs_elif, block_gap] at h4
    rcases t3 with ⟨rfl, rfl⟩ | rfl <;> simp only at h4 <;> injection h4 with h4 <;> rw [← h4] <;>
      simp [CItem.ast, bopVal, CElse.ast, ElseB.zero]
  · rw [k6']; simp
  · intro ho
    apply t5
    cases el with
    | none => rfl
    | mk => exact absurd ho (by simp [CItem.isOpen])

/-- Soundness of the rule `branchOrPlugin`. -/
theorem bop_sound (n : Nat) : ∀ b, b.length < n → BopSound o b := by
  induction n with
  | zero => intro b hb; omega
  | succ n ih =>
    intro b hb v b' h
    have hb : b.length ≤ n := by omega
    obtain ⟨f, h⟩ := h
    rw [G.branchOrPlugin, run_choice] at h
    simp only [choiceR_cons_ok, choiceR_nil_ok, and_false, or_false, runs_ref, gram] at h
    rcases h with ⟨h, _⟩ | ⟨hf, h, _⟩
    · exact branch_sound ih hb h
    · obtain ⟨p, p1, p2, p3, p4, rfl⟩ := plugin_sound' h
      refine ⟨.plugin _ p, ⟨p2, p1⟩, by simpa [CItem.text] using p3, ?_, rfl, ?_, ?_, ?_⟩
      · obtain ⟨nm, g, as, ft⟩ := p; rfl
      · rw [p4]
        obtain ⟨nm, g, as, ft⟩ := p
        simp [CPlugin.text]
      · rw [CItem.Clear, ← ifCond_fail_iff (o := o) p1 b']
        refine Classical.byContradiction fun hn => ?_
        rw [p3] at hf
        exact refN (r := .branch) (actN (seqA (labA (gapA p2 (plugin_stop p1 b'))) (seqN (labN (refN hn)) fun _ _ =>
          seqN (labN star_never_fail) fun _ _ => seqN (labN opt_never_fail) fun _ _ => seqN_nil))) hf
      · intro ho; exact absurd ho (by simp [CItem.isOpen])

theorem bop_sound' {b b' : Bytes} {v : Val} (h : Runs o G.branchOrPlugin b v b') : ∃ i : CItem, i.Ok ∧ b = i.text ++ b' ∧
    v = bopVal (i.ast o.ignoreComments) ∧ i.Clear ∧ (i.isOpen = true → BranchEnd o b') := by
  obtain ⟨i, h1, h2, h3, _, _, h4⟩ := bop_sound (b.length + 1) b (Nat.lt_succ_self _) _ _ h
  exact ⟨i, h1, h2, h3, h4⟩

/-! ### Sections and files -/

theorem secItems_sound {b b' : Bytes} {vs : List Val}
    (h : Steps o secItemEx b vs b') : ∃ is : List CItem, itemsOk is ∧
      b = itemsText is ++ b' ∧ vs = (itemsAst o.ignoreComments is).map bopVal ∧ itemsClear is := by
  induction h with
  | nil => exact ⟨[], trivial, rfl, rfl, trivial⟩
  | cons h1 _ ih2 =>
    obtain ⟨f, h1⟩ := h1
    simp only [action_ok, labeled_ok, runs_ref, gram] at h1
    obtain ⟨_, ⟨h1, rfl⟩, h2⟩ := h1
    simp only [runAct, Frame.get, if_true] at h2
    injection h2 with h2
    subst h2
    obtain ⟨a, a1, rfl, rfl, a4, a5⟩ := bop_sound' h1
    obtain ⟨as, s1, rfl, rfl, s4⟩ := ih2
    exact ⟨a :: as, ⟨a1, s1⟩, by simp [itemsText], by simp [itemsAst], a4, fun ho => notElse_of s1 (a5 ho), s4⟩

/-- Soundness of the rule `pluginSection`. -/
theorem section_sound {b b' : Bytes} {v : Val} (h : Runs o G.pluginSection b v b') : ∃ (t : PluginType) (g : Gap)
    (is : List CItem) (ft : Gap), t ≠ .undefined ∧ g.Ok ∧ itemsOk is ∧ ft.Ok ∧
      b = ptypeText t ++ g.text ++ b!"{" ++ itemsText is ++ ft.text ++ b!"}" ++ b' ∧
      v = .sect ⟨Pos.zero, t, itemsAst o.ignoreComments is, [], ft.block o.ignoreComments false false⟩ ∧ itemsClear is := by
  obtain ⟨f, h⟩ := h
  simp (discharger := decide) only [G.pluginSection, action_ok, run_seq, seqR_cons_ok, seqR_nil_ok, labeled_ok, ref_ok, tok_ok, gapS_ok, warn_ok,
    runs_gap, close_ok] at h
  obtain ⟨v0, ⟨v1, b1, f1, ⟨h1, rfl⟩, v5, b5, f5, ⟨rfl, rfl, rfl⟩, v6, b6, f6, ⟨rfl, rfl, rfl⟩, v7, b7, f7, ⟨h2, rfl, rfl⟩,
    v8, b8, f8, ⟨⟨f9, h3⟩, rfl⟩,
    v9, b9, f10, ⟨⟨rfl, rfl⟩, rfl⟩, v11, b11, f11, ⟨h4, rfl, rfl⟩, rfl, rfl, rfl⟩, h5⟩ := h
  obtain ⟨t, t1, rfl, rfl⟩ := runs_ptype.1 h1
  obtain ⟨e3, e4⟩ := gap_split h2 (by simp)
  obtain ⟨rfl, vs, rfl, h6, _⟩ := star_ok.1 h3
  obtain ⟨is, s1, s2, rfl, s4⟩ := secItems_sound h6
  obtain ⟨e5, e6⟩ := gap_split h4 (by simp)
  refine ⟨t, _, is, _, t1, e3, s1, e5, ?_, ?_, s4⟩
  · conv => lhs; rw [e4, s2, e6]
    simp
  · simp only [runAct, Frame.get, if_true, reduceCtorEq, if_false, block_gap, toIfaceSlice, collectBOPs_bop] at h5
    injection h5 with h5
    exact h5.symm

theorem sec_sound {b b' : Bytes} {v : Val} (h : Runs o secEx b v b') : ∃ s : CSection, s.Ok ∧ b = s.text ++ b' ∧
      v = .sect (s.ast o.ignoreComments false) ∧ itemsClear s.items := by
  obtain ⟨f, h⟩ := h
  simp (discharger := decide) only [secEx, action_ok, run_seq, seqR_cons_ok, seqR_nil_ok, labeled_ok, ref_ok, tok_ok, gapS_ok, warn_ok,
    runs_gap, runs_ref, gram] at h
  obtain ⟨v0, ⟨v1, b1, f1, ⟨⟨rfl, rfl⟩, rfl⟩, v2, b2, f2, ⟨h1, rfl⟩, rfl, rfl, rfl⟩, h2⟩ := h
  obtain ⟨t, g, is, ft, k1, k2, k3, k4, k5, rfl, k7⟩ := section_sound h1
  have k5' : (gapOf b).2 = ptypeText t ++ (g.text ++ b!"{" ++ itemsText is ++ ft.text ++ b!"}" ++ b') := by
    rw [k5]; simp
  obtain ⟨e1, e2⟩ := gap_split k5' (ptypeText_ne k1)
  refine ⟨⟨(gapOf b).1, t, g, is, ft⟩, ⟨e1, k1, k2, k3, k4⟩, ?_, ?_, k7⟩
  · conv => lhs; rw [e2]
    simp [CSection.text]
  · simp only [runAct, Frame.get, if_true, reduceCtorEq, if_false, block_gap] at h2
    injection h2 with h2
    exact h2.symm

theorem secs_sound {b b' : Bytes} {vs : List Val} (h : Steps o secEx b vs b') : ∃ ss : List CSection, (∀ s ∈ ss, s.Ok) ∧
      b = ss.flatMap CSection.text ++ b' ∧ vs = (ss.map (CSection.ast o.ignoreComments false)).map Val.sect ∧ ∀ s ∈ ss, itemsClear s.items := by
  induction h with
  | nil => exact ⟨[], by simp, rfl, rfl, by simp⟩
  | cons h1 _ ih2 =>
    obtain ⟨a, a1, rfl, rfl, a4⟩ := sec_sound h1
    obtain ⟨as, s1, rfl, rfl, s4⟩ := ih2
    exact ⟨a :: as, by simpa using ⟨a1, s1⟩, by simp, by simp, by simpa using ⟨a4, s4⟩⟩

/-- Soundness of the rule `config`. -/
theorem config_sound {b b' : Bytes} {v : Val} (h : Runs o G.config b v b') : b' = [] ∧ ∃ (s : CSection) (ss : List CSection)
    (ft : Gap), (CFile.config s ss ft).Ok ∧ b = (CFile.config s ss ft).text ∧
      v = .config ((CFile.config s ss ft).ast o.ignoreComments) ∧ (CFile.config s ss ft).Clear := by
  obtain ⟨f, h⟩ := h
  simp (discharger := decide) only [G.config, action_ok, run_seq, seqR_cons_ok, seqR_nil_ok, labeled_ok, ref_ok, tok_ok, gapS_ok, warn_ok,
    runs_gap, runs_ref, gram] at h
  obtain ⟨v0, ⟨v1, b1, f1, ⟨⟨rfl, rfl⟩, rfl⟩, v2, b2, f2, ⟨h1, rfl⟩, v3, b3, f3, ⟨⟨f4, h2⟩, rfl⟩, v4, b4, f4, ⟨⟨rfl, rfl⟩, rfl⟩,
    v5, b5, f6, h3, rfl, rfl, rfl⟩, h4⟩ := h
  rw [run_eof] at h3
  obtain ⟨t, g, is, ft, k1, k2, k3, k4, k5, rfl, k7⟩ := section_sound h1
  have k5' : (gapOf b).2 = ptypeText t ++ (g.text ++ b!"{" ++ itemsText is ++ ft.text ++ b!"}" ++ b2) := by
    rw [k5]; simp
  obtain ⟨e1, e2⟩ := gap_split k5' (ptypeText_ne k1)
  obtain ⟨rfl, vs, rfl, h5, _⟩ := star_ok.1 h2
  obtain ⟨ss, s1, s2, rfl, s4⟩ := secs_sound h5
  by_cases hn : (gapOf b3).2 = []
  case neg => simp [hn] at h3
  simp only [hn, if_true, Res.ok.injEq] at h3
  obtain ⟨_, h3b, rfl⟩ := h3
  have hft : (gapOf b3).1.OkEnd := by
    rcases (gapOf_spec b3).2.2.2 with h | h
    · exact .inl h
    · exact h.1
  have hb3 := (gapOf_spec b3).1
  rw [hn, List.append_nil] at hb3
  refine ⟨h3b.symm, ⟨(gapOf b).1, t, g, is, ft⟩, ss, (gapOf b3).1, ⟨⟨e1, k1, k2, k3, k4⟩, s1, hft⟩, ?_, ?_, k7, s4⟩
  · conv => lhs; rw [e2, s2, hb3]
    simp [CFile.text, CSection.text]
  · simp only [runAct, Frame.get, if_true, reduceCtorEq, if_false, block_gap, toIfaceSlice] at h4
    rw [show ∀ (x : Section) (l : List Section), [Val.sect x] ++ l.map Val.sect = (x :: l).map Val.sect from fun _ _ => rfl] at h4
    have hp : ∀ x ∈ ss.map (CSection.ast o.ignoreComments false), x.ptype ≠ .undefined := by
      intro x hx
      obtain ⟨y, hy, rfl⟩ := List.mem_map.1 hx
      exact (s1 y hy).2.1
    rw [configLoop_first _ _ _ _ (by simpa using ⟨k1, fun s hs => (s1 s hs).2.1⟩), configLoop_rest _ _ _ (by
      simpa [CSection.ast] using ⟨k1, fun s hs => (s1 s hs).2.1⟩)] at h4
    simp only at h4
    injection h4 with h4
    rw [← h4]
    simp [CFile.ast, CFile.sections, Config.empty, CSection.ast]

/-- Soundness of the rule `init`. -/
theorem init_sound {b b' : Bytes} {v : Val} (h : Runs o G.init b v b') : b' = [] ∧ ∃ k : CFile, k.Ok ∧ b = k.text ∧
      v = .config (k.ast o.ignoreComments) ∧ k.Clear := by
  obtain ⟨f, h⟩ := h
  simp (discharger := decide) only [G.init, action_ok, run_seq, seqR_cons_ok, seqR_nil_ok, labeled_ok, run_state, run_initParser,
    Res.ok.injEq] at h
  obtain ⟨v0, ⟨v1, b1, f1, ⟨rfl, rfl, rfl⟩, v2, b2, f2, ⟨rfl, rfl, rfl⟩, v3, b3, f3, ⟨⟨f4, h1⟩, rfl⟩, rfl, rfl, rfl⟩, h2⟩ := h
  rw [run_choice] at h1
  simp only [choiceR_cons_ok, choiceR_nil_ok, and_false, or_false] at h1
  rcases h1 with ⟨⟨f5, h1⟩, _⟩ | ⟨_, ⟨f5, h1⟩, _⟩
  · simp (discharger := decide) only [action_ok, run_seq, seqR_cons_ok, seqR_nil_ok, labeled_ok, runs_ref, gram, run_eof] at h1
    obtain ⟨w0, ⟨w1, c1, g1, ⟨h3, rfl⟩, w2, c2, g2, h4, rfl, rfl, rfl⟩, h5⟩ := h1
    obtain ⟨rfl, s, ss, ft, k1, k2, rfl, k4⟩ := config_sound h3
    simp only [if_true, Res.ok.injEq] at h4
    obtain ⟨rfl, rfl, rfl⟩ := h4
    simp only [runAct, Frame.get, if_true] at h5
    injection h5 with h5
    subst h5
    simp only [runAct, Frame.get, if_true] at h2
    injection h2 with h2
    exact ⟨rfl, _, k1, k2, h2.symm, k4⟩
  · simp (discharger := decide) only [action_ok, run_seq, seqR_cons_ok, seqR_nil_ok, labeled_ok, runs_ref, gram, run_eof, gap_ok] at h1
    obtain ⟨w0, ⟨w1, c1, g1, ⟨rfl, rfl, rfl⟩, w2, c2, g2, h4, rfl, rfl, rfl⟩, h5⟩ := h1
    simp only [runAct] at h5
    injection h5 with h5
    subst h5
    simp only [runAct, Frame.get, if_true] at h2
    injection h2 with h2
    by_cases hn : (gapOf b).2 = []
    case neg => simp [hn] at h4
    simp only [hn, if_true, Res.ok.injEq] at h4
    obtain ⟨rfl, rfl, rfl⟩ := h4
    have hft : (gapOf b).1.OkEnd := by
      rcases (gapOf_spec b).2.2.2 with h | h
      · exact .inl h
      · exact h.1
    have hb3 := (gapOf_spec b).1
    rw [hn, List.append_nil] at hb3
    exact ⟨rfl, .empty (gapOf b).1, hft, hb3, h2.symm, trivial⟩

end
end Verif
