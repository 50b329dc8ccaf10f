import Verif.Proofs.SoundPosCond
import Verif.Proofs.SoundBlock
/-
Soundness of the grammar with positions and warnings: blocks, branches, sections, files.
-/
namespace Verif
open Spec

section
variable {o : Opts} {pf : Bytes → Pos} {pos : Nat → Pos} {D : Nat}

/-- Soundness of the rule `branchOrPlugin` on an input. -/
def BopP (o : Opts) (pf : Bytes → Pos) (pos : Nat → Pos) (D : Nat) (b : Bytes) : Prop :=
  ∀ k ws v b' ws', k + b.length = D → RunsP o pf G.branchOrPlugin b ws v b' ws' → ∃ i : CItem, i.Ok ∧ b = i.text ++ b' ∧
    v = bopVal (i.astAt o.ignoreComments pos k) ∧ ws' = ws ++ wl o pos (i.exc k) ∧
    i.com = (gapOf b).1 ∧ (gapOf b).2 ≠ []

theorem setCom_astAt (ign : Bool) (k : Nat) (g : Gap) (i : CItem) (h : i.com = Gap.empty) :
    bopVal ((i.setCom g).astAt ign pos k) = (match bopVal (i.astAt ign pos (k + g.text.length)) with
      | .plugin (.mk st n as _ ft) => .plugin (.mk st n as (g.block ign false false) ft)
      | .branch st c bl _ ft ei el => .branch st c bl (g.block ign false false) ft ei el
      | v => v) := by
  cases i with
  | plugin com p =>
    simp only [CItem.com] at h; subst h
    obtain ⟨nm, g2, as, ft⟩ := p
    simp [CItem.setCom, CItem.astAt, bopVal, CPlugin.astAt, Gap.text, Gap.empty]
  | branch com g1 c g2 items foot elifs els =>
    simp only [CItem.com] at h; subst h
    simp [CItem.setCom, CItem.astAt, bopVal, Gap.text, Gap.empty]

theorem setCom_exc (k : Nat) (g : Gap) (i : CItem) (h : i.com = Gap.empty) :
    (i.setCom g).exc k = i.exc (k + g.text.length) := by
  cases i with
  | plugin com p =>
    simp only [CItem.com] at h; subst h
    simp [CItem.setCom, CItem.exc, Gap.text, Gap.empty]
  | branch com g1 c g2 items foot elifs els =>
    simp only [CItem.com] at h; subst h
    simp [CItem.setCom, CItem.exc, Gap.text, Gap.empty]

theorem item_p (_hp : PosFn pf pos D) {n : Nat} (ih : ∀ b, b.length < n → BopP o pf pos D b) {k : Nat} {b : Bytes}
    {ws : List Bytes} {v : Val} {b' : Bytes} {ws' : List Bytes} (hb : b.length < n) (hk : k + b.length = D)
    (h : RunsP o pf itemEx b ws v b' ws') : ∃ i : CItem, i.Ok ∧ b = i.text ++ b' ∧
      v = bopVal (i.astAt o.ignoreComments pos k) ∧ ws' = ws ++ wl o pos (i.exc k) := by
  obtain ⟨f, h⟩ := h
  simp (discharger := decide) only [itemEx, action_rp, seq_rp, rseq_cons, rseq_nil, labeled_rp, ref_rp,
    runsP_ref, gram] at h
  obtain ⟨v0, ⟨vs, ⟨v1, b1, f1, w1, vs1, ⟨h0, rfl⟩, ⟨v2, b2, f2, w2, vs2, ⟨h1, rfl⟩, ⟨rfl, rfl, rfl, rfl⟩, rfl⟩, rfl⟩, rfl⟩, h2⟩ := h
  obtain ⟨rfl, rfl, rfl⟩ := gap_p h0
  obtain ⟨i, i1, i2, rfl, rfl, i4, i5⟩ := ih _ (by have := gapOf_length b; omega) _ _ _ _ _ (gap_k hk) h1
  rw [gapOf_stop (gap_stop b)] at i4 i5
  simp only at i4 i5
  have hg : (gapOf b).1.Ok := by
    cases hc : (gapOf b).2 with
    | nil => exact absurd hc i5
    | cons c t => exact gapOf_ok hc
  have hb2 := (gapOf_spec b).1
  refine ⟨CItem.setCom (gapOf b).1 i, ?_, ?_, ?_, ?_⟩
  · cases i with
    | plugin com p => exact ⟨hg, i1.2⟩
    | branch => exact ⟨hg, i1.2⟩
  · conv => lhs; rw [hb2, i2]
    cases i with
    | plugin com p => 
      simp only [CItem.com] at i4
      subst i4
      simp [CItem.setCom, CItem.text, Gap.text, Gap.empty]
    | branch => 
      simp only [CItem.com] at i4
      subst i4
      simp [CItem.setCom, CItem.text, Gap.text, Gap.empty]
  · rw [setCom_astAt _ _ _ _ i4]
    simp only [runAct, Frame.get, if_true, reduceCtorEq, if_false, block_gap] at h2
    cases i with
    | plugin com p =>
      obtain ⟨nm, g, as, ft⟩ := p
      simp only [CItem.astAt, bopVal, CPlugin.astAt] at h2 ⊢
      injection h2 with h2
      exact h2.symm
    | branch =>
      simp only [CItem.astAt, bopVal] at h2 ⊢
      injection h2 with h2
      exact h2.symm
  · rw [setCom_exc _ _ _ i4]

theorem items_p (hp : PosFn pf pos D) {n : Nat} (ih : ∀ b, b.length < n → BopP o pf pos D b) {b : Bytes}
    {ws : List Bytes} {vs : List Val} {b' : Bytes} {ws' : List Bytes} (h : StepsP o pf itemEx b ws vs b' ws') :
    ∀ k, b.length < n → k + b.length = D → ∃ is : List CItem, itemsOk is ∧
      b = itemsText is ++ b' ∧ vs = (itemsAt o.ignoreComments pos k is).map bopVal ∧
      ws' = ws ++ wl o pos (itemsExc k is) := by
  induction h with
  | nil => intro k _ _; exact ⟨[], trivial, rfl, rfl, by simp [itemsExc, wl_nil]⟩
  | cons h1 _ ih2 =>
    intro k hb hk
    obtain ⟨a, a1, rfl, rfl, rfl⟩ := item_p hp ih hb hk h1
    obtain ⟨as, s1, rfl, rfl, rfl⟩ := ih2 _ (by simp at hb; omega) (tok_k hk rfl)
    refine ⟨a :: as, ⟨a1, s1⟩, by simp [itemsText], by simp [itemsAt], ?_⟩
    simp only [itemsExc, wl_append, List.append_assoc]

theorem collectBOPs_at (ign : Bool) (is : List CItem) : ∀ k,
    collectBOPs ((itemsAt ign pos k is).map bopVal) = some (itemsAt ign pos k is) := by
  induction is with
  | nil => intro k; rfl
  | cons i is ih =>
    intro k
    rw [itemsAt, List.map_cons, collectBOPs, ih]
    cases i <;> rfl

theorem branchOrPlugins_at (ign : Bool) (is : List CItem) (k : Nat) :
    branchOrPlugins (.list ((itemsAt ign pos k is).map bopVal)) = itemsAt ign pos k is := by
  unfold branchOrPlugins
  simp only [toIfaceSlice, collectBOPs_at, Option.getD_some]

/-- Soundness of the rule `ifCond`. -/
theorem if_p (hp : PosFn pf pos D) {n : Nat} (ih : ∀ b, b.length < n → BopP o pf pos D b) {k : Nat} {b : Bytes}
    {ws : List Bytes} {v : Val} {b' : Bytes} {ws' : List Bytes} (hb : b.length ≤ n) (hk : k + b.length = D)
    (h : RunsP o pf G.ifCond b ws v b' ws') : ∃ (g1 : Gap) (c : CCond) (g2 : Gap) (is : List CItem) (ft : Gap),
      g1.Ok ∧ c.Ok ∧ g2.Ok ∧ itemsOk is ∧ ft.Ok ∧
      b = b!"if" ++ g1.text ++ c.text ++ g2.text ++ b!"{" ++ itemsText is ++ ft.text ++ b!"}" ++ b' ∧
      v = .ifBlock (pos k) (c.astAt o.ignoreComments pos (k + 2 + g1.text.length))
        (itemsAt o.ignoreComments pos (k + 2 + g1.text.length + c.text.length + g2.text.length + 1) is) []
        (ft.block o.ignoreComments false false) ∧
      ws' = ws ++ wl o pos ([(k + 2, g1)] ++ c.exc (k + 2 + g1.text.length) ++
        [(k + 2 + g1.text.length + c.text.length, g2)] ++
        itemsExc (k + 2 + g1.text.length + c.text.length + g2.text.length + 1) is) := by
  obtain ⟨f, h⟩ := h
  simp (discharger := decide) only [G.ifCond, block_eq, action_rp, seq_rp, rseq_cons, rseq_gw, rseq_nil, labeled_rp, ref_rp, tok_rp,
    close_rp, runsP_ref, gram] at h
  obtain ⟨v0, ⟨vs, ⟨v1, b1, f1, w1, vs1, ⟨h0, rfl, rfl, rfl⟩, ⟨v2, vs2, -, ⟨v3, b3, f3, w3, vs3, ⟨h1, rfl⟩,
    ⟨v4, vs4, -, ⟨v5, b5, f5, w5, vs5, ⟨h2, rfl, rfl, rfl⟩, ⟨v6, b6, f6, w6, vs6, ⟨h3, rfl⟩,
    ⟨v7, b7, f7, w7, vs7, ⟨h7, rfl⟩, ⟨v8, b8, f8, w8, vs8, ⟨h4, rfl, rfl, rfl⟩, ⟨rfl, rfl, rfl, rfl⟩, rfl⟩, rfl⟩, rfl⟩, rfl⟩, rfl⟩,
    rfl⟩, rfl⟩, rfl⟩, rfl⟩, h5⟩ := h
  obtain ⟨rfl, rfl, rfl⟩ := gap_p h7
  have hk1 := tok_k hk h0
  have hk2 := gap_k hk1
  rw [warnOf_wl hp hk1] at h1
  obtain ⟨c, c1, c2, rfl, rfl⟩ := condition_p' hp _ _ _ _ _ _ hk2 h1
  have hk3 := tok_k hk2 c2
  have hk4 := gap_k hk3
  have hk5 := tok_k hk4 h2
  rw [warnOf_wl hp hk3] at h3
  obtain ⟨e1, e2⟩ := gap_split c2 (cond_text_ne c1)
  obtain ⟨e3, e4⟩ := gap_split h2 (by simp)
  obtain ⟨vs, rfl, h6⟩ := star_steps h3
  obtain ⟨is, s1, s2, rfl, rfl⟩ := items_p hp ih h6 _ (by simp at hk5; omega) hk5
  obtain ⟨e5, e6⟩ := gap_split h4 (by simp)
  refine ⟨_, c, _, is, _, e1, c1, e3, s1, e5, ?_, ?_, ?_⟩
  · conv => lhs; rw [h0, e2, e4, s2, e6]
    simp
  · simp only [runAct, Frame.get, if_true, reduceCtorEq, if_false, block_gap, branchOrPlugins_at] at h5
    injection h5 with h5
    rw [← h5, hp _ _ hk]; rfl
  · simp only [wl_append, List.append_assoc]; rfl

/-- Soundness of the rule `elseIf`. -/
theorem elseIf_p (hp : PosFn pf pos D) {n : Nat} (ih : ∀ b, b.length < n → BopP o pf pos D b) {k : Nat} {b : Bytes}
    {ws : List Bytes} {v : Val} {b' : Bytes} {ws' : List Bytes} (hb : b.length ≤ n) (hk : k + b.length = D)
    (h : RunsP o pf G.elseIf b ws v b' ws') : ∃ (g0 g1 : Gap) (c : CCond) (g2 : Gap) (is : List CItem) (ft : Gap),
      g0.Ok ∧ g1.Ok ∧ c.Ok ∧ g2.Ok ∧ itemsOk is ∧ ft.Ok ∧
      b = b!"else" ++ g0.text ++ b!"if" ++ g1.text ++ c.text ++ g2.text ++ b!"{" ++ itemsText is ++ ft.text ++ b!"}" ++ b' ∧
      v = .elif (.mk (pos k) (c.astAt o.ignoreComments pos (k + 4 + g0.text.length + 2 + g1.text.length))
        (itemsAt o.ignoreComments pos (k + 4 + g0.text.length + 2 + g1.text.length + c.text.length + g2.text.length + 1) is) []
        (ft.block o.ignoreComments false false)) ∧
      ws' = ws ++ wl o pos ([(k + 4, g0), (k + 4 + g0.text.length + 2, g1)] ++
        c.exc (k + 4 + g0.text.length + 2 + g1.text.length) ++
        [(k + 4 + g0.text.length + 2 + g1.text.length + c.text.length, g2)] ++
        itemsExc (k + 4 + g0.text.length + 2 + g1.text.length + c.text.length + g2.text.length + 1) is) := by
  obtain ⟨f, h⟩ := h
  simp (discharger := decide) only [G.elseIf, block_eq, action_rp, seq_rp, rseq_cons, rseq_gw, rseq_nil, labeled_rp, ref_rp, tok_rp,
    close_rp, runsP_ref, gram] at h
  obtain ⟨v0, ⟨vs, ⟨u1, c1, q1, x1, us1, ⟨ha, rfl, rfl, rfl⟩, ⟨u2, us2, -, ⟨v1, b1, f1, w1, vs1, ⟨h0, rfl, rfl, rfl⟩, ⟨v2, vs2, -, ⟨v3, b3, f3, w3, vs3, ⟨h1, rfl⟩,
    ⟨v4, vs4, -, ⟨v5, b5, f5, w5, vs5, ⟨h2, rfl, rfl, rfl⟩, ⟨v6, b6, f6, w6, vs6, ⟨h3, rfl⟩,
    ⟨v7, b7, f7, w7, vs7, ⟨h7, rfl⟩, ⟨v8, b8, f8, w8, vs8, ⟨h4, rfl, rfl, rfl⟩, ⟨rfl, rfl, rfl, rfl⟩, rfl⟩, rfl⟩, rfl⟩, rfl⟩, rfl⟩,
    rfl⟩, rfl⟩, rfl⟩, rfl⟩, rfl⟩, rfl⟩, h5⟩ := h
  obtain ⟨rfl, rfl, rfl⟩ := gap_p h7
  have hka := tok_k hk ha
  have hkb := gap_k hka
  have hk1 := tok_k hkb h0
  have hk2 := gap_k hk1
  rw [warnOf_wl hp hka, warnOf_wl hp hk1] at h1
  obtain ⟨c, y1, c2, rfl, rfl⟩ := condition_p' hp _ _ _ _ _ _ hk2 h1
  have hk3 := tok_k hk2 c2
  have hk4 := gap_k hk3
  have hk5 := tok_k hk4 h2
  rw [warnOf_wl hp hk3] at h3
  obtain ⟨e7, e8⟩ := gap_split h0 (by simp)
  obtain ⟨e1, e2⟩ := gap_split c2 (cond_text_ne y1)
  obtain ⟨e3, e4⟩ := gap_split h2 (by simp)
  obtain ⟨vs, rfl, h6⟩ := star_steps h3
  obtain ⟨is, s1, s2, rfl, rfl⟩ := items_p hp ih h6 _ (by simp at hk5; omega) hk5
  obtain ⟨e5, e6⟩ := gap_split h4 (by simp)
  refine ⟨_, _, c, _, is, _, e7, e1, y1, e3, s1, e5, ?_, ?_, ?_⟩
  · conv => lhs; rw [ha, e8, e2, e4, s2, e6]
    simp
  · simp only [runAct, Frame.get, if_true, reduceCtorEq, if_false, block_gap, branchOrPlugins_at] at h5
    injection h5 with h5
    rw [← h5, hp _ _ hk]; rfl
  · simp only [wl_append, wl_cons2, List.append_assoc]; rfl

/-- Soundness of the rule `elseCond`. -/
theorem else_p (hp : PosFn pf pos D) {n : Nat} (ih : ∀ b, b.length < n → BopP o pf pos D b) {k : Nat} {b : Bytes}
    {ws : List Bytes} {v : Val} {b' : Bytes} {ws' : List Bytes} (hb : b.length ≤ n) (hk : k + b.length = D)
    (h : RunsP o pf G.elseCond b ws v b' ws') : ∃ (g : Gap) (is : List CItem) (ft : Gap),
      g.Ok ∧ itemsOk is ∧ ft.Ok ∧
      b = b!"else" ++ g.text ++ b!"{" ++ itemsText is ++ ft.text ++ b!"}" ++ b' ∧
      v = .elseB (.mk (pos k) (itemsAt o.ignoreComments pos (k + 4 + g.text.length + 1) is) []
        (ft.block o.ignoreComments false false)) ∧
      ws' = ws ++ wl o pos ([(k + 4, g)] ++ itemsExc (k + 4 + g.text.length + 1) is) := by
  obtain ⟨f, h⟩ := h
  simp (discharger := decide) only [G.elseCond, block_eq, action_rp, seq_rp, rseq_cons, rseq_gw, rseq_nil, labeled_rp, ref_rp, tok_rp,
    close_rp, runsP_ref, gram] at h
  obtain ⟨v0, ⟨vs, ⟨v3, b3, f3, w3, vs3, ⟨h0, rfl, rfl, rfl⟩,
    ⟨v4, vs4, -, ⟨v5, b5, f5, w5, vs5, ⟨h2, rfl, rfl, rfl⟩, ⟨v6, b6, f6, w6, vs6, ⟨h3, rfl⟩,
    ⟨v7, b7, f7, w7, vs7, ⟨h7, rfl⟩, ⟨v8, b8, f8, w8, vs8, ⟨h4, rfl, rfl, rfl⟩, ⟨rfl, rfl, rfl, rfl⟩, rfl⟩, rfl⟩, rfl⟩, rfl⟩, rfl⟩,
    rfl⟩, rfl⟩, h5⟩ := h
  obtain ⟨rfl, rfl, rfl⟩ := gap_p h7
  have hk3 := tok_k hk h0
  have hk4 := gap_k hk3
  have hk5 := tok_k hk4 h2
  rw [warnOf_wl hp hk3] at h3
  obtain ⟨e3, e4⟩ := gap_split h2 (by simp)
  obtain ⟨vs, rfl, h6⟩ := star_steps h3
  obtain ⟨is, s1, s2, rfl, rfl⟩ := items_p hp ih h6 _ (by simp at hk5; omega) hk5
  obtain ⟨e5, e6⟩ := gap_split h4 (by simp)
  refine ⟨_, is, _, e3, s1, e5, ?_, ?_, ?_⟩
  · conv => lhs; rw [h0, e4, s2, e6]
    simp
  · simp only [runAct, Frame.get, if_true, reduceCtorEq, if_false, block_gap, branchOrPlugins_at] at h5
    injection h5 with h5
    rw [← h5, hp _ _ hk]; rfl
  · simp only [wl_append, List.append_assoc]; rfl

theorem elif_p (hp : PosFn pf pos D) {n : Nat} (ih : ∀ b, b.length < n → BopP o pf pos D b) {k : Nat} {b : Bytes}
    {ws : List Bytes} {v : Val} {b' : Bytes} {ws' : List Bytes} (hb : b.length ≤ n) (hk : k + b.length = D)
    (h : RunsP o pf elifEx b ws v b' ws') : ∃ e : CElif, elifsOk [e] ∧ b = elifsText [e] ++ b' ∧
      [v] = (elifsAt o.ignoreComments pos k [e]).map Val.elif ∧ ws' = ws ++ wl o pos (elifsExc k [e]) := by
  obtain ⟨f, h⟩ := h
  simp (discharger := decide) only [elifEx, action_rp, seq_rp, rseq_cons, rseq_nil, labeled_rp, ref_rp,
    runsP_ref, gram] at h
  obtain ⟨v0, ⟨vs, ⟨v1, b1, f1, w1, vs1, ⟨h0, rfl⟩, ⟨v2, b2, f2, w2, vs2, ⟨h1, rfl⟩, ⟨rfl, rfl, rfl, rfl⟩, rfl⟩, rfl⟩, rfl⟩, h2⟩ := h
  obtain ⟨rfl, rfl, rfl⟩ := gap_p h0
  obtain ⟨g0, g1, c, g2, is, ft, k0, k1, k2, k3, k4, k5, k6, rfl, rfl⟩ :=
    elseIf_p hp ih (by have := gapOf_length b; omega) (gap_k hk) h1
  have k6' : (gapOf b).2 = b!"else" ++ (g0.text ++ b!"if" ++ g1.text ++ c.text ++ g2.text ++ b!"{" ++ itemsText is ++ ft.text ++ b!"}" ++ b') := by
    rw [k6]; simp
  obtain ⟨e1, e2⟩ := gap_split k6' (by simp)
  refine ⟨.mk _ g0 g1 c g2 is ft, ⟨e1, k0, k1, k2, k3, k4, k5, trivial⟩, ?_, ?_, ?_⟩
  · conv => lhs; rw [e2]
    simp [elifsText]
  · simp only [runAct, Frame.get, if_true, reduceCtorEq, if_false, block_gap] at h2
    injection h2 with h2
    rw [← h2]
    simp [elifsAt]
  · simp [elifsExc]

theorem elifsAt_append (ign : Bool) (k : Nat) (a : CElif) (as : List CElif) :
    elifsAt ign pos k (a :: as) = elifsAt ign pos k [a] ++ elifsAt ign pos (k + (elifsText [a]).length) as := by
  cases a; simp [elifsAt, elifsText]; offs
theorem elifsExc_append (k : Nat) (a : CElif) (as : List CElif) :
    elifsExc k (a :: as) = elifsExc k [a] ++ elifsExc (k + (elifsText [a]).length) as := by
  cases a; simp [elifsExc, elifsText]; offs

theorem elifs_p (hp : PosFn pf pos D) {n : Nat} (ih : ∀ b, b.length < n → BopP o pf pos D b) {b : Bytes}
    {ws : List Bytes} {vs : List Val} {b' : Bytes} {ws' : List Bytes} (h : StepsP o pf elifEx b ws vs b' ws') :
    ∀ k, b.length ≤ n → k + b.length = D → ∃ as : List CElif, elifsOk as ∧
      b = elifsText as ++ b' ∧ vs = (elifsAt o.ignoreComments pos k as).map Val.elif ∧
      ws' = ws ++ wl o pos (elifsExc k as) := by
  induction h with
  | nil => intro k _ _; exact ⟨[], trivial, rfl, rfl, by simp [elifsExc, wl_nil]⟩
  | cons h1 _ ih2 =>
    intro k hb hk
    obtain ⟨a, a1, rfl, a3, rfl⟩ := elif_p hp ih hb hk h1
    obtain ⟨as, s1, rfl, rfl, rfl⟩ := ih2 _ (by simp at hb; omega) (tok_k hk rfl)
    refine ⟨a :: as, (elifsOk_append a as).2 ⟨a1, s1⟩, ?_, ?_, ?_⟩
    · rw [elifsText_append a as, List.append_assoc]
    · rw [elifsAt_append, List.map_append, ← a3]; rfl
    · simp only [elifsExc_append k a as, wl_append, List.append_assoc]

theorem elseEx_p (hp : PosFn pf pos D) {n : Nat} (ih : ∀ b, b.length < n → BopP o pf pos D b) {k : Nat} {b : Bytes}
    {ws : List Bytes} {v : Val} {b' : Bytes} {ws' : List Bytes} (hb : b.length ≤ n) (hk : k + b.length = D)
    (h : RunsP o pf elseEx b ws v b' ws') : ∃ e : CElse, e.Ok ∧ b = e.text ++ b' ∧
      v = .elseB (e.astAt o.ignoreComments pos k) ∧ ws' = ws ++ wl o pos (e.exc k) := by
  obtain ⟨f, h⟩ := h
  simp (discharger := decide) only [elseEx, action_rp, seq_rp, rseq_cons, rseq_nil, labeled_rp, ref_rp,
    runsP_ref, gram] at h
  obtain ⟨v0, ⟨vs, ⟨v1, b1, f1, w1, vs1, ⟨h0, rfl⟩, ⟨v2, b2, f2, w2, vs2, ⟨h1, rfl⟩, ⟨rfl, rfl, rfl, rfl⟩, rfl⟩, rfl⟩, rfl⟩, h2⟩ := h
  obtain ⟨rfl, rfl, rfl⟩ := gap_p h0
  obtain ⟨g0, is, ft, k0, k4, k5, k6, rfl, rfl⟩ := else_p hp ih (by have := gapOf_length b; omega) (gap_k hk) h1
  have k6' : (gapOf b).2 = b!"else" ++ (g0.text ++ b!"{" ++ itemsText is ++ ft.text ++ b!"}" ++ b') := by
    rw [k6]; simp
  obtain ⟨e1, e2⟩ := gap_split k6' (by simp)
  refine ⟨.mk _ g0 is ft, ⟨e1, k0, k4, k5⟩, ?_, ?_, ?_⟩
  · conv => lhs; rw [e2]
    simp [CElse.text]
  · simp only [runAct, Frame.get, if_true, reduceCtorEq, if_false, block_gap] at h2
    injection h2 with h2
    rw [← h2]
    simp [CElse.astAt]
  · simp [CElse.exc]

/-- The optional else block. -/
theorem elseOpt_p (hp : PosFn pf pos D) {n : Nat} (ih : ∀ b, b.length < n → BopP o pf pos D b) {k : Nat} {b : Bytes}
    {ws : List Bytes} {v : Val} {b' : Bytes} {ws' : List Bytes} (hb : b.length ≤ n) (hk : k + b.length = D)
    (h : RunsP o pf (.opt elseEx) b ws v b' ws') : ∃ e : CElse, e.Ok ∧ b = e.text ++ b' ∧
      ((v = .nil ∧ e = .none) ∨ v = .elseB (e.astAt o.ignoreComments pos k)) ∧ ws' = ws ++ wl o pos (e.exc k) := by
  rcases runsP_opt.1 h with h6 | ⟨_, rfl, rfl, rfl⟩
  · obtain ⟨e, t1, t2, rfl, t3⟩ := elseEx_p hp ih hb hk h6
    exact ⟨e, t1, t2, .inr rfl, t3⟩
  · exact ⟨.none, trivial, rfl, .inl ⟨rfl, rfl⟩, by simp [CElse.exc, wl_nil]⟩

/-- Soundness of the rule `branch`. -/
theorem branch_p (hp : PosFn pf pos D) {n : Nat} (ih : ∀ b, b.length < n → BopP o pf pos D b) {k : Nat} {b : Bytes}
    {ws : List Bytes} {v : Val} {b' : Bytes} {ws' : List Bytes} (hb : b.length ≤ n) (hk : k + b.length = D)
    (h : RunsP o pf G.branch b ws v b' ws') : ∃ i : CItem, i.Ok ∧ b = i.text ++ b' ∧
    v = bopVal (i.astAt o.ignoreComments pos k) ∧ ws' = ws ++ wl o pos (i.exc k) ∧ i.com = (gapOf b).1 ∧ (gapOf b).2 ≠ [] := by
  obtain ⟨f, h⟩ := h
  simp (discharger := decide) only [G.branch, action_rp, seq_rp, rseq_cons, rseq_nil, labeled_rp, ref_rp,
    runsP_ref, gram] at h
  obtain ⟨v0, ⟨vs, ⟨v1, b1, f1, w1, vs1, ⟨h0, rfl⟩, ⟨v2, b2, f2, w2, vs2, ⟨h1, rfl⟩, ⟨v3, b3, f3, w3, vs3, ⟨h2, rfl⟩,
    ⟨v4, b4, f4, w4, vs4, ⟨h3, rfl⟩, ⟨rfl, rfl, rfl, rfl⟩, rfl⟩, rfl⟩, rfl⟩, rfl⟩, rfl⟩, h4⟩ := h
  obtain ⟨rfl, rfl, rfl⟩ := gap_p h0
  obtain ⟨g1, c, g2, is, ft, k1, k2, k3, k4, k5, k6, rfl, rfl⟩ :=
    if_p hp ih (by have := gapOf_length b; omega) (gap_k hk) h1
  have k6' : (gapOf b).2 = b!"if" ++ (g1.text ++ c.text ++ g2.text ++ b!"{" ++ itemsText is ++ ft.text ++ b!"}" ++ b2) := by
    rw [k6]; simp
  obtain ⟨e1, e2⟩ := gap_split k6' (by simp)
  have hk2 := tok_k (gap_k hk) k6
  have hl2 : b2.length ≤ n := by omega
  obtain ⟨vs, rfl, h5⟩ := star_steps h2
  obtain ⟨es, s1, s2, rfl, rfl⟩ := elifs_p hp ih h5 _ hl2 hk2
  have hk3 := tok_k hk2 s2
  obtain ⟨el, t1, t2, t3, rfl⟩ := elseOpt_p hp ih (by omega) hk3 h3
  have hlen : k + (gapOf b).1.text.length + (b!"if" ++ g1.text ++ c.text ++ g2.text ++ b!"{" ++ itemsText is ++ ft.text ++ b!"}").length =
    k + (gapOf b).1.text.length + 2 + g1.text.length + c.text.length + g2.text.length + 1 + (itemsText is).length + ft.text.length + 1 := by
    simp; omega
  rw [hlen] at t3
  rw [hlen] at h4
  rw [hlen]
  refine ⟨.branch _ g1 c g2 is ft es el, ⟨e1, k1, k2, k3, k4, k5, s1, t1⟩, ?_, ?_, ?_, rfl, ?_⟩
  · conv => lhs; rw [e2, s2, t2]
    simp [CItem.text]
  · simp only [runAct, Frame.get, if_true, reduceCtorEq, if_false, toIfaceSlice, collectElifs_elif, block_gap] at h4
    rcases t3 with ⟨rfl, rfl⟩ | rfl <;> simp only at h4 <;> injection h4 with h4 <;> rw [← h4] <;>
      simp [CItem.astAt, bopVal, CElse.astAt, ElseB.zero]
  · simp only [CItem.exc, wl_append, List.append_assoc]
  · rw [k6']; simp

theorem plugin_p' (hp : PosFn pf pos D) {k : Nat} {b : Bytes}
    {ws : List Bytes} {v : Val} {b' : Bytes} {ws' : List Bytes} (hk : k + b.length = D)
    (h : RunsP o pf G.plugin b ws v b' ws') : ∃ p : CPlugin, p.Ok ∧ (gapOf b).1.Ok ∧ b = (gapOf b).1.text ++ (p.text ++ b') ∧
      (gapOf b).2 = p.text ++ b' ∧
      v = .plugin (p.astAt o.ignoreComments pos (k + (gapOf b).1.text.length) ((gapOf b).1.block o.ignoreComments false false)) ∧
      ws' = ws ++ wl o pos (p.exc (k + (gapOf b).1.text.length)) :=
  plugin_p hp (n := b.length) (value_p hp _) (Nat.le_refl _) hk h

/-- Soundness of the rule `branchOrPlugin`. -/
theorem bop_p (hp : PosFn pf pos D) (n : Nat) : ∀ b, b.length < n → BopP o pf pos D b := by
  induction n with
  | zero => intro b hb; omega
  | succ n ih =>
    intro b hb k ws v b' ws' hk h
    have hb : b.length ≤ n := by omega
    obtain ⟨f, h⟩ := h
    simp only [G.branchOrPlugin, choice_rp, choice_nil_rp, and_false, or_false, runsP_ref, gram] at h
    rcases h with ⟨h, _⟩ | ⟨_, h, _⟩
    · exact branch_p hp ih hb hk h
    · obtain ⟨p, p1, p2, p3, p4, rfl, rfl⟩ := plugin_p' hp hk h
      obtain ⟨nm, g, as, ft⟩ := p
      refine ⟨.plugin _ _, ⟨p2, p1⟩, by simpa [CItem.text] using p3, rfl, rfl, rfl, ?_⟩
      rw [p4]
      simp [CPlugin.text]

theorem bop_p' (hp : PosFn pf pos D) (b : Bytes) : BopP o pf pos D b := bop_p hp (b.length + 1) b (Nat.lt_succ_self _)

/-! ### Sections and files -/

theorem secItems_p (hp : PosFn pf pos D) {b : Bytes}
    {ws : List Bytes} {vs : List Val} {b' : Bytes} {ws' : List Bytes} (h : StepsP o pf secItemEx b ws vs b' ws') :
    ∀ k, k + b.length = D → ∃ is : List CItem, itemsOk is ∧
      b = itemsText is ++ b' ∧ vs = (itemsAt o.ignoreComments pos k is).map bopVal ∧
      ws' = ws ++ wl o pos (itemsExc k is) := by
  induction h with
  | nil => intro k _; exact ⟨[], trivial, rfl, rfl, by simp [itemsExc, wl_nil]⟩
  | cons h1 _ ih2 =>
    intro k hk
    obtain ⟨f, h1⟩ := h1
    simp only [action_rp, labeled_rp, runsP_ref, gram] at h1
    obtain ⟨_, ⟨h1, rfl⟩, h2⟩ := h1
    simp only [runAct, Frame.get, if_true] at h2
    injection h2 with h2
    subst h2
    obtain ⟨a, a1, rfl, rfl, rfl, _⟩ := bop_p' hp _ _ _ _ _ _ hk h1
    obtain ⟨as, s1, rfl, rfl, rfl⟩ := ih2 _ (tok_k hk rfl)
    refine ⟨a :: as, ⟨a1, s1⟩, by simp [itemsText], by simp [itemsAt], ?_⟩
    simp only [itemsExc, wl_append, List.append_assoc]

/-- Soundness of the rule `pluginSection`. -/
theorem section_p (hp : PosFn pf pos D) {k : Nat} {b : Bytes}
    {ws : List Bytes} {v : Val} {b' : Bytes} {ws' : List Bytes} (hk : k + b.length = D)
    (h : RunsP o pf G.pluginSection b ws v b' ws') : ∃ (t : PluginType) (g : Gap)
    (is : List CItem) (ft : Gap), t ≠ .undefined ∧ g.Ok ∧ itemsOk is ∧ ft.Ok ∧
      b = ptypeText t ++ g.text ++ b!"{" ++ itemsText is ++ ft.text ++ b!"}" ++ b' ∧
      v = .sect ⟨pos k, t, itemsAt o.ignoreComments pos (k + (ptypeText t).length + g.text.length + 1) is, [],
        ft.block o.ignoreComments false false⟩ ∧
      ws' = ws ++ wl o pos ([(k + (ptypeText t).length, g)] ++ itemsExc (k + (ptypeText t).length + g.text.length + 1) is) := by
  obtain ⟨f, h⟩ := h
  simp (discharger := decide) only [G.pluginSection, action_rp, seq_rp, rseq_cons, rseq_gw, rseq_nil, labeled_rp, ref_rp, tok_rp,
    close_rp] at h
  obtain ⟨v0, ⟨vs, ⟨v3, b3, f3, w3, vs3, ⟨h1, rfl⟩,
    ⟨v4, vs4, -, ⟨v5, b5, f5, w5, vs5, ⟨h2, rfl, rfl, rfl⟩, ⟨v6, b6, f6, w6, vs6, ⟨h3, rfl⟩,
    ⟨v7, b7, f7, w7, vs7, ⟨h7, rfl⟩, ⟨v8, b8, f8, w8, vs8, ⟨h4, rfl, rfl, rfl⟩, ⟨rfl, rfl, rfl, rfl⟩, rfl⟩, rfl⟩, rfl⟩, rfl⟩, rfl⟩,
    rfl⟩, rfl⟩, h5⟩ := h
  obtain ⟨rfl, rfl, rfl⟩ := gap_p h7
  obtain ⟨t, t1, h0, rfl, rfl⟩ := ptype_p h1
  have hk3 := tok_k hk h0
  have hk4 := gap_k hk3
  have hk5 := tok_k hk4 h2
  rw [warnOf_wl hp hk3] at h3
  obtain ⟨e3, e4⟩ := gap_split h2 (by simp)
  obtain ⟨vs, rfl, h6⟩ := star_steps h3
  obtain ⟨is, s1, s2, rfl, rfl⟩ := secItems_p hp h6 _ hk5
  obtain ⟨e5, e6⟩ := gap_split h4 (by simp)
  refine ⟨t, _, is, _, t1, e3, s1, e5, ?_, ?_, ?_⟩
  · conv => lhs; rw [h0, e4, s2, e6]
    simp
  · simp only [runAct, Frame.get, if_true, reduceCtorEq, if_false, block_gap, toIfaceSlice, collectBOPs_at] at h5
    injection h5 with h5
    rw [← h5, hp _ _ hk]; rfl
  · simp only [wl_append, List.append_assoc]; rfl

theorem sec_p (hp : PosFn pf pos D) {k : Nat} {b : Bytes}
    {ws : List Bytes} {v : Val} {b' : Bytes} {ws' : List Bytes} (hk : k + b.length = D)
    (h : RunsP o pf secEx b ws v b' ws') : ∃ s : CSection, s.Ok ∧ b = s.text ++ b' ∧
      v = .sect (s.astAt o.ignoreComments pos k false) ∧ ws' = ws ++ wl o pos (s.exc k) := by
  obtain ⟨f, h⟩ := h
  simp (discharger := decide) only [secEx, action_rp, seq_rp, rseq_cons, rseq_nil, labeled_rp, ref_rp,
    runsP_ref, gram] at h
  obtain ⟨v0, ⟨vs, ⟨v1, b1, f1, w1, vs1, ⟨h0, rfl⟩, ⟨v2, b2, f2, w2, vs2, ⟨h1, rfl⟩, ⟨rfl, rfl, rfl, rfl⟩, rfl⟩, rfl⟩, rfl⟩, h2⟩ := h
  obtain ⟨rfl, rfl, rfl⟩ := gap_p h0
  obtain ⟨t, g, is, ft, k1, k2, k3, k4, k5, rfl, rfl⟩ := section_p hp (gap_k hk) h1
  have k5' : (gapOf b).2 = ptypeText t ++ (g.text ++ b!"{" ++ itemsText is ++ ft.text ++ b!"}" ++ b') := by
    rw [k5]; simp
  obtain ⟨e1, e2⟩ := gap_split k5' (ptypeText_ne k1)
  refine ⟨⟨(gapOf b).1, t, g, is, ft⟩, ⟨e1, k1, k2, k3, k4⟩, ?_, ?_, rfl⟩
  · conv => lhs; rw [e2]
    simp [CSection.text]
  · simp only [runAct, Frame.get, if_true, reduceCtorEq, if_false, block_gap] at h2
    injection h2 with h2
    exact h2.symm

theorem secs_p (hp : PosFn pf pos D) {b : Bytes}
    {ws : List Bytes} {vs : List Val} {b' : Bytes} {ws' : List Bytes} (h : StepsP o pf secEx b ws vs b' ws') :
    ∀ k, k + b.length = D → ∃ ss : List CSection, (∀ s ∈ ss, s.Ok) ∧
      b = ss.flatMap CSection.text ++ b' ∧ vs = (sectionsAt o.ignoreComments pos k ss).map Val.sect ∧
      ws' = ws ++ wl o pos (sectionsExc k ss) := by
  induction h with
  | nil => intro k _; exact ⟨[], by simp, rfl, rfl, by simp [sectionsExc, wl_nil]⟩
  | cons h1 _ ih2 =>
    intro k hk
    obtain ⟨a, a1, rfl, rfl, rfl⟩ := sec_p hp hk h1
    obtain ⟨as, s1, rfl, rfl, rfl⟩ := ih2 _ (tok_k hk rfl)
    exact ⟨a :: as, by simpa using ⟨a1, s1⟩, by simp, by simp [sectionsAt],
      by simp only [sectionsExc, wl_append, List.append_assoc]⟩

theorem sectionsAt_ptype {ign : Bool} : ∀ {ss : List CSection} {k : Nat}, (∀ s ∈ ss, s.Ok) →
    ∀ x ∈ sectionsAt ign pos k ss, x.ptype ≠ .undefined
  | [], _, _, x, hx => by simp [sectionsAt] at hx
  | s :: ss, k, h, x, hx => by
    simp only [sectionsAt, List.mem_cons] at hx
    rcases hx with rfl | hx
    · exact (h s (by simp)).2.1
    · exact sectionsAt_ptype (fun y hy => h y (by simp [hy])) x hx

theorem eof_rp {b fr ws v b' fr' ws'} (h : RP o pf G.eof b fr ws v b' fr' ws') : b = [] ∧ b' = [] ∧ fr' = fr ∧ ws' = ws := by
  have h1 := h.run
  rw [run_eof] at h1
  obtain ⟨_, -, rfl, rfl, rfl⟩ := not_rp.1 h
  by_cases hb : b' = []
  · exact ⟨hb, hb, rfl, rfl⟩
  · simp [hb] at h1

/-- Soundness of the rule `config`; the warnings are those collected so far. -/
theorem config_p (hp : PosFn pf pos D) {b : Bytes}
    {v : Val} {b' : Bytes} {ws' : List Bytes} (hk : 0 + b.length = D)
    (h : RunsP o pf G.config b [] v b' ws') : b' = [] ∧ ∃ (s : CSection) (ss : List CSection)
    (ft : Gap), (CFile.config s ss ft).Ok ∧ b = (CFile.config s ss ft).text ∧
      v = .config { (CFile.config s ss ft).astAt o.ignoreComments o.excWarn pos with warnings := [] } ∧
      ws' = wl o pos (CFile.config s ss ft).exc := by
  obtain ⟨f, h⟩ := h
  simp (discharger := decide) only [G.config, action_rp, seq_rp, rseq_cons, rseq_nil, labeled_rp, ref_rp,
    runsP_ref, gram] at h
  obtain ⟨v0, ⟨vs, ⟨v1, b1, f1, w1, vs1, ⟨h0, rfl⟩, ⟨v2, b2, f2, w2, vs2, ⟨h1, rfl⟩, ⟨v3, b3, f3, w3, vs3, ⟨h2, rfl⟩,
    ⟨v4, b4, f4, w4, vs4, ⟨h7, rfl⟩, ⟨v5, b5, f5, w5, vs5, h3, ⟨rfl, rfl, rfl, rfl⟩, rfl⟩, rfl⟩, rfl⟩, rfl⟩, rfl⟩, rfl⟩, h4⟩ := h
  obtain ⟨rfl, rfl, rfl⟩ := gap_p h0
  obtain ⟨rfl, rfl, rfl⟩ := gap_p h7
  obtain ⟨hn, rfl, rfl, rfl⟩ := eof_rp h3
  obtain ⟨t, g, is, ft, k1, k2, k3, k4, k5, rfl, rfl⟩ := section_p hp (gap_k hk) h1
  have k5' : (gapOf b).2 = ptypeText t ++ (g.text ++ b!"{" ++ itemsText is ++ ft.text ++ b!"}" ++ b2) := by
    rw [k5]; simp
  obtain ⟨e1, e2⟩ := gap_split k5' (ptypeText_ne k1)
  obtain ⟨vs, rfl, h5⟩ := star_steps h2
  have hk2 := tok_k (gap_k hk) k5
  obtain ⟨ss, s1, s2, rfl, rfl⟩ := secs_p hp h5 _ hk2
  have hft : (gapOf b3).1.OkEnd := by
    rcases (gapOf_spec b3).2.2.2 with h | h
    · exact .inl h
    · exact h.1
  have hb3 := (gapOf_spec b3).1
  rw [hn, List.append_nil] at hb3
  have hlen : 0 + (gapOf b).1.text.length + (ptypeText t ++ g.text ++ b!"{" ++ itemsText is ++ ft.text ++ b!"}").length =
      (CSection.text ⟨(gapOf b).1, t, g, is, ft⟩).length := by
    simp [CSection.text]
  rw [hlen] at h4 ⊢
  refine ⟨rfl, ⟨(gapOf b).1, t, g, is, ft⟩, ss, (gapOf b3).1, ⟨⟨e1, k1, k2, k3, k4⟩, s1, hft⟩, ?_, ?_, ?_⟩
  · conv => lhs; rw [e2, s2, hb3]
    simp [CFile.text, CSection.text]
  · simp only [runAct, Frame.get, if_true, reduceCtorEq, if_false, block_gap, toIfaceSlice] at h4
    rw [show ∀ (x : Section) (l : List Section), [Val.sect x] ++ l.map Val.sect = (x :: l).map Val.sect from fun _ _ => rfl] at h4
    have hq := sectionsAt_ptype (ign := o.ignoreComments) (pos := pos) (k := (CSection.text ⟨(gapOf b).1, t, g, is, ft⟩).length) s1
    rw [configLoop_first _ _ _ _ (by simpa using ⟨k1, hq⟩), configLoop_rest _ _ _ (by simpa using ⟨k1, hq⟩)] at h4
    simp only at h4
    injection h4 with h4
    rw [← h4]
    simp [CFile.astAt, CFile.sectionsAt, Config.empty, CSection.astAt]
  · simp only [CFile.exc, sectionsExc, CSection.exc, wl_append, List.append_assoc, Nat.zero_add, List.nil_append]

/-- Soundness of the rule `init`. -/
theorem init_p (hp : PosFn pf pos D) {b : Bytes} {v : Val} {b' : Bytes} {ws' : List Bytes} (hk : 0 + b.length = D)
    (h : RunsP o pf G.init b [] v b' ws') : b' = [] ∧ ∃ k : CFile, k.Ok ∧ b = k.text ∧
      v = .config (k.astAt o.ignoreComments o.excWarn pos) := by
  obtain ⟨f, h⟩ := h
  simp (discharger := decide) only [G.init, action_rp, seq_rp, rseq_cons, rseq_nil, labeled_rp] at h
  obtain ⟨v0, ⟨vs, ⟨v1, b1, f1, w1, vs1, hs, ⟨v2, b2, f2, w2, vs2, hi, ⟨v3, b3, f3, w3, vs3, ⟨h1, rfl⟩,
    ⟨rfl, rfl, rfl, rfl⟩, rfl⟩, rfl⟩, rfl⟩, rfl⟩, h2⟩ := h
  obtain ⟨rfl, rfl, rfl⟩ : b1 = b ∧ f1 = [] ∧ w1 = [] := by
    cases hs with
    | initState => exact ⟨rfl, rfl, rfl⟩
    | term h => cases h
  obtain ⟨rfl, rfl, rfl⟩ : b2 = b1 ∧ f2 = [] ∧ w2 = [] := by
    cases hi with
    | initParser => exact ⟨rfl, rfl, rfl⟩
    | term h => cases h
  obtain ⟨fc, h1⟩ := h1
  simp only [choice_rp, choice_nil_rp, and_false, or_false] at h1
  rcases h1 with ⟨⟨f5, h1⟩, _⟩ | ⟨_, ⟨f5, h1⟩, _⟩
  · simp (discharger := decide) only [action_rp, seq_rp, rseq_cons, rseq_nil, labeled_rp, runsP_ref, gram] at h1
    obtain ⟨w0, ⟨us, ⟨w1, c1, g1, x1, us1, ⟨h3, rfl⟩, ⟨w2, c2, g2, x2, us2, h4, ⟨rfl, rfl, rfl, rfl⟩, rfl⟩, rfl⟩, rfl⟩, h5⟩ := h1
    obtain ⟨rfl, s, ss, ft, k1, k2, rfl, rfl⟩ := config_p hp hk h3
    obtain ⟨-, rfl, rfl, rfl⟩ := eof_rp h4
    simp only [runAct, Frame.get, if_true] at h5
    injection h5 with h5
    subst h5
    simp only [runAct, Frame.get, if_true] at h2
    injection h2 with h2
    exact ⟨rfl, _, k1, k2, h2.symm⟩
  · simp (discharger := decide) only [action_rp, seq_rp, rseq_cons, rseq_nil, labeled_rp] at h1
    obtain ⟨w0, ⟨us, ⟨w1, c1, g1, x1, us1, h3, ⟨w2, c2, g2, x2, us2, h4, ⟨rfl, rfl, rfl, rfl⟩, rfl⟩, rfl⟩, rfl⟩, h5⟩ := h1
    obtain ⟨hn, rfl, rfl, rfl⟩ := eof_rp h4
    obtain ⟨-, rfl, -⟩ := gap_ok.1 h3.run
    have hq : ws' = [] := h3.quiet (by decide)
    subst hq
    simp only [runAct] at h5
    injection h5 with h5
    subst h5
    simp only [runAct, Frame.get, if_true] at h2
    injection h2 with h2
    have hft : (gapOf b2).1.OkEnd := by
      rcases (gapOf_spec b2).2.2.2 with h | h
      · exact .inl h
      · exact h.1
    have hb3 := (gapOf_spec b2).1
    rw [hn, List.append_nil] at hb3
    exact ⟨rfl, .empty (gapOf b2).1, hft, hb3, by rw [← h2]; simp [CFile.astAt, CFile.sectionsAt, CFile.exc, wl_nil, Config.empty]⟩

end
end Verif
