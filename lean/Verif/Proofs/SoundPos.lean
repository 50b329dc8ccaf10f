import Verif.Proofs.SoundPosTok
/-
Soundness of the grammar with positions and warnings: values, plugins.
-/
namespace Verif
open Spec

section
variable {o : Opts} {pf : Bytes → Pos} {pos : Nat → Pos} {D : Nat}

/-- Close a goal by equality of offsets. -/
macro "offs" : tactic => `(tactic| first | done | (congr 1; omega) | (congr 2; omega) | (congr 3; omega) |
  (repeat' (first | rfl | omega | congr 1)))

/-- The parser's value for a value at offset `k`. -/
def cvalAt (ign : Bool) (pos : Nat → Pos) (k : Nat) : CVal → Val
  | .plug p => .plugin (p.astAt ign pos k [])
  | v => .attr (v.astAt ign pos k)

/-- Soundness of the rule `value` on an input. -/
def ValueP (o : Opts) (pf : Bytes → Pos) (pos : Nat → Pos) (D : Nat) (b : Bytes) : Prop :=
  ∀ k ws v b' ws', Stop b → k + b.length = D → RunsP o pf G.value b ws v b' ws' →
    ∃ c : CVal, c.Ok ∧ b = c.text ++ b' ∧ v = cvalAt o.ignoreComments pos k c ∧ ws' = ws ++ wl o pos (c.exc k)

theorem strLit_valueStrAt {s : StrLit} (h : s.Name) (p : Pos) : StrAttr.valueStr (s.astAt p) = s.text := by
  rw [← strLit_valueStr h]; rfl

theorem attribute_cvalAt {ign : Bool} {nm : StrLit} (hn : nm.Name) (c : CVal) (p q : Pos) (k : Nat) :
    attributeAction q (.attr (.str (nm.astAt p))) (cvalAt ign pos k c) =
      .val (.attr (withNameAt q nm.text (c.astAt ign pos k))) := by
  have h := strLit_valueStrAt hn p
  cases c <;> simp [attributeAction, cvalAt, withNameAt, CVal.astAt, h] <;> simp [StrLit.astAt, numAst]

/-- Soundness of the rule `attribute`. -/
theorem attr_p (hp : PosFn pf pos D) {n : Nat} (ih : ∀ b, b.length < n → ValueP o pf pos D b) {k : Nat} {b : Bytes}
    {ws : List Bytes} {v : Val} {b' : Bytes} {ws' : List Bytes} (hb : b.length ≤ n) (hk : k + b.length = D)
    (h : RunsP o pf G.attr b ws v b' ws') : ∃ (nm : StrLit) (g1 g2 : Gap) (c : CVal), nm.Name ∧ g1.Ok ∧ g2.Ok ∧ c.Ok ∧
      b = nm.text ++ g1.text ++ b!"=>" ++ g2.text ++ c.text ++ b' ∧
      v = .attr (withNameAt (pos k) nm.text
        (c.astAt o.ignoreComments pos (k + nm.text.length + g1.text.length + 2 + g2.text.length))) ∧
      ws' = ws ++ wl o pos ([(k + nm.text.length, g1), (k + nm.text.length + g1.text.length + 2, g2)] ++
        c.exc (k + nm.text.length + g1.text.length + 2 + g2.text.length)) := by
  obtain ⟨f, h⟩ := h
  simp (discharger := decide) only [G.attr, action_rp, seq_rp, rseq_cons, rseq_gw, rseq_nil, labeled_rp, ref_rp, tok_rp,
    runsP_ref, gram] at h
  obtain ⟨v0, ⟨vs, ⟨v1, b1, f1, w1, vs1, ⟨h1, rfl⟩, ⟨v2, vs2, -, ⟨v3, b3, f3, w3, vs3, ⟨h2, rfl, rfl, rfl⟩,
    ⟨v4, vs4, -, ⟨v5, b5, f5, w5, vs5, ⟨h3, rfl⟩, ⟨rfl, rfl, rfl, rfl⟩, rfl⟩, rfl⟩, rfl⟩, rfl⟩, rfl⟩, rfl⟩, h4⟩ := h
  obtain ⟨nm, k1, rfl, rfl, rfl⟩ := name_p hp hk h1
  have hk1 := tok_k hk rfl
  have hl := name_text_ne k1
  obtain ⟨g1, e1⟩ := gap_split h2 (by simp)
  have hk2 := gap_k hk1
  have hk3 := tok_k hk2 h2
  have hk4 := gap_k hk3
  rw [warnOf_wl hp hk1, warnOf_wl hp hk3] at h3
  have hlen : (gapOf b3).2.length < n := by
    have : 0 < nm.text.length := List.length_pos_iff.2 hl
    simp at hb hk3 hk4 hk
    omega
  obtain ⟨c, c1, c2, rfl, rfl⟩ := ih _ hlen _ _ _ _ _ (gap_stop _) hk4 h3
  obtain ⟨g2, e2⟩ := gap_split c2 (cval_text_ne c1)
  refine ⟨nm, _, _, c, k1, g1, g2, c1, ?_, ?_, ?_⟩
  · generalize (gapOf b1).1 = ga at e1 ⊢
    generalize (gapOf b3).1 = gb at e2 ⊢
    rw [e1, e2]
    simp only [List.append_assoc]
  · simp only [runAct, Frame.get, if_true, reduceCtorEq, if_false] at h4
    rw [attribute_cvalAt k1, hp _ _ hk] at h4
    injection h4 with h4
    exact h4.symm
  · simp only [wl_append, wl_cons2, List.append_assoc]; rfl

theorem attributeComment_named {ign : Bool} (p : Pos) (nm : Bytes) (c : CVal) (cb : Val) (sb : Bool) (k : Nat) :
    attributeComment (.attr (withNameAt p nm (c.astAt ign pos k))) cb sb =
      some (withComment (commentBlock cb sb false) (withNameAt p nm (c.astAt ign pos k))) := by
  cases c <;> rfl

theorem attrStep_p (hp : PosFn pf pos D) {n : Nat} (ih : ∀ b, b.length < n → ValueP o pf pos D b) {k : Nat} {b : Bytes}
    {ws : List Bytes} {v : Val} {b' : Bytes} {ws' : List Bytes} (hb : b.length ≤ n) (hk : k + b.length = D)
    (h : RunsP o pf attrStepEx b ws v b' ws') : ∃ a : CAttr, attrsOk false [a] ∧ b = attrsText false [a] ++ b' ∧
      [v] = (attrsAt o.ignoreComments pos false k [a]).map Val.attr ∧ ws' = ws ++ wl o pos (attrsExc false k [a]) := by
  obtain ⟨f, h⟩ := h
  simp (discharger := decide) only [attrStepEx, action_rp, seq_rp, rseq_cons, rseq_gw, rseq_nil, labeled_rp, ref_rp, tok_rp,
    runsP_ref, gram] at h
  obtain ⟨v0, ⟨vs, ⟨v1, b1, f1, w1, vs1, h0, ⟨v2, b2, f2, w2, vs2, ⟨h1, rfl⟩, ⟨v3, b3, f3, w3, vs3, ⟨h2, rfl⟩,
    ⟨rfl, rfl, rfl, rfl⟩, rfl⟩, rfl⟩, rfl⟩, rfl⟩, h3⟩ := h
  obtain ⟨hw, rfl, rfl, rfl⟩ := ws_p h0
  obtain ⟨rfl, rfl, rfl⟩ := gap_p h1
  have hk1 : k + (b.takeWhile isWs).length + (b.dropWhile isWs).length = D := tok_k hk List.takeWhile_append_dropWhile.symm
  have hk2 := gap_k hk1
  have hlen : (gapOf (b.dropWhile isWs)).2.length ≤ n := by omega
  obtain ⟨nm, g1, g2, c, k1, k2, k3, k4, k5, rfl, rfl⟩ := attr_p hp ih hlen hk2 h2
  have k5' : (gapOf (b.dropWhile isWs)).2 = nm.text ++ (g1.text ++ b!"=>" ++ g2.text ++ c.text ++ b') := by
    rw [k5]; simp
  obtain ⟨e1, e2⟩ := gap_split k5' (name_text_ne k1)
  refine ⟨.mk (b.takeWhile isWs) _ nm g1 g2 c, ⟨fun _ => sepOk_gapOf b hw, e1, k1, k2, k3, k4, trivial⟩, ?_, ?_, ?_⟩
  · conv => lhs; rw [← List.takeWhile_append_dropWhile (p := isWs) (l := b), e2]
    simp [attrsText]
  · simp only [runAct, Frame.get, if_true, reduceCtorEq, if_false, attributeComment_named] at h3
    injection h3 with h3
    rw [← h3, block_gap]
    simp [attrsAt]
  · simp [attrsExc]

theorem attrsAt_append (ign : Bool) (k : Nat) (a : CAttr) (as : List CAttr) :
    attrsAt ign pos false k (a :: as) =
      attrsAt ign pos false k [a] ++ attrsAt ign pos false (k + (attrsText false [a]).length) as := by
  cases a; simp [attrsAt, attrsText]; offs
theorem attrsExc_append (k : Nat) (a : CAttr) (as : List CAttr) :
    attrsExc false k (a :: as) = attrsExc false k [a] ++ attrsExc false (k + (attrsText false [a]).length) as := by
  cases a; simp [attrsExc, attrsText]; offs

theorem attrSteps_p (hp : PosFn pf pos D) {n : Nat} (ih : ∀ b, b.length < n → ValueP o pf pos D b) {b : Bytes}
    {ws : List Bytes} {vs : List Val} {b' : Bytes} {ws' : List Bytes} (h : StepsP o pf attrStepEx b ws vs b' ws') :
    ∀ k, b.length ≤ n → k + b.length = D → ∃ as : List CAttr, attrsOk false as ∧
      b = attrsText false as ++ b' ∧ vs = (attrsAt o.ignoreComments pos false k as).map Val.attr ∧
      ws' = ws ++ wl o pos (attrsExc false k as) := by
  induction h with
  | nil => intro k _ _; exact ⟨[], trivial, rfl, rfl, by simp [attrsExc, wl_nil]⟩
  | cons h1 _ ih2 =>
    intro k hb hk
    obtain ⟨a, a1, rfl, a3, rfl⟩ := attrStep_p hp ih hb hk h1
    obtain ⟨as, s1, rfl, rfl, rfl⟩ := ih2 _ (by simp at hb; omega) (tok_k hk rfl)
    refine ⟨a :: as, (attrsOk_append a as).2 ⟨a1, s1⟩, ?_, ?_, ?_⟩
    · rw [attrsText_append a as, List.append_assoc]
    · rw [attrsAt_append, List.map_append, ← a3]; rfl
    · simp only [attrsExc_append k a as, wl_append, List.append_assoc]

theorem attrs_p (hp : PosFn pf pos D) {n : Nat} (ih : ∀ b, b.length < n → ValueP o pf pos D b) {k : Nat} {b : Bytes}
    {ws : List Bytes} {v : Val} {b' : Bytes} {ws' : List Bytes} (hb : b.length ≤ n) (hk : k + b.length = D)
    (h : RunsP o pf attrsEx b ws v b' ws') : ∃ as : List CAttr, attrsOk true as ∧ b = attrsText true as ++ b' ∧
      v = .attrs (attrsAt o.ignoreComments pos true k as) ∧ ws' = ws ++ wl o pos (attrsExc true k as) := by
  obtain ⟨f, h⟩ := h
  simp (discharger := decide) only [attrsEx, action_rp, seq_rp, rseq_cons, rseq_gw, rseq_nil, labeled_rp, ref_rp, tok_rp,
    runsP_ref, gram] at h
  obtain ⟨v0, ⟨vs, ⟨v2, b2, f2, w2, vs2, ⟨h1, rfl⟩, ⟨v3, b3, f3, w3, vs3, ⟨h2, rfl⟩,
    ⟨v4, b4, f4, w4, vs4, ⟨h3, rfl⟩, ⟨rfl, rfl, rfl, rfl⟩, rfl⟩, rfl⟩, rfl⟩, rfl⟩, h4⟩ := h
  obtain ⟨rfl, rfl, rfl⟩ := gap_p h1
  have hk1 := gap_k hk
  obtain ⟨nm, g1, g2, c, k1, k2, k3, k4, k5, rfl, rfl⟩ := attr_p hp ih (by omega) hk1 h2
  have k5' : (gapOf b).2 = nm.text ++ (g1.text ++ b!"=>" ++ g2.text ++ c.text ++ b3) := by
    rw [k5]; simp
  have hk2 := tok_k hk1 k5
  obtain ⟨e1, e2⟩ := gap_split k5' (name_text_ne k1)
  obtain ⟨vs, rfl, h5⟩ := star_steps h3
  obtain ⟨as, s1, s2, rfl, rfl⟩ := attrSteps_p hp ih h5 _ (by omega) hk2
  refine ⟨.mk [] _ nm g1 g2 c :: as, ⟨(fun h => nomatch h), e1, k1, k2, k3, k4, s1⟩, ?_, ?_, ?_⟩
  · conv => lhs; rw [e2, s2]
    simp [attrsText]
  · simp only [runAct, Frame.get, if_true, reduceCtorEq, if_false, attributeComment_named, toIfaceSlice] at h4
    rw [show ∀ (x : Attr) (l : List Attr), [Val.attr x] ++ l.map Val.attr = (x :: l).map Val.attr from fun _ _ => rfl,
      collectAttrs_attr] at h4
    simp only at h4
    injection h4 with h4
    rw [← h4, block_gap]
    simp [attrsAt]; offs
  · simp only [attrsExc, wl_append, List.append_assoc, if_true, Nat.add_zero]
    simp; offs

theorem attrsOpt_p (hp : PosFn pf pos D) {n : Nat} (ih : ∀ b, b.length < n → ValueP o pf pos D b) {k : Nat} {b : Bytes}
    {ws : List Bytes} {v : Val} {b' : Bytes} {ws' : List Bytes} (hb : b.length ≤ n) (hk : k + b.length = D)
    (h : RunsP o pf (.opt attrsEx) b ws v b' ws') : ∃ as : List CAttr, attrsOk true as ∧ b = attrsText true as ++ b' ∧
      (v = .attrs (attrsAt o.ignoreComments pos true k as) ∨ (v = .nil ∧ as = [])) ∧
      ws' = ws ++ wl o pos (attrsExc true k as) := by
  rcases runsP_opt.1 h with h6 | ⟨_, h6, rfl, rfl⟩
  · obtain ⟨as, s1, s2, s3, s4⟩ := attrs_p hp ih hb hk h6
    exact ⟨as, s1, s2, .inl s3, s4⟩
  · exact ⟨[], trivial, rfl, .inr ⟨h6, rfl⟩, by simp [attrsExc, wl_nil]⟩

/-- Soundness of the rule `plugin`. -/
theorem plugin_p (hp : PosFn pf pos D) {n : Nat} (ih : ∀ b, b.length < n → ValueP o pf pos D b) {k : Nat} {b : Bytes}
    {ws : List Bytes} {v : Val} {b' : Bytes} {ws' : List Bytes} (hb : b.length ≤ n) (hk : k + b.length = D)
    (h : RunsP o pf G.plugin b ws v b' ws') : ∃ p : CPlugin, p.Ok ∧ (gapOf b).1.Ok ∧ b = (gapOf b).1.text ++ (p.text ++ b') ∧
      (gapOf b).2 = p.text ++ b' ∧
      v = .plugin (p.astAt o.ignoreComments pos (k + (gapOf b).1.text.length) ((gapOf b).1.block o.ignoreComments false false)) ∧
      ws' = ws ++ wl o pos (p.exc (k + (gapOf b).1.text.length)) := by
  obtain ⟨f, h⟩ := h
  simp (discharger := decide) only [G.plugin, action_rp, seq_rp, rseq_cons, rseq_gw, rseq_nil, labeled_rp, ref_rp, tok_rp,
    close_rp] at h
  obtain ⟨v0, ⟨vs, ⟨v2, b2, f2, w2, vs2, ⟨h0, rfl⟩, ⟨v3, b3, f3, w3, vs3, ⟨h1, rfl⟩,
    ⟨v4, vs4, -, ⟨v5, b5, f5, w5, vs5, ⟨h2, rfl, rfl, rfl⟩, ⟨v6, b6, f6, w6, vs6, ⟨h3, rfl⟩, ⟨v7, b7, f7, w7, vs7, ⟨h7, rfl⟩,
    ⟨v8, b8, f8, w8, vs8, ⟨h4, rfl, rfl, rfl⟩, ⟨rfl, rfl, rfl, rfl⟩, rfl⟩, rfl⟩, rfl⟩, rfl⟩, rfl⟩, rfl⟩, rfl⟩, rfl⟩, h5⟩ := h
  obtain ⟨rfl, rfl, rfl⟩ := gap_p h0
  obtain ⟨rfl, rfl, rfl⟩ := gap_p h7
  have hk1 := gap_k hk
  obtain ⟨nm, k1, k2, rfl, rfl⟩ := name_p hp hk1 h1
  have hk2 := tok_k hk1 k2
  have hk3 := gap_k hk2
  have hk4 := tok_k hk3 h2
  obtain ⟨e1, e2⟩ := gap_split k2 (name_text_ne k1)
  obtain ⟨e3, e4⟩ := gap_split h2 (by simp)
  obtain ⟨e5, e6⟩ := gap_split h4 (by simp)
  rw [warnOf_wl hp hk2] at h3
  have hlen : b5.length ≤ n := by omega
  obtain ⟨as, s1, s2, s3, s4⟩ := attrsOpt_p hp ih hlen hk4 h3
  have htext : (gapOf b).2 = CPlugin.text (.mk nm (gapOf b3).1 as (gapOf b6).1) ++ b' := by
    rw [k2]
    conv => lhs; rw [e4, s2, e6]
    simp [CPlugin.text]
  refine ⟨.mk nm _ as _, ⟨k1, e3, s1, e5⟩, e1, ?_, htext, ?_, ?_⟩
  · conv => lhs; rw [(gapOf_spec b).1, htext]
  · simp only [runAct, Frame.get, if_true, reduceCtorEq, if_false] at h5
    rcases s3 with rfl | ⟨rfl, rfl⟩
    · simp only [strLit_valueStrAt k1, block_gap] at h5
      injection h5 with h5
      rw [← h5]; rfl
    · simp only [strLit_valueStrAt k1, block_gap] at h5
      injection h5 with h5
      rw [← h5]; rfl
  · rw [s4, List.append_assoc, ← wl_append]; rfl

/-! ### Arrays -/

theorem attributeComment_cvalAt {ign : Bool} (c : CVal) (cb : Val) (sb : Bool) (k : Nat) :
    attributeComment (cvalAt ign pos k c) cb sb =
      if c.isPlug then none else some (withComment (commentBlock cb sb false) (c.astAt ign pos k)) := by
  cases c <;> rfl

theorem elemStep_p (hp : PosFn pf pos D) {n : Nat} (ih : ∀ b, b.length < n → ValueP o pf pos D b) {k : Nat} {b : Bytes}
    {ws : List Bytes} {v : Val} {b' : Bytes} {ws' : List Bytes} (hb : b.length ≤ n) (hk : k + b.length = D)
    (h : RunsP o pf elemStepEx b ws v b' ws') : ∃ a : CElem, elemsOk false [a] ∧ b = elemsText false [a] ++ b' ∧
      [v] = (elemsAt o.ignoreComments pos false k [a]).map Val.attr ∧ ws' = ws ++ wl o pos (elemsExc false k [a]) := by
  obtain ⟨f, h⟩ := h
  simp (discharger := decide) only [elemStepEx, action_rp, seq_rp, rseq_cons, rseq_gw, rseq_nil, labeled_rp, ref_rp, tok_rp,
    runsP_ref, gram] at h
  obtain ⟨v0, ⟨vs, ⟨v1, vs1, -, ⟨v2, b2, f2, w2, vs2, ⟨h1, rfl, rfl, rfl⟩, ⟨v3, b3, f3, w3, vs3, ⟨h2, rfl⟩,
    ⟨v4, b4, f4, w4, vs4, ⟨h3, rfl⟩, ⟨rfl, rfl, rfl, rfl⟩, rfl⟩, rfl⟩, rfl⟩, rfl⟩, rfl⟩, h4⟩ := h
  obtain ⟨rfl, rfl, rfl⟩ := gap_p h2
  obtain ⟨e1, e2⟩ := gap_split h1 (by simp)
  have hk1 := gap_k hk
  have hk2 := tok_k hk1 h1
  have hk3 := gap_k hk2
  have hlen : (gapOf b2).2.length < n := by simp at hk3; omega
  rw [warnOf_wl hp hk] at h3
  obtain ⟨c, c1, c2, rfl, rfl⟩ := ih _ hlen _ _ _ _ _ (gap_stop _) hk3 h3
  obtain ⟨e3, e4⟩ := gap_split c2 (cval_text_ne c1)
  simp only [runAct, Frame.get, if_true, reduceCtorEq, if_false, attributeComment_cvalAt] at h4
  have hp : c.isPlug = false := by
    cases hc : c.isPlug
    · rfl
    · rw [hc] at h4; simp at h4
  rw [hp] at h4
  simp only [Bool.false_eq_true, if_false] at h4
  injection h4 with h4
  refine ⟨.mk (gapOf b).1 (gapOf b2).1 c, ⟨e1, e3, c1, fun _ => hp, trivial⟩, ?_, ?_, ?_⟩
  · conv => lhs; rw [e2, e4]
    simp [elemsText]
  · rw [← h4, block_gap]
    simp [elemsAt, hp]; offs
  · simp only [elemsExc, List.append_nil, wl_append, List.append_assoc]
    rfl

theorem elemsAt_append (ign : Bool) (k : Nat) (a : CElem) (as : List CElem) :
    elemsAt ign pos false k (a :: as) =
      elemsAt ign pos false k [a] ++ elemsAt ign pos false (k + (elemsText false [a]).length) as := by
  obtain ⟨pre, com, v⟩ := a
  have e : k + (elemsText false [.mk pre com v]).length =
      k + (pre.text.length + 1) + com.text.length + v.text.length := by simp [elemsText]; omega
  rw [e]
  simp only [elemsAt]; split <;> simp
theorem elemsExc_append (k : Nat) (a : CElem) (as : List CElem) :
    elemsExc false k (a :: as) = elemsExc false k [a] ++ elemsExc false (k + (elemsText false [a]).length) as := by
  obtain ⟨pre, com, v⟩ := a
  have e : k + (elemsText false [.mk pre com v]).length =
      k + (pre.text.length + 1) + com.text.length + v.text.length := by simp [elemsText]; omega
  rw [e]
  simp [elemsExc]

theorem elemSteps_p (hp : PosFn pf pos D) {n : Nat} (ih : ∀ b, b.length < n → ValueP o pf pos D b) {b : Bytes}
    {ws : List Bytes} {vs : List Val} {b' : Bytes} {ws' : List Bytes} (h : StepsP o pf elemStepEx b ws vs b' ws') :
    ∀ k, b.length ≤ n → k + b.length = D → ∃ as : List CElem, elemsOk false as ∧
      b = elemsText false as ++ b' ∧ vs = (elemsAt o.ignoreComments pos false k as).map Val.attr ∧
      ws' = ws ++ wl o pos (elemsExc false k as) := by
  induction h with
  | nil => intro k _ _; exact ⟨[], trivial, rfl, rfl, by simp [elemsExc, wl_nil]⟩
  | cons h1 _ ih2 =>
    intro k hb hk
    obtain ⟨a, a1, rfl, a3, rfl⟩ := elemStep_p hp ih hb hk h1
    obtain ⟨as, s1, rfl, rfl, rfl⟩ := ih2 _ (by simp at hb; omega) (tok_k hk rfl)
    refine ⟨a :: as, (elemsOk_append a as).2 ⟨a1, s1⟩, ?_, ?_, ?_⟩
    · rw [elemsText_append a as, List.append_assoc]
    · rw [elemsAt_append, List.map_append, ← a3]; rfl
    · simp only [elemsExc_append k a as, wl_append, List.append_assoc]

theorem elems_p (hp : PosFn pf pos D) {n : Nat} (ih : ∀ b, b.length < n → ValueP o pf pos D b) {k : Nat} {b : Bytes}
    {ws : List Bytes} {v : Val} {b' : Bytes} {ws' : List Bytes} (hb : b.length < n) (hk : k + b.length = D)
    (h : RunsP o pf elemsEx b ws v b' ws') : ∃ as : List CElem, elemsOk true as ∧ b = elemsText true as ++ b' ∧
      v = .attrs (elemsAt o.ignoreComments pos true k as) ∧ ws' = ws ++ wl o pos (elemsExc true k as) := by
  obtain ⟨f, h⟩ := h
  simp (discharger := decide) only [elemsEx, action_rp, seq_rp, rseq_cons, rseq_gw, rseq_nil, labeled_rp, ref_rp, tok_rp,
    runsP_ref, gram] at h
  obtain ⟨v0, ⟨vs, ⟨v2, b2, f2, w2, vs2, ⟨h1, rfl⟩, ⟨v3, b3, f3, w3, vs3, ⟨h2, rfl⟩,
    ⟨v4, b4, f4, w4, vs4, ⟨h3, rfl⟩, ⟨rfl, rfl, rfl, rfl⟩, rfl⟩, rfl⟩, rfl⟩, rfl⟩, h4⟩ := h
  obtain ⟨rfl, rfl, rfl⟩ := gap_p h1
  have hk1 := gap_k hk
  obtain ⟨c, c1, c2, rfl, rfl⟩ := ih _ (by omega) _ _ _ _ _ (gap_stop _) hk1 h2
  have hk2 := tok_k hk1 c2
  obtain ⟨e1, e2⟩ := gap_split c2 (cval_text_ne c1)
  obtain ⟨vs, rfl, h5⟩ := star_steps h3
  obtain ⟨as, s1, s2, rfl, rfl⟩ := elemSteps_p hp ih h5 _ (by omega) hk2
  refine ⟨.mk Gap.empty _ c :: as, ⟨⟨by simp [Gap.empty], rfl⟩, e1, c1, (fun h => nomatch h), s1⟩, ?_, ?_, ?_⟩
  · conv => lhs; rw [e2, s2]
    simp [elemsText]
  · simp only [runAct, Frame.get, if_true, reduceCtorEq, if_false, attributeComment_cvalAt, toIfaceSlice] at h4
    cases hp : c.isPlug with
    | true =>
      rw [hp] at h4
      simp only [if_true, List.nil_append, collectAttrs_attr] at h4
      injection h4 with h4
      rw [← h4]
      simp [elemsAt, hp]
    | false =>
      rw [hp] at h4
      simp only [Bool.false_eq_true, if_false] at h4
      rw [show ∀ (x : Attr) (l : List Attr), [Val.attr x] ++ l.map Val.attr = (x :: l).map Val.attr from fun _ _ => rfl,
        collectAttrs_attr] at h4
      simp only at h4
      injection h4 with h4
      rw [← h4, block_gap]
      simp [elemsAt, hp]
  · simp only [elemsExc, if_true, Nat.add_zero, List.nil_append, wl_append, List.append_assoc]

/-- Soundness of the rule `array`. -/
theorem array_p (hp : PosFn pf pos D) {n : Nat} (ih : ∀ b, b.length < n → ValueP o pf pos D b) {k : Nat} {b : Bytes}
    {ws : List Bytes} {v : Val} {b' : Bytes} {ws' : List Bytes} (hb : b.length ≤ n) (hk : k + b.length = D)
    (h : RunsP o pf G.array b ws v b' ws') : ∃ as g, (CVal.arr as g).Ok ∧ b = (CVal.arr as g).text ++ b' ∧
      v = .attr ((CVal.arr as g).astAt o.ignoreComments pos k) ∧ ws' = ws ++ wl o pos ((CVal.arr as g).exc k) := by
  obtain ⟨f, h⟩ := h
  simp (discharger := decide) only [G.array, action_rp, seq_rp, rseq_cons, rseq_gw, rseq_nil, labeled_rp, ref_rp, tok_rp,
    close_rp] at h
  obtain ⟨v0, ⟨vs, ⟨v2, b2, f2, w2, vs2, ⟨rfl, rfl, rfl, rfl⟩, ⟨v3, b3, f3, w3, vs3, ⟨h1, rfl⟩,
    ⟨v4, b4, f4, w4, vs4, ⟨h4, rfl⟩, ⟨v5, b5, f5, w5, vs5, ⟨h2, rfl, rfl, rfl⟩, ⟨rfl, rfl, rfl, rfl⟩, rfl⟩, rfl⟩, rfl⟩, rfl⟩, rfl⟩, h3⟩ := h
  obtain ⟨rfl, rfl, rfl⟩ := gap_p h4
  obtain ⟨e1, e2⟩ := gap_split h2 (by simp)
  have hk1 := tok_k hk rfl
  obtain ⟨as, s1, s2, s3, s4⟩ : ∃ as : List CElem, elemsOk true as ∧ b2 = elemsText true as ++ b3 ∧
      (v3 = .attrs (elemsAt o.ignoreComments pos true (k + 1) as) ∨ (v3 = .nil ∧ as = [])) ∧
      ws' = w2 ++ wl o pos (elemsExc true (k + 1) as) := by
    rcases runsP_opt.1 h1 with h6 | ⟨_, h6, rfl, rfl⟩
    · obtain ⟨as, s1, s2, s3, s4⟩ := elems_p hp ih (by simp at hb; omega) hk1 h6
      exact ⟨as, s1, s2, .inl s3, s4⟩
    · exact ⟨[], trivial, rfl, .inr ⟨h6, rfl⟩, by simp [elemsExc, wl_nil]⟩
  refine ⟨as, (gapOf b3).1, ⟨s1, e1⟩, ?_, ?_, ?_⟩
  · conv => lhs; rw [s2, e2]
    simp [CVal.text]
  · simp only [runAct, Frame.get, if_true, reduceCtorEq, if_false] at h3
    rcases s3 with rfl | ⟨rfl, rfl⟩ <;> simp only [block_gap] at h3 <;> injection h3 with h3 <;> rw [← h3] <;> rfl
  · rw [s4]; rfl

/-! ### Hashes -/

/-- Soundness of the rule `hashentry`. -/
theorem hashentry_p (hp : PosFn pf pos D) {n : Nat} (ih : ∀ b, b.length < n → ValueP o pf pos D b) {k : Nat} {b : Bytes}
    {ws : List Bytes} {v : Val} {b' : Bytes} {ws' : List Bytes} (hb : b.length ≤ n) (hk : k + b.length = D)
    (h : RunsP o pf G.hashentry b ws v b' ws') : ∃ (key : CKey) (g1 g2 : Gap) (c : CVal), (gapOf b).1.Ok ∧ key.Ok ∧ g1.Ok ∧ g2.Ok ∧ c.Ok ∧
      c.isPlug = false ∧
      b = (gapOf b).1.text ++ key.text ++ g1.text ++ b!"=>" ++ g2.text ++ c.text ++ b' ∧
      v = .hentry (.mk (pos k) (key.astAt pos (k + (gapOf b).1.text.length))
        (c.astAt o.ignoreComments pos (k + (gapOf b).1.text.length + key.text.length + g1.text.length + 2 + g2.text.length))
        ((gapOf b).1.block o.ignoreComments true false)) ∧
      ws' = ws ++ wl o pos ([(k + (gapOf b).1.text.length + key.text.length, g1),
        (k + (gapOf b).1.text.length + key.text.length + g1.text.length + 2, g2)] ++
        c.exc (k + (gapOf b).1.text.length + key.text.length + g1.text.length + 2 + g2.text.length)) := by
  obtain ⟨f, h⟩ := h
  simp (discharger := decide) only [G.hashentry, action_rp, seq_rp, rseq_cons, rseq_gw, rseq_nil, labeled_rp, ref_rp, tok_rp,
    runsP_ref, gram] at h
  obtain ⟨v0, ⟨vs, ⟨v1, b1, f1, w1, vs1, ⟨h0, rfl⟩, ⟨vx, bx, fx, wx, vsx, ⟨h1, rfl⟩, ⟨v2, vs2, -, ⟨v3, b3, f3, w3, vs3, ⟨h2, rfl, rfl, rfl⟩,
    ⟨v4, vs4, -, ⟨v5, b5, f5, w5, vs5, ⟨h3, rfl⟩, ⟨rfl, rfl, rfl, rfl⟩, rfl⟩, rfl⟩, rfl⟩, rfl⟩, rfl⟩, rfl⟩, rfl⟩, h4⟩ := h
  obtain ⟨rfl, rfl, rfl⟩ := gap_p h0
  have hk1 := gap_k hk
  obtain ⟨key, k1, k2, k3, k4, rfl⟩ : ∃ key : CKey, key.Ok ∧ (gapOf b).2 = key.text ++ bx ∧
      toHKey vx = some (key.astAt pos (k + (gapOf b).1.text.length)) ∧ key.text ≠ [] ∧ wx = w1 := by
    rw [runsP_choice, runsP_choice, runsP_choice, runsP_choice_nil] at h1
    rcases h1 with h1 | ⟨_, h1 | ⟨_, h1 | ⟨_, h1⟩⟩⟩
    · obtain ⟨t, t1, t2, rfl, t4⟩ := number_p h1
      refine ⟨.num t, t1, t2, rfl, ?_, t4⟩
      obtain ⟨⟨s, d, f, rfl, _, hd, _⟩, _⟩ := t1
      simp [CKey.text, hd]
    · obtain ⟨x, x1, x2, rfl, x4⟩ := bareword_p hp hk1 h1
      refine ⟨.str ⟨.bareword, x⟩, bare_value x1, by simpa [CKey.text, StrLit.text, StrLit.quote] using x2, rfl, ?_, x4⟩
      obtain ⟨c, r, rfl, _⟩ := x1
      simp [CKey.text, StrLit.text, StrLit.quote]
    · obtain ⟨s, s1, s2, rfl, s4⟩ := stringValue_p hp hk1 h1
      exact ⟨.str s, .inr s1, s2, rfl, name_text_ne (.inr s1), s4⟩
    · cases h1
  obtain ⟨e1, e2⟩ := gap_split k2 k4
  obtain ⟨e3, e4⟩ := gap_split h2 (by simp)
  have hk2 := tok_k hk1 k2
  have hk3 := gap_k hk2
  have hk4 := tok_k hk3 h2
  have hk5 := gap_k hk4
  have hlen : (gapOf b3).2.length < n := by simp at hk5; omega
  rw [warnOf_wl hp hk2, warnOf_wl hp hk4] at h3
  obtain ⟨c, c1, c2, rfl, rfl⟩ := ih _ hlen _ _ _ _ _ (gap_stop _) hk5 h3
  obtain ⟨e5, e6⟩ := gap_split c2 (cval_text_ne c1)
  simp only [runAct, Frame.get, if_true, reduceCtorEq, if_false, k3, block_gap] at h4
  have hpl : c.isPlug = false := by
    cases c <;> first | rfl | (simp [cvalAt, toAttr, badAssert] at h4)
  have hv : ∀ k, toAttr (cvalAt o.ignoreComments pos k c) = some (c.astAt o.ignoreComments pos k) := by
    intro k
    cases c <;> first | rfl | (simp [CVal.isPlug] at hpl)
  rw [hv] at h4
  simp only at h4
  injection h4 with h4
  refine ⟨key, _, _, c, e1, k1, e3, e5, c1, hpl, ?_, ?_, ?_⟩
  · conv => lhs; rw [e2, e4, e6]
    simp
  · rw [← h4, hp _ _ hk]; rfl
  · simp only [wl_append, wl_cons2, List.append_assoc]; rfl

theorem entryStep_p (hp : PosFn pf pos D) {n : Nat} (ih : ∀ b, b.length < n → ValueP o pf pos D b) {k : Nat} {b : Bytes}
    {ws : List Bytes} {v : Val} {b' : Bytes} {ws' : List Bytes} (hb : b.length ≤ n) (hk : k + b.length = D)
    (h : RunsP o pf entryStepEx b ws v b' ws') : ∃ a : CEntry, entriesOk false [a] ∧ b = entriesText false [a] ++ b' ∧
      [v] = (entriesAt o.ignoreComments pos false k [a]).map Val.hentry ∧ ws' = ws ++ wl o pos (entriesExc false k [a]) := by
  obtain ⟨f, h⟩ := h
  simp (discharger := decide) only [entryStepEx, action_rp, seq_rp, rseq_cons, rseq_gw, rseq_nil, labeled_rp, ref_rp, tok_rp,
    runsP_ref, gram] at h
  obtain ⟨v0, ⟨vs, ⟨v1, b1, f1, w1, vs1, h0, ⟨v3, b3, f3, w3, vs3, ⟨h1, rfl⟩,
    ⟨rfl, rfl, rfl, rfl⟩, rfl⟩, rfl⟩, rfl⟩, h2⟩ := h
  obtain ⟨hw, rfl, rfl, rfl⟩ := ws_p h0
  have hk1 : k + (b.takeWhile isWs).length + (b.dropWhile isWs).length = D := tok_k hk List.takeWhile_append_dropWhile.symm
  obtain ⟨key, g1, g2, c, e1, k1, k2, k3, k4, k5, k6, rfl, rfl⟩ := hashentry_p hp ih (by omega) hk1 h1
  refine ⟨.mk (b.takeWhile isWs) _ key g1 g2 c, ⟨fun _ => sepOk_gapOf b hw, e1, k1, k2, k3, k4, k5, trivial⟩, ?_, ?_, ?_⟩
  · conv => lhs; rw [← List.takeWhile_append_dropWhile (p := isWs) (l := b), k6]
    simp [entriesText]
  · simp only [runAct, Frame.get, if_true] at h2
    injection h2 with h2
    rw [← h2]
    simp [entriesAt, markFirst_block]
  · simp [entriesExc]

theorem entries_len (sep : Bytes) (com : Gap) (key : CKey) (g1 g2 : Gap) (v : CVal) (k : Nat) :
    k + (entriesText false [.mk sep com key g1 g2 v]).length =
      k + sep.length + com.text.length + key.text.length + g1.text.length + 2 + g2.text.length + v.text.length := by
  simp [entriesText]; omega

theorem entriesAt_append (ign : Bool) (k : Nat) (a : CEntry) (as : List CEntry) :
    entriesAt ign pos false k (a :: as) =
      entriesAt ign pos false k [a] ++ entriesAt ign pos false (k + (entriesText false [a]).length) as := by
  obtain ⟨sep, com, key, g1, g2, v⟩ := a
  rw [entries_len]
  simp [entriesAt]
theorem entriesExc_append (k : Nat) (a : CEntry) (as : List CEntry) :
    entriesExc false k (a :: as) = entriesExc false k [a] ++ entriesExc false (k + (entriesText false [a]).length) as := by
  obtain ⟨sep, com, key, g1, g2, v⟩ := a
  rw [entries_len]
  simp [entriesExc]

theorem entrySteps_p (hp : PosFn pf pos D) {n : Nat} (ih : ∀ b, b.length < n → ValueP o pf pos D b) {b : Bytes}
    {ws : List Bytes} {vs : List Val} {b' : Bytes} {ws' : List Bytes} (h : StepsP o pf entryStepEx b ws vs b' ws') :
    ∀ k, b.length ≤ n → k + b.length = D → ∃ as : List CEntry, entriesOk false as ∧
      b = entriesText false as ++ b' ∧ vs = (entriesAt o.ignoreComments pos false k as).map Val.hentry ∧
      ws' = ws ++ wl o pos (entriesExc false k as) := by
  induction h with
  | nil => intro k _ _; exact ⟨[], trivial, rfl, rfl, by simp [entriesExc, wl_nil]⟩
  | cons h1 _ ih2 =>
    intro k hb hk
    obtain ⟨a, a1, rfl, a3, rfl⟩ := entryStep_p hp ih hb hk h1
    obtain ⟨as, s1, rfl, rfl, rfl⟩ := ih2 _ (by simp at hb; omega) (tok_k hk rfl)
    refine ⟨a :: as, (entriesOk_append a as).2 ⟨a1, s1⟩, ?_, ?_, ?_⟩
    · rw [entriesText_append a as, List.append_assoc]
    · rw [entriesAt_append, List.map_append, ← a3]; rfl
    · simp only [entriesExc_append k a as, wl_append, List.append_assoc]

theorem hashentries_p (hp : PosFn pf pos D) {n : Nat} (ih : ∀ b, b.length < n → ValueP o pf pos D b) {k : Nat} {b : Bytes}
    {ws : List Bytes} {v : Val} {b' : Bytes} {ws' : List Bytes} (hb : b.length ≤ n) (hk : k + b.length = D)
    (h : RunsP o pf G.hashentries b ws v b' ws') : ∃ as : List CEntry, as ≠ [] ∧ entriesOk true as ∧ b = entriesText true as ++ b' ∧
      v = .hentries (entriesAt o.ignoreComments pos true k as) ∧ ws' = ws ++ wl o pos (entriesExc true k as) := by
  obtain ⟨f, h⟩ := h
  simp (discharger := decide) only [G.hashentries, action_rp, seq_rp, rseq_cons, rseq_gw, rseq_nil, labeled_rp, ref_rp, tok_rp,
    runsP_ref, gram] at h
  obtain ⟨v0, ⟨vs, ⟨v3, b3, f3, w3, vs3, ⟨h1, rfl⟩,
    ⟨v4, b4, f4, w4, vs4, ⟨h2, rfl⟩, ⟨rfl, rfl, rfl, rfl⟩, rfl⟩, rfl⟩, rfl⟩, h3⟩ := h
  obtain ⟨key, g1, g2, c, e1, k1, k2, k3, k4, k5, k6, rfl, rfl⟩ := hashentry_p hp ih hb hk h1
  have hk2 := tok_k hk k6
  obtain ⟨vs, rfl, h5⟩ := star_steps h2
  obtain ⟨as, s1, s2, rfl, rfl⟩ := entrySteps_p hp ih h5 _ (by omega) hk2
  refine ⟨.mk [] _ key g1 g2 c :: as, nofun, ⟨(fun h => nomatch h), e1, k1, k2, k3, k4, k5, s1⟩, ?_, ?_, ?_⟩
  · conv => lhs; rw [k6, s2]
    simp [entriesText]
  · simp only [runAct, Frame.get, if_true, reduceCtorEq, if_false, toIfaceSlice] at h3
    rw [show ∀ (x : HEntry) (l : List HEntry), Val.hentry x :: l.map Val.hentry = (x :: l).map Val.hentry from fun _ _ => rfl,
        collectHEntries_hentry] at h3
    simp only at h3
    injection h3 with h3
    rw [← h3, setFirst_eq]
    simp [entriesAt]; offs
  · simp only [entriesExc, wl_append, List.append_assoc, if_true, Nat.add_zero]
    simp; offs

/-- Soundness of the rule `hash`. -/
theorem hash_p (hp : PosFn pf pos D) {n : Nat} (ih : ∀ b, b.length < n → ValueP o pf pos D b) {k : Nat} {b : Bytes}
    {ws : List Bytes} {v : Val} {b' : Bytes} {ws' : List Bytes} (hb : b.length ≤ n) (hk : k + b.length = D)
    (h : RunsP o pf G.hash b ws v b' ws') : ∃ as g, (CVal.hash as g).Ok ∧ b = (CVal.hash as g).text ++ b' ∧
      v = .attr ((CVal.hash as g).astAt o.ignoreComments pos k) ∧ ws' = ws ++ wl o pos ((CVal.hash as g).exc k) := by
  obtain ⟨f, h⟩ := h
  simp (discharger := decide) only [G.hash, action_rp, seq_rp, rseq_cons, rseq_gw, rseq_nil, labeled_rp, ref_rp, tok_rp,
    close_rp] at h
  obtain ⟨v0, ⟨vs, ⟨v2, b2, f2, w2, vs2, ⟨rfl, rfl, rfl, rfl⟩, ⟨v3, b3, f3, w3, vs3, ⟨h1, rfl⟩,
    ⟨v4, b4, f4, w4, vs4, ⟨h4, rfl⟩, ⟨v5, b5, f5, w5, vs5, ⟨h2, rfl, rfl, rfl⟩, ⟨rfl, rfl, rfl, rfl⟩, rfl⟩, rfl⟩, rfl⟩, rfl⟩, rfl⟩, h3⟩ := h
  obtain ⟨rfl, rfl, rfl⟩ := gap_p h4
  obtain ⟨e1, e2⟩ := gap_split h2 (by simp)
  have hk1 := tok_k hk rfl
  obtain ⟨as, s1, s2, s3, s4⟩ : ∃ as : List CEntry, entriesOk true as ∧ b2 = entriesText true as ++ b3 ∧
      (v3 = .hentries (entriesAt o.ignoreComments pos true (k + 1) as) ∨ (v3 = .nil ∧ as = [])) ∧
      ws' = w2 ++ wl o pos (entriesExc true (k + 1) as) := by
    rcases runsP_opt.1 h1 with h6 | ⟨_, h6, rfl, rfl⟩
    · obtain ⟨as, -, s1, s2, s3, s4⟩ := hashentries_p hp ih (by simp at hb; omega) hk1 (runsP_ref.1 h6)
      exact ⟨as, s1, s2, .inl s3, s4⟩
    · exact ⟨[], trivial, rfl, .inr ⟨h6, rfl⟩, by simp [entriesExc, wl_nil]⟩
  refine ⟨as, (gapOf b3).1, ⟨s1, e1⟩, ?_, ?_, ?_⟩
  · conv => lhs; rw [s2, e2]
    simp [CVal.text]
  · simp only [runAct, Frame.get, if_true, reduceCtorEq, if_false] at h3
    rcases s3 with rfl | ⟨rfl, rfl⟩ <;> simp only [block_gap] at h3 <;> injection h3 with h3 <;> rw [← h3] <;> rfl
  · rw [s4]; rfl

/-! ### Values -/

/-- Soundness of the rule `value`. -/
theorem value_p (hp : PosFn pf pos D) (n : Nat) : ∀ b, b.length < n → ValueP o pf pos D b := by
  induction n with
  | zero => intro b hb; omega
  | succ n ih =>
    intro b hb k ws v b' ws' hs hk h
    have hb : b.length ≤ n := by omega
    rw [G.value] at h
    simp only [runsP_choice, runsP_choice_nil, runsP_ref, gram, and_false, or_false] at h
    rcases h with h | ⟨_, h | ⟨_, h | ⟨_, h | ⟨_, h | ⟨_, h | ⟨_, h⟩⟩⟩⟩⟩⟩
    · obtain ⟨p, p1, p2, p3, _, rfl, rfl⟩ := plugin_p hp ih hb hk h
      rw [gapOf_stop hs] at p3 ⊢
      simp only [block_empty]
      refine ⟨.plug p, p1, by simpa [Gap.empty, Gap.text, CVal.text] using p3, ?_, ?_⟩
      · simp [cvalAt, Gap.empty, Gap.text]
      · simp [CVal.exc, Gap.empty, Gap.text]
    · obtain ⟨x, x1, x2, rfl, rfl⟩ := bareword_p hp hk h
      exact ⟨.str ⟨.bareword, x⟩, bare_value x1, by simpa [CVal.text, StrLit.text, StrLit.quote] using x2, rfl,
        by simp [CVal.exc, wl_nil]⟩
    · obtain ⟨s, s1, s2, rfl, rfl⟩ := stringValue_p hp hk h
      exact ⟨.str s, .inr s1, s2, rfl, by simp [CVal.exc, wl_nil]⟩
    · obtain ⟨t, t1, t2, rfl, rfl⟩ := number_p h
      exact ⟨.num t, t1, t2, rfl, by simp [CVal.exc, wl_nil]⟩
    · obtain ⟨as, g, a1, a2, rfl, rfl⟩ := array_p hp ih hb hk h
      exact ⟨.arr as g, a1, a2, rfl, rfl⟩
    · obtain ⟨as, g, a1, a2, rfl, rfl⟩ := hash_p hp ih hb hk h
      exact ⟨.hash as g, a1, a2, rfl, rfl⟩
    · exact absurd (runsP_pushError.1 h) id

end
end Verif
