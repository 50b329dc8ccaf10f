import Verif.Proofs.RunPosIff
import Verif.Proofs.SoundBlock
import Verif.Spec.Positioned
/-
Positions of tokens, and exceptional gaps.
-/
namespace Verif
open Spec

section
variable {o : Opts} {pf : Bytes → Pos}

/-- Repetition, as a plain inductive. -/
inductive StepsP (o : Opts) (pf : Bytes → Pos) (e : Ex) : Bytes → List Bytes → List Val → Bytes → List Bytes → Prop
  | nil {b ws} : StepsP o pf e b ws [] b ws
  | cons {b ws v b1 ws1 vs b' ws'} : RunsP o pf e b ws v b1 ws1 → StepsP o pf e b1 ws1 vs b' ws' →
      StepsP o pf e b ws (v :: vs) b' ws'

theorem RStar.steps {e b ws vs b' ws'} : RStar o pf e b ws vs b' ws' → StepsP o pf e b ws vs b' ws'
  | .nil => .nil
  | .cons h h2 => .cons ⟨_, h⟩ (RStar.steps h2)

theorem star_steps {e b ws v b' ws'} (h : RunsP o pf (.star e) b ws v b' ws') :
    ∃ vs, v = .list vs ∧ StepsP o pf e b ws vs b' ws' := by
  obtain ⟨vs, h1, h2, _⟩ := runsP_star.1 h
  exact ⟨vs, h1, h2.steps⟩

/-! ### Exceptional gaps -/

theorem ws_no_35 {t : Bytes} (h : t.all isWs = true) : t.contains 35 = false := by
  rw [Bool.eq_false_iff]
  intro hc
  have := List.all_eq_true.1 h 35 (List.contains_iff_mem.1 hc)
  simp [isWs] at this

theorem gap_hash (b : Bytes) : (gapOf b).1.text.contains 35 = !(gapOf b).1.lines.isEmpty := by
  have key : (gapOf b).1.tail.all isWs = true := by
    rcases (gapOf_spec b).2.2.2 with h | ⟨h, _⟩
    · exact h.2
    · rcases h with h | ⟨ls, l, h, _⟩
      · exact h.2
      · rw [h]; rfl
  generalize (gapOf b).1 = g at key
  obtain ⟨lines, tail⟩ := g
  cases lines with
  | nil => simpa [Gap.text] using ws_no_35 key
  | cons l ls =>
    simp [Gap.text, CommentLine.text]

theorem consumed_gap (b : Bytes) : consumed b (gapOf b).2 = (gapOf b).1.text := by
  have := consumed_append (gapOf b).1.text (gapOf b).2
  rwa [← (gapOf_spec b).1] at this

theorem gapS_rp {b fr ws v b' fr' ws'} (h : RP o pf G.gapS b fr ws v b' fr' ws') :
    b' = (gapOf b).2 ∧ fr' = fr ∧ ws' = ws := by
  obtain ⟨v1, h1, h2⟩ := action_rp.1 h
  have h3 := RP.run h1
  rw [gap_ok] at h3
  obtain ⟨vs, rfl, _, _, hf⟩ := star_rp.1 h1
  exact ⟨h3.2.1, hf, h1.quiet (by decide)⟩

theorem rseq_gw {last es b fr ws vs b' fr' ws'} :
    RSeq o pf last (G.gapS :: G.warn :: es) b fr ws vs b' fr' ws' ↔
    ∃ v1 vs1, RP o pf G.gapS b fr ws v1 (gapOf b).2 fr ws ∧
      RSeq o pf (b, (gapOf b).2) es (gapOf b).2 fr (ws ++ warnOf o pf (b, (gapOf b).2)) vs1 b' fr' ws' ∧
      vs = v1 :: .nil :: vs1 := by
  constructor
  · intro h
    generalize hx : G.gapS :: G.warn :: es = x at h
    cases h with
    | nil => cases hx
    | cons h h2 =>
      rw [List.cons.injEq] at hx
      obtain ⟨rfl, rfl⟩ := hx
      obtain ⟨rfl, rfl, rfl⟩ := gapS_rp h
      generalize hy : G.warn :: es = y at h2
      cases h2 with
      | nil => cases hy
      | cons h3 h4 =>
        rw [List.cons.injEq] at hy
        rw [← hy.1] at h3
        exact absurd h3 no_warn_rp
      | warn h3 =>
        rw [List.cons.injEq] at hy
        rw [← hy.2] at h3
        exact ⟨_, _, h, h3, rfl⟩
    | warn h => cases hx
  · rintro ⟨v1, vs1, h1, h2, rfl⟩
    exact .cons h1 (.warn h2)

end

/-! ### Offsets -/

section
variable {o : Opts} {pf : Bytes → Pos} {pos : Nat → Pos} {D : Nat}

/-- `pf` gives positions from the remaining input, `pos` from the offset, in a file of `D` bytes. -/
def PosFn (pf : Bytes → Pos) (pos : Nat → Pos) (D : Nat) : Prop := ∀ k b, k + b.length = D → pf b = pos k

/-- The warnings. -/
abbrev wl (o : Opts) (pos : Nat → Pos) (gs : Gaps) : List Bytes := warningsOf o.excWarn pos gs

theorem wl_append (a b : Gaps) : wl o pos (a ++ b) = wl o pos a ++ wl o pos b := by
  simp only [wl, warningsOf]; split <;> simp

theorem wl_cons (a : Nat × Gap) (b : Gaps) : wl o pos (a :: b) = wl o pos [a] ++ wl o pos b := wl_append [a] b

theorem wl_cons2 (a b : Nat × Gap) (c : Gaps) : wl o pos (a :: b :: c) = wl o pos [a] ++ wl o pos (b :: c) := wl_cons a (b :: c)

theorem wl_nil : wl o pos [] = [] := by simp [wl, warningsOf]

theorem warnOf_wl (hp : PosFn pf pos D) {k : Nat} {b : Bytes} (hk : k + b.length = D) :
    warnOf o pf (b, (gapOf b).2) = wl o pos [(k, (gapOf b).1)] := by
  simp only [warnOf, consumed_gap, gap_hash, wl, warningsOf, hp k b hk]
  cases o.excWarn <;> cases h : (gapOf b).1.lines.isEmpty <;> simp [h, posText, posStr]

/-- The offset after a gap. -/
theorem gap_k {k : Nat} {b : Bytes} (hk : k + b.length = D) : k + (gapOf b).1.text.length + (gapOf b).2.length = D := by
  have := congrArg List.length (gapOf_spec b).1
  simp at this; omega

/-- The offset after a token. -/
theorem tok_k {k : Nat} {b t b' : Bytes} (hk : k + b.length = D) (h : b = t ++ b') : k + t.length + b'.length = D := by
  rw [h] at hk; simp at hk; omega

/-! ### Tokens -/

theorem er_str {a : StrAttr} {s : StrLit} (h : er (.attr (.str a)) = .attr (.str s.ast)) : a = s.astAt a.start := by
  obtain ⟨p, n, v, sat, c⟩ := a
  simp only [er, valMap, AMap.attr, AMap.str, AMap.noPos, StrLit.ast, Val.attr.injEq, Attr.str.injEq, StrAttr.mk.injEq] at h
  obtain ⟨_, rfl, rfl, rfl, h⟩ := h
  simp only [StrLit.astAt, StrAttr.mk.injEq, true_and]
  exact h

/-- A string with this position. -/
def StrAtP (p : Pos) (v : Val) : Prop := ∃ a : StrAttr, v = .attr (.str a) ∧ a.start = p

theorem string_rp {sat e b ws v b' ws'} (h : RunsP o pf (.action (.string sat) e) b ws v b' ws') : StrAtP (pf b) v := by
  obtain ⟨f, h⟩ := h
  obtain ⟨v1, h1, h2⟩ := action_rp.1 h
  simp only [runAct] at h2
  injection h2 with h2
  exact ⟨_, h2.symm, rfl⟩

theorem ret_rp {l e b ws v b' ws'} (h : RunsP o pf (.action (.ret l) (.labeled l e)) b ws v b' ws') :
    RunsP o pf e b ws v b' ws' := by
  obtain ⟨f, h⟩ := h
  obtain ⟨v1, h1, h2⟩ := action_rp.1 h
  obtain ⟨h3, rfl⟩ := labeled_rp.1 h1
  simp only [runAct, Frame.get, if_true] at h2
  injection h2 with h2
  rw [← h2]; exact h3

theorem stringValue_start {b ws v b' ws'} (h : RunsP o pf G.stringValue b ws v b' ws') : StrAtP (pf b) v := by
  have h := ret_rp h
  rw [runsP_choice, runsP_choice, runsP_choice_nil] at h
  rcases h with h | ⟨_, h | ⟨_, h⟩⟩
  · exact string_rp h
  · exact string_rp h
  · cases h

theorem stringValue_p (hp : PosFn pf pos D) {k b ws v b' ws'} (hk : k + b.length = D)
    (h : RunsP o pf G.stringValue b ws v b' ws') :
    ∃ s : StrLit, s.Quoted ∧ b = s.text ++ b' ∧ v = .attr (.str (s.astAt (pos k))) ∧ ws' = ws := by
  obtain ⟨s, s1, s2, s3⟩ := runs_stringValue.1 h.runs
  obtain ⟨a, rfl, a2⟩ := stringValue_start h
  refine ⟨s, s1, s2, ?_, h.quiet (by decide)⟩
  rw [er_str s3, a2, hp k b hk]

theorem name_p (hp : PosFn pf pos D) {k b ws v b' ws'} (hk : k + b.length = D) (h : RunsP o pf G.name b ws v b' ws') :
    ∃ s : StrLit, s.Name ∧ b = s.text ++ b' ∧ v = .attr (.str (s.astAt (pos k))) ∧ ws' = ws := by
  obtain ⟨s, s1, s2, s3, _⟩ := runs_name.1 h.runs
  have hs : StrAtP (pf b) v := by
    have h := h
    rw [G.name, runsP_choice, runsP_choice, runsP_choice_nil] at h
    rcases h with h | ⟨_, h | ⟨_, h⟩⟩
    · exact string_rp h
    · exact stringValue_start (ret_rp h)
    · cases h
  obtain ⟨a, rfl, a2⟩ := hs
  refine ⟨s, s1, s2, ?_, h.quiet (by decide)⟩
  rw [er_str s3, a2, hp k b hk]

theorem bareword_p (hp : PosFn pf pos D) {k b ws v b' ws'} (hk : k + b.length = D) (h : RunsP o pf G.bareword b ws v b' ws') :
    ∃ x : Bytes, BareOk x ∧ b = x ++ b' ∧ v = .attr (.str (StrLit.astAt (pos k) ⟨.bareword, x⟩)) ∧ ws' = ws := by
  obtain ⟨x, x1, x2, _, x3⟩ := runs_bareword.1 h.runs
  obtain ⟨a, rfl, a2⟩ := string_rp h
  refine ⟨x, x1, x2, ?_, h.quiet (by decide)⟩
  rw [er_str (s := ⟨.bareword, x⟩) x3, a2, hp k b hk]

theorem number_p {b ws v b' ws'} (h : RunsP o pf G.number b ws v b' ws') :
    ∃ t : Bytes, NumOk t ∧ b = t ++ b' ∧ v = .attr (.num (numAst t)) ∧ ws' = ws := by
  obtain ⟨t, t1, t2, t3⟩ := number_sound h.runs
  refine ⟨t, t1, t2, ?_, h.quiet (by decide)⟩
  obtain ⟨f, h⟩ := h
  obtain ⟨v1, h1, h2⟩ := action_rp.1 h
  simp only [runAct] at h2
  split at h2
  · injection h2 with h2
    rw [← h2] at t3 ⊢
    simpa [er, valMap, AMap.attr, AMap.num, AMap.noPos] using t3
  · cases h2

theorem regexp_p (hp : PosFn pf pos D) {k b ws v b' ws'} (hk : k + b.length = D) (h : RunsP o pf G.regexp b ws v b' ws') :
    ∃ body : Bytes, StringBody 47 body ∧ b = b!"/" ++ body ++ b!"/" ++ b' ∧ v = .regexp ⟨pos k, body⟩ ∧ ws' = ws := by
  obtain ⟨x, x1, x2, x3⟩ := runs_regexp.1 h.runs
  refine ⟨x, x1, by simpa using x2, ?_, h.quiet (by decide)⟩
  obtain ⟨f, h⟩ := h
  obtain ⟨v1, h1, h2⟩ := action_rp.1 h
  simp only [runAct] at h2
  injection h2 with h2
  rw [← h2] at x3 ⊢
  simp only [er, valMap, AMap.regexp, AMap.noPos, Val.regexp.injEq, RegexpLit.mk.injEq, true_and] at x3
  rw [x3, hp k b hk]

theorem selElem_p (hp : PosFn pf pos D) {k b ws v b' ws'} (hk : k + b.length = D)
    (h : RunsP o pf G.selectorElement b ws v b' ws') :
    ∃ n : Bytes, n ≠ [] ∧ n.all isSelChar = true ∧ b = 91 :: n ++ 93 :: b' ∧ v = .selElem ⟨pos k, n⟩ ∧ ws' = ws := by
  obtain ⟨f1, h0⟩ := h.runs
  obtain ⟨_, n, n1, n2, n3, n4⟩ := selElem_ok.1 h0
  refine ⟨n, n1, n2, n3, ?_, h.quiet (by decide)⟩
  obtain ⟨f, h⟩ := h
  obtain ⟨v1, h1, h2⟩ := action_rp.1 h
  simp only [runAct] at h2
  injection h2 with h2
  rw [← h2] at n4 ⊢
  simp only [er, valMap, AMap.selElem, AMap.noPos, Val.selElem.injEq, SelElem.mk.injEq, true_and] at n4
  rw [n4, hp k b hk]

theorem selSteps_p (hp : PosFn pf pos D) {b ws vs b' ws'} (h : StepsP o pf G.selectorElement b ws vs b' ws') :
    ∀ k, k + b.length = D → ∃ names : List Bytes, (∀ n ∈ names, n ≠ [] ∧ n.all isSelChar = true) ∧
      b = selText names ++ b' ∧ vs = (selElemsAt pos k names).map Val.selElem ∧ ws' = ws := by
  induction h with
  | nil => intro k _; exact ⟨[], by simp, by simp [selText], rfl, rfl⟩
  | cons h1 _ ih =>
    intro k hk
    obtain ⟨n, n1, n2, n3, rfl, rfl⟩ := selElem_p hp hk h1
    obtain ⟨ns, i1, i2, rfl, rfl⟩ := ih (k + n.length + 2) (by rw [n3] at hk; simp at hk; omega)
    subst i2
    refine ⟨n :: ns, ?_, by simp [n3, selText], rfl, rfl⟩
    intro m hm
    simp only [List.mem_cons] at hm
    rcases hm with rfl | hm
    · exact ⟨n1, n2⟩
    · exact i1 m hm

theorem collectSel_p (l : List SelElem) : collectSelElems (l.map Val.selElem) = some l := by
  induction l with
  | nil => rfl
  | cons n ns ih => simp [collectSelElems, ih]

theorem selector_p (hp : PosFn pf pos D) {k b ws v b' ws'} (hk : k + b.length = D)
    (h : RunsP o pf G.selector b ws v b' ws') :
    ∃ names, SelOk names ∧ b = selText names ++ b' ∧ v = .selector (selAt pos k names) ∧ ws' = ws := by
  obtain ⟨f, h⟩ := h
  obtain ⟨v1, h1, h2⟩ := action_rp.1 h
  obtain ⟨⟨f2, h3⟩, rfl⟩ := labeled_rp.1 h1
  have : ∃ vs, v1 = .list vs ∧ StepsP o pf G.selectorElement b ws vs b' ws' ∧ vs ≠ [] := by
    cases h3 with
    | term ht hr => exact absurd ht (by decide)
    | plus h4 h5 _ => exact ⟨_, rfl, .cons ⟨_, h4⟩ h5.steps, by simp⟩
  obtain ⟨vs, rfl, hs, hne⟩ := this
  obtain ⟨names, n1, n2, rfl, rfl⟩ := selSteps_p hp hs k hk
  refine ⟨names, ⟨?_, n1⟩, n2, ?_, rfl⟩
  · rintro rfl; exact hne rfl
  · simp only [runAct, Frame.get, if_true, toIfaceSlice, collectSel_p] at h2
    injection h2 with h2
    rw [← h2, hp k b hk]; rfl

theorem boolOp_p (hp : PosFn pf pos D) {k b ws v b' ws'} (hk : k + b.length = D)
    (h : RunsP o pf G.booleanOperator b ws v b' ws') :
    ∃ op, (op ≠ .undefined ∧ op ≠ .noOp) ∧ b = boolText op ++ b' ∧ v = .boolOp ⟨op, pos k⟩ ∧ ws' = ws := by
  obtain ⟨op, x1, x2, x3⟩ := runs_boolOp.1 h.runs
  refine ⟨op, x1, x2, ?_, h.quiet (by decide)⟩
  obtain ⟨f, h⟩ := h
  obtain ⟨v1, h1, h2⟩ := action_rp.1 h
  simp only [runAct] at h2
  injection h2 with h2
  rw [← h2] at x3 ⊢
  simp only [er, valMap, AMap.boolOp, AMap.noPos, Val.boolOp.injEq, BoolOp.mk.injEq, and_true] at x3
  rw [x3, hp k b hk]

theorem cmpOp_p (hp : PosFn pf pos D) {k b ws v b' ws'} (hk : k + b.length = D)
    (h : RunsP o pf G.compareOperator b ws v b' ws') :
    ∃ op, op ≠ .undefined ∧ b = cmpText op ++ b' ∧ v = .cmpOp ⟨op, pos k⟩ ∧ ws' = ws := by
  obtain ⟨op, x1, x2, _, x3⟩ := runs_cmpOp.1 h.runs
  refine ⟨op, x1, x2, ?_, h.quiet (by decide)⟩
  obtain ⟨f, h⟩ := h
  obtain ⟨v1, h1, h2⟩ := action_rp.1 h
  simp only [runAct] at h2
  injection h2 with h2
  rw [← h2] at x3 ⊢
  simp only [er, valMap, AMap.cmpOp, AMap.noPos, Val.cmpOp.injEq, CmpOp.mk.injEq, and_true] at x3
  rw [x3, hp k b hk]

theorem reOp_p (hp : PosFn pf pos D) {k b ws v b' ws'} (hk : k + b.length = D)
    (h : RunsP o pf G.regexpOperator b ws v b' ws') :
    ∃ op, op ≠ .undefined ∧ b = reText op ++ b' ∧ v = .reOp ⟨op, pos k⟩ ∧ ws' = ws := by
  obtain ⟨op, x1, x2, x3⟩ := runs_reOp.1 h.runs
  refine ⟨op, x1, x2, ?_, h.quiet (by decide)⟩
  obtain ⟨f, h⟩ := h
  obtain ⟨v1, h1, h2⟩ := action_rp.1 h
  simp only [runAct] at h2
  injection h2 with h2
  rw [← h2] at x3 ⊢
  simp only [er, valMap, AMap.reOp, AMap.noPos, Val.reOp.injEq, ReOp.mk.injEq, and_true] at x3
  rw [x3, hp k b hk]

theorem ptype_p {b ws v b' ws'} (h : RunsP o pf G.pluginType b ws v b' ws') :
    ∃ t, t ≠ .undefined ∧ b = ptypeText t ++ b' ∧ v = .ptype t ∧ ws' = ws := by
  obtain ⟨t, x1, x2, x3⟩ := runs_ptype.1 h.runs
  exact ⟨t, x1, x2, er_eq_plain x3 rfl, h.quiet (by decide)⟩

theorem gap_p {b ws v b' ws'} : RunsP o pf G.gap b ws v b' ws' →
    v = gapVal o (gapOf b).1 ∧ b' = (gapOf b).2 ∧ ws' = ws := runsP_gap

theorem ws_p {b fr ws v b' fr' ws'} (h : RP o pf G.whitespace b fr ws v b' fr' ws') :
    b.takeWhile isWs ≠ [] ∧ b' = b.dropWhile isWs ∧ fr' = fr ∧ ws' = ws := by
  obtain ⟨h1, _, h3, h4⟩ := ws_ok.1 h.run
  refine ⟨h1, h3, ?_, h.quiet (by decide)⟩
  obtain ⟨v1, h5, _⟩ := action_rp.1 h
  cases h5 with
  | term ht hr => exact absurd ht (by decide)
  | plus => rfl

end
end Verif
