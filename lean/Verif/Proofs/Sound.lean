import Verif.Proofs.RunTok
/-
Soundness of the grammar: whatever the parser accepts without recording an error is the text of a
concrete syntax tree, and the value it builds is the configuration the tree denotes.
-/
namespace Verif
open Spec

section
variable {o : Opts}

/-- ASCII text. -/
abbrev Ascii (tok : Bytes) : Prop := tok.all (fun c => decide (c < 128)) = true

theorem gap_ok {b b' : Bytes} {v : Val} {fr fr' : Frame} : run o G.gap b fr = .ok v b' fr' ↔
    v = gapVal o (gapOf b).1 ∧ b' = (gapOf b).2 ∧ fr' = fr := by
  rw [run_gap]; simp [eq_comm]

theorem runs_gap {b b' : Bytes} {v : Val} : Runs o G.gap b v b' ↔
    v = gapVal o (gapOf b).1 ∧ b' = (gapOf b).2 := by
  unfold Runs
  simp only [gap_ok]
  constructor
  · rintro ⟨f, h1, h2, h3⟩; exact ⟨h1, h2⟩
  · rintro ⟨h1, h2⟩; exact ⟨[], h1, h2, rfl⟩

theorem gapS_ok {b b' : Bytes} {v : Val} {fr fr' : Frame} : run o G.gapS b fr = .ok v b' fr' ↔
    v = .str (gapOf b).1.text ∧ b' = (gapOf b).2 ∧ fr' = fr := by
  rw [run_gapS]; simp [eq_comm]

theorem warn_ok {b b' : Bytes} {v : Val} {fr fr' : Frame} : run o G.warn b fr = .ok v b' fr' ↔
    v = .nil ∧ b' = b ∧ fr' = fr := by
  rw [run_warn]; simp [eq_comm]

/-- What reading a gap in front of a token tells. -/
theorem gap_split {b : Bytes} {tok b' : Bytes} (h : (gapOf b).2 = tok ++ b') (hne : tok ≠ []) :
    (gapOf b).1.Ok ∧ b = (gapOf b).1.text ++ (tok ++ b') := by
  have h1 := (gapOf_spec b).1
  rw [h] at h1
  refine ⟨?_, h1⟩
  cases tok with
  | nil => exact absurd rfl hne
  | cons c t => exact gapOf_ok h

theorem gap_stop (b : Bytes) : Stop (gapOf b).2 := (gapOf_spec b).2.1

theorem block_gap (b : Bytes) (sb sa : Bool) :
    commentBlock (gapVal o (gapOf b).1) sb sa = (gapOf b).1.block o.ignoreComments sb sa :=
  commentBlock_gap _ (gapOf_spec b).2.2.1 _ _

theorem gapOf_length (b : Bytes) : (gapOf b).2.length ≤ b.length := by
  have := congrArg List.length (gapOf_spec b).1
  simp at this; omega

theorem block_empty (ign sb sa : Bool) : Gap.empty.block ign sb sa = [] := by
  cases ign <;> cases sb <;> cases sa <;> rfl

theorem strLit_valueStr {s : StrLit} (h : s.Name) : StrAttr.valueStr s.ast = s.text := by
  obtain ⟨sat, body⟩ := s
  rcases h with ⟨h, _⟩ | ⟨h, _⟩ | ⟨h, _⟩ <;> simp only at h <;> subst h <;>
    simp [StrAttr.valueStr, StrLit.ast, StrLit.text, StrLit.quote, Sat.str]

theorem name_text_ne {s : StrLit} (h : s.Name) : s.text ≠ [] := by
  obtain ⟨sat, body⟩ := s
  rcases h with ⟨h, h1, _⟩ | ⟨h, _⟩ | ⟨h, _⟩ <;> simp only at h <;> subst h <;>
    simp [StrLit.text, StrLit.quote]
  exact h1

/-- The parser's value for a value. -/
def cvalVal (ign : Bool) : CVal → Val
  | .plug p => .plugin (p.ast ign [])
  | v => .attr (v.ast ign)

/-- Soundness of the rule `value` on an input. -/
def ValueSound (o : Opts) (b : Bytes) : Prop :=
  ∀ v b', Stop b → Runs o G.value b v b' → ∃ c : CVal, c.Ok ∧ b = c.text ++ b' ∧ v = cvalVal o.ignoreComments c

theorem quoted_value {s : StrLit} (h : s.Quoted) : s.Value := .inr h
theorem bare_value {x : Bytes} (h : BareOk x) : StrLit.Value ⟨.bareword, x⟩ := by
  obtain ⟨c, r, h1, h2, h3, h4⟩ := h
  exact .inl ⟨rfl, c, r, h1, h2, h3, h4⟩

theorem attribute_cval {nm : StrLit} (hn : nm.Name) (c : CVal) :
    attributeAction Pos.zero (.attr (.str nm.ast)) (cvalVal ign c) = .val (.attr (withName nm.text (c.ast ign))) := by
  have h := strLit_valueStr hn
  cases c <;> simp [attributeAction, cvalVal, withName, CVal.ast, h] <;> simp [StrLit.ast, numAst]

theorem cval_text_ne {c : CVal} (h : c.Ok) : c.text ≠ [] := by
  cases c with
  | str s =>
    rcases h with ⟨h1, d, r, h2, _⟩ | h
    · simp [CVal.text, StrLit.text, h2]
    · exact name_text_ne (.inr h)
  | num t =>
    obtain ⟨⟨s, d, f, rfl, _, hd, _⟩, _⟩ := h
    simp [CVal.text, hd]
  | arr e g => simp [CVal.text]
  | hash e g => simp [CVal.text]
  | plug p =>
    obtain ⟨nm, g, as, ft⟩ := p
    have := name_text_ne h.1
    simp [CVal.text, CPlugin.text]

theorem dropWhile_length (p : UInt8 → Bool) (b : Bytes) : (b.dropWhile p).length ≤ b.length := by
  have l2 := congrArg List.length (List.takeWhile_append_dropWhile (p := p) (l := b))
  rw [List.length_append] at l2
  omega

/-- Soundness of the rule `attribute`. -/
theorem attr_sound {n : Nat} (ih : ∀ b, b.length < n → ValueSound o b) {b b' : Bytes} {v : Val} (hb : b.length ≤ n)
    (h : Runs o G.attr b v b') : ∃ (nm : StrLit) (g1 g2 : Gap) (c : CVal), nm.Name ∧ g1.Ok ∧ g2.Ok ∧ c.Ok ∧
      b = nm.text ++ g1.text ++ b!"=>" ++ g2.text ++ c.text ++ b' ∧
      v = .attr (withName nm.text (c.ast o.ignoreComments)) := by
  obtain ⟨f, h⟩ := h
  simp (discharger := decide) only [G.attr, action_ok, run_seq, seqR_cons_ok, seqR_nil_ok, labeled_ok, ref_ok, tok_ok, gapS_ok, warn_ok,
    gram] at h
  obtain ⟨v0, ⟨v1, b1, f1, ⟨h1, rfl⟩, v2, b2, f2, ⟨rfl, rfl, rfl⟩, v3, b3, f3, ⟨rfl, rfl, rfl⟩, v4, b4, f4, ⟨h2, rfl, rfl⟩,
    v5, b5, f5, ⟨rfl, rfl, rfl⟩, v6, b6, f6, ⟨rfl, rfl, rfl⟩, v7, b7, f7, ⟨h3, rfl⟩, rfl, rfl, rfl⟩, h4⟩ := h
  obtain ⟨nm, k1, rfl, rfl, k4⟩ := runs_name.1 h1
  have hl := name_text_ne k1
  obtain ⟨g1, e1⟩ := gap_split h2 (by simp)
  have hlen : (gapOf b4).2.length < n := by
    have l1 := gapOf_length b4
    have l2 := gapOf_length b1
    have l3 := congrArg List.length h2
    simp at l3 hb
    have : 0 < nm.text.length := List.length_pos_iff.2 hl
    omega
  rw [runs_ref] at h3
  obtain ⟨c, c1, c2, rfl⟩ := ih _ hlen _ _ (gap_stop _) h3
  obtain ⟨g2, e2⟩ := gap_split c2 (cval_text_ne c1)
  refine ⟨nm, _, _, c, k1, g1, g2, c1, ?_, ?_⟩
  · generalize (gapOf b1).1 = ga at e1 ⊢
    generalize (gapOf b4).1 = gb at e2 ⊢
    rw [e1, e2]
    simp only [List.append_assoc]
  · simp only [runAct, Frame.get, if_true, reduceCtorEq, if_false] at h4
    rw [attribute_cval k1] at h4
    injection h4 with h4
    exact h4.symm

theorem ws_ok {b b' : Bytes} {v : Val} {fr fr' : Frame} : run o G.whitespace b fr = .ok v b' fr' ↔
    b.takeWhile isWs ≠ [] ∧ v = .ws ∧ b' = b.dropWhile isWs ∧ fr' = fr := by
  rw [run_ws]
  split
  · rename_i h
    have h := List.isEmpty_iff.1 h
    simp [h]
  · rename_i h
    have h : b.takeWhile isWs ≠ [] := fun e => h (by rw [e]; rfl)
    simp only [Res.ok.injEq]
    constructor
    · rintro ⟨rfl, rfl, rfl⟩; exact ⟨h, rfl, rfl, rfl⟩
    · rintro ⟨_, rfl, rfl, rfl⟩; exact ⟨rfl, rfl, rfl⟩

theorem ws_fail {b : Bytes} {fr : Frame} : run o G.whitespace b fr = .fail ↔ b.takeWhile isWs = [] := by
  rw [run_ws]
  split <;> simp_all

theorem lineOf_ws {b b' : Bytes} {l : CommentLine} (h : lineOf b = some (l, b')) : l.ws = b.takeWhile isWs := by
  unfold lineOf at h
  split at h
  · split at h
    all_goals first | (cases h; done) | (simp only [Option.some.injEq, Prod.mk.injEq] at h; rw [← h.1])
  · cases h

theorem sepOk_gapOf (b : Bytes) (h : b.takeWhile isWs ≠ []) : SepOk (b.takeWhile isWs) (gapOf (b.dropWhile isWs)).1 := by
  refine ⟨h, takeWhile_all _ _, ?_⟩
  have ht := takeWhile_dropWhile isWs b
  cases hl : lineOf (b.dropWhile isWs) with
  | none =>
    rw [gapOf, linesOf_none hl]
    exact ht
  | some p =>
    obtain ⟨l, b'⟩ := p
    rw [gapOf, linesOf_some hl]
    simp only
    rw [lineOf_ws hl, ht]

/-- The expression of a further attribute. -/
abbrev attrStepEx : Ex := .action (.attributeComment .attribute .comment true) (.seq [
  G.whitespace, .labeled .comment G.gap, .labeled .attribute (.ref .attribute)])

theorem attributeComment_cval (nm : Bytes) (c : CVal) (cb : Val) (sb : Bool) :
    attributeComment (.attr (withName nm (c.ast ign))) cb sb =
      some (withComment (commentBlock cb sb false) (withName nm (c.ast ign))) := by
  cases c <;> rfl

theorem attrStep_sound {n : Nat} (ih : ∀ b, b.length < n → ValueSound o b) {b b' : Bytes} {v : Val} (hb : b.length ≤ n)
    (h : Runs o attrStepEx b v b') : ∃ a : CAttr, attrsOk false [a] ∧ b = attrsText false [a] ++ b' ∧
      [v] = (attrsAst o.ignoreComments false [a]).map Val.attr := by
  obtain ⟨f, h⟩ := h
  simp (discharger := decide) only [attrStepEx, action_ok, run_seq, seqR_cons_ok, seqR_nil_ok, labeled_ok, ref_ok, tok_ok, gapS_ok, warn_ok,
    ws_ok, runs_gap, runs_ref, gram] at h
  obtain ⟨v0, ⟨v1, b1, f1, ⟨hw, rfl, rfl, rfl⟩, v2, b2, f2, ⟨⟨rfl, rfl⟩, rfl⟩, v3, b3, f3, ⟨h1, rfl⟩, rfl, rfl, rfl⟩, h2⟩ := h
  have hlen : (gapOf (b.dropWhile isWs)).2.length ≤ n := by
    have l1 := gapOf_length (b.dropWhile isWs)
    have l2 := dropWhile_length isWs b
    omega
  obtain ⟨nm, g1, g2, c, k1, k2, k3, k4, k5, rfl⟩ := attr_sound ih hlen h1
  have k5' : (gapOf (b.dropWhile isWs)).2 = nm.text ++ (g1.text ++ b!"=>" ++ g2.text ++ c.text ++ b') := by
    rw [k5]; simp
  obtain ⟨e1, e2⟩ := gap_split k5' (name_text_ne k1)
  refine ⟨.mk (b.takeWhile isWs) _ nm g1 g2 c, ⟨fun _ => sepOk_gapOf b hw, e1, k1, k2, k3, k4, trivial⟩, ?_, ?_⟩
  · conv => lhs; rw [← List.takeWhile_append_dropWhile (p := isWs) (l := b), e2]
    simp [attrsText]
  · simp only [runAct, Frame.get, if_true, reduceCtorEq, if_false, attributeComment_cval] at h2
    injection h2 with h2
    rw [← h2, block_gap]
    simp [attrsAst]

theorem attrsText_append (a : CAttr) (as : List CAttr) : attrsText false (a :: as) = attrsText false [a] ++ attrsText false as := by
  cases a; simp [attrsText]
theorem attrsAst_append (ign : Bool) (a : CAttr) (as : List CAttr) :
    attrsAst ign false (a :: as) = attrsAst ign false [a] ++ attrsAst ign false as := by
  cases a; simp [attrsAst]
theorem attrsOk_append (a : CAttr) (as : List CAttr) : attrsOk false (a :: as) ↔ attrsOk false [a] ∧ attrsOk false as := by
  cases a; simp [attrsOk, and_assoc]

theorem attrSteps_sound {n : Nat} (ih : ∀ b, b.length < n → ValueSound o b) {b b' : Bytes} {vs : List Val}
    (h : Steps o attrStepEx b vs b') (hb : b.length ≤ n) : ∃ as : List CAttr, attrsOk false as ∧
      b = attrsText false as ++ b' ∧ vs = (attrsAst o.ignoreComments false as).map Val.attr := by
  induction h with
  | nil => exact ⟨[], trivial, rfl, rfl⟩
  | cons h1 _ ih2 =>
    obtain ⟨a, a1, rfl, a3⟩ := attrStep_sound ih hb h1
    obtain ⟨as, s1, rfl, rfl⟩ := ih2 (by simp at hb; omega)
    refine ⟨a :: as, (attrsOk_append a as).2 ⟨a1, s1⟩, ?_, ?_⟩
    · rw [attrsText_append a as, List.append_assoc]
    · rw [attrsAst_append, List.map_append, ← a3]; rfl

theorem collectAttrs_attr (l : List Attr) : collectAttrs (l.map Val.attr) = some l := by
  induction l with
  | nil => rfl
  | cons a l ih => simp [collectAttrs, ih]

/-- The attributes of a plugin. -/
abbrev attrsEx : Ex := .action (.attributes .attribute .attrs .comment) (.seq [
  .labeled .comment G.gap, .labeled .attribute (.ref .attribute), .labeled .attrs (.star attrStepEx)])

theorem attrs_sound {n : Nat} (ih : ∀ b, b.length < n → ValueSound o b) {b b' : Bytes} {v : Val} (hb : b.length ≤ n)
    (h : Runs o attrsEx b v b') : ∃ as : List CAttr, attrsOk true as ∧ b = attrsText true as ++ b' ∧
      v = .attrs (attrsAst o.ignoreComments true as) := by
  obtain ⟨f, h⟩ := h
  simp (discharger := decide) only [attrsEx, action_ok, run_seq, seqR_cons_ok, seqR_nil_ok, labeled_ok, ref_ok, tok_ok, gapS_ok, warn_ok,
    ws_ok, runs_gap, runs_ref, gram] at h
  obtain ⟨v0, ⟨v1, b1, f1, ⟨⟨rfl, rfl⟩, rfl⟩, v2, b2, f2, ⟨h1, rfl⟩, v3, b3, f3, ⟨⟨f4, h2⟩, rfl⟩, rfl, rfl, rfl⟩, h3⟩ := h
  have hlen := gapOf_length b
  obtain ⟨nm, g1, g2, c, k1, k2, k3, k4, k5, rfl⟩ := attr_sound ih (by omega) h1
  have k5' : (gapOf b).2 = nm.text ++ (g1.text ++ b!"=>" ++ g2.text ++ c.text ++ b2) := by
    rw [k5]; simp
  obtain ⟨e1, e2⟩ := gap_split k5' (name_text_ne k1)
  obtain ⟨rfl, vs, rfl, h4, _⟩ := star_ok.1 h2
  obtain ⟨as, s1, rfl, rfl⟩ := attrSteps_sound ih h4 (by
    have := congrArg List.length k5; simp at this; omega)
  refine ⟨.mk [] _ nm g1 g2 c :: as, ⟨(fun h => nomatch h), e1, k1, k2, k3, k4, s1⟩, ?_, ?_⟩
  · conv => lhs; rw [e2]
    simp [attrsText]
  · simp only [runAct, Frame.get, if_true, reduceCtorEq, if_false, attributeComment_cval, toIfaceSlice] at h3
    rw [show ∀ (x : Attr) (l : List Attr), [Val.attr x] ++ l.map Val.attr = (x :: l).map Val.attr from fun _ _ => rfl,
      collectAttrs_attr] at h3
    simp only at h3
    injection h3 with h3
    rw [← h3, block_gap]
    simp [attrsAst]

theorem gap_ok_of_close {b b' : Bytes} {c : UInt8} (h : (gapOf b).2 = [c] ++ b') :
    (gapOf b).1.Ok ∧ b = (gapOf b).1.text ++ ([c] ++ b') := gap_split h (by simp)

/-- Soundness of the rule `plugin`. -/
theorem plugin_sound {n : Nat} (ih : ∀ b, b.length < n → ValueSound o b) {b b' : Bytes} {v : Val} (hb : b.length ≤ n)
    (h : Runs o G.plugin b v b') : ∃ p : CPlugin, p.Ok ∧ (gapOf b).1.Ok ∧ b = (gapOf b).1.text ++ (p.text ++ b') ∧
      (gapOf b).2 = p.text ++ b' ∧
      v = .plugin (p.ast o.ignoreComments ((gapOf b).1.block o.ignoreComments false false)) := by
  obtain ⟨f, h⟩ := h
  simp (discharger := decide) only [G.plugin, action_ok, run_seq, seqR_cons_ok, seqR_nil_ok, labeled_ok, ref_ok, tok_ok, gapS_ok, warn_ok,
    runs_gap, close_ok] at h
  obtain ⟨v0, ⟨v1, b1, f1, ⟨⟨rfl, rfl⟩, rfl⟩, v2, b2, f2, ⟨h1, rfl⟩, v3, b3, f3, ⟨rfl, rfl, rfl⟩, v4, b4, f4, ⟨rfl, rfl, rfl⟩,
    v5, b5, f5, ⟨h2, rfl, rfl⟩, v6, b6, f6, ⟨⟨f7, h3⟩, rfl⟩, v7, b7, f8, ⟨⟨rfl, rfl⟩, rfl⟩, v8, b8, f9, ⟨h4, rfl, rfl⟩, rfl, rfl, rfl⟩, h5⟩ := h
  obtain ⟨nm, k1, k2, rfl, k4⟩ := runs_name.1 h1
  obtain ⟨e1, e2⟩ := gap_split k2 (name_text_ne k1)
  obtain ⟨e3, e4⟩ := gap_split h2 (by simp)
  obtain ⟨e5, e6⟩ := gap_split h4 (by simp)
  have hlen : b5.length ≤ n := by
    have l1 := gapOf_length b
    have l2 := gapOf_length b2
    have l3 := congrArg List.length k2
    have l4 := congrArg List.length h2
    simp at l3 l4
    omega
  obtain ⟨as, s1, s2, s3⟩ : ∃ as : List CAttr, attrsOk true as ∧ b5 = attrsText true as ++ b6 ∧
      (v6 = .attrs (attrsAst o.ignoreComments true as) ∨ (v6 = .nil ∧ as = [])) := by
    rcases opt_ok.1 h3 with ⟨h6, _⟩ | ⟨_, h6, rfl, _⟩
    · obtain ⟨as, s1, s2, s3⟩ := attrs_sound ih hlen h6
      exact ⟨as, s1, s2, .inl s3⟩
    · exact ⟨[], trivial, rfl, .inr ⟨h6, rfl⟩⟩
  have htext : nm.text ++ b2 = CPlugin.text (.mk nm (gapOf b2).1 as (gapOf b6).1) ++ b' := by
    conv => lhs; rw [e4, s2, e6]
    simp [CPlugin.text]
  refine ⟨.mk nm _ as _, ⟨k1, e3, s1, e5⟩, e1, ?_, ?_, ?_⟩
  · conv => lhs; rw [e2, htext]
  · rw [k2, htext]
  · simp only [runAct, Frame.get, if_true, reduceCtorEq, if_false] at h5
    rcases s3 with rfl | ⟨rfl, rfl⟩
    · simp only [strLit_valueStr k1, block_gap] at h5
      injection h5 with h5
      rw [← h5]; rfl
    · simp only [strLit_valueStr k1, block_gap] at h5
      injection h5 with h5
      rw [← h5]; rfl

/-! ### Arrays -/

/-- The expression of a further array element. -/
abbrev elemStepEx : Ex := .action (.attributeComment .value .comment true) (.seq [
  G.gapS, G.warn, .lit b!",", .labeled .comment G.gap, .labeled .value (.ref .value)])

/-- The elements of an array. -/
abbrev elemsEx : Ex := .action (.attributes .value .values .comment) (.seq [
  .labeled .comment G.gap, .labeled .value (.ref .value), .labeled .values (.star elemStepEx)])

theorem attributeComment_cvalVal (c : CVal) (cb : Val) (sb : Bool) :
    attributeComment (cvalVal ign c) cb sb =
      if c.isPlug then none else some (withComment (commentBlock cb sb false) (c.ast ign)) := by
  cases c <;> rfl

theorem elemStep_sound {n : Nat} (ih : ∀ b, b.length < n → ValueSound o b) {b b' : Bytes} {v : Val} (hb : b.length ≤ n)
    (h : Runs o elemStepEx b v b') : ∃ a : CElem, elemsOk false [a] ∧ b = elemsText false [a] ++ b' ∧
      [v] = (elemsAst o.ignoreComments false [a]).map Val.attr := by
  obtain ⟨f, h⟩ := h
  simp (discharger := decide) only [elemStepEx, action_ok, run_seq, seqR_cons_ok, seqR_nil_ok, labeled_ok, ref_ok, tok_ok, gapS_ok, warn_ok,
    runs_gap, runs_ref, gram] at h
  obtain ⟨v0, ⟨v1, b1, f1, ⟨rfl, rfl, rfl⟩, v2, b2, f2, ⟨rfl, rfl, rfl⟩, v3, b3, f3, ⟨h1, rfl, rfl⟩,
    v4, b4, f4, ⟨⟨rfl, rfl⟩, rfl⟩, v5, b5, f5, ⟨h2, rfl⟩, rfl, rfl, rfl⟩, h3⟩ := h
  obtain ⟨e1, e2⟩ := gap_split h1 (by simp)
  have hlen : (gapOf b3).2.length < n := by
    have l1 := gapOf_length b3
    have l2 := gapOf_length b
    have l3 := congrArg List.length h1
    simp at l3; omega
  obtain ⟨c, c1, c2, rfl⟩ := ih _ hlen _ _ (gap_stop _) h2
  obtain ⟨e3, e4⟩ := gap_split c2 (cval_text_ne c1)
  simp only [runAct, Frame.get, if_true, reduceCtorEq, if_false, attributeComment_cvalVal] at h3
  have hp : c.isPlug = false := by
    cases hc : c.isPlug
    · rfl
    · rw [hc] at h3; simp at h3
  rw [hp] at h3
  simp only [Bool.false_eq_true, if_false] at h3
  injection h3 with h3
  refine ⟨.mk (gapOf b).1 (gapOf b3).1 c, ⟨e1, e3, c1, fun _ => hp, trivial⟩, ?_, ?_⟩
  · conv => lhs; rw [e2, e4]
    simp [elemsText]
  · rw [← h3, block_gap]
    simp [elemsAst, hp]

theorem elemsText_append (a : CElem) (as : List CElem) : elemsText false (a :: as) = elemsText false [a] ++ elemsText false as := by
  cases a; simp [elemsText]
theorem elemsAst_append (ign : Bool) (a : CElem) (as : List CElem) :
    elemsAst ign false (a :: as) = elemsAst ign false [a] ++ elemsAst ign false as := by
  cases a; simp only [elemsAst]; split <;> simp
theorem elemsOk_append (a : CElem) (as : List CElem) : elemsOk false (a :: as) ↔ elemsOk false [a] ∧ elemsOk false as := by
  cases a; simp [elemsOk, and_assoc]

theorem elemSteps_sound {n : Nat} (ih : ∀ b, b.length < n → ValueSound o b) {b b' : Bytes} {vs : List Val}
    (h : Steps o elemStepEx b vs b') (hb : b.length ≤ n) : ∃ as : List CElem, elemsOk false as ∧
      b = elemsText false as ++ b' ∧ vs = (elemsAst o.ignoreComments false as).map Val.attr := by
  induction h with
  | nil => exact ⟨[], trivial, rfl, rfl⟩
  | cons h1 _ ih2 =>
    obtain ⟨a, a1, rfl, a3⟩ := elemStep_sound ih hb h1
    obtain ⟨as, s1, rfl, rfl⟩ := ih2 (by simp at hb; omega)
    refine ⟨a :: as, (elemsOk_append a as).2 ⟨a1, s1⟩, ?_, ?_⟩
    · rw [elemsText_append a as, List.append_assoc]
    · rw [elemsAst_append, List.map_append, ← a3]; rfl

theorem elems_sound {n : Nat} (ih : ∀ b, b.length < n → ValueSound o b) {b b' : Bytes} {v : Val} (hb : b.length < n)
    (h : Runs o elemsEx b v b') : ∃ as : List CElem, elemsOk true as ∧ b = elemsText true as ++ b' ∧
      v = .attrs (elemsAst o.ignoreComments true as) := by
  obtain ⟨f, h⟩ := h
  simp (discharger := decide) only [elemsEx, action_ok, run_seq, seqR_cons_ok, seqR_nil_ok, labeled_ok, ref_ok, tok_ok, gapS_ok, warn_ok,
    ws_ok, runs_gap, runs_ref, gram] at h
  obtain ⟨v0, ⟨v1, b1, f1, ⟨⟨rfl, rfl⟩, rfl⟩, v2, b2, f2, ⟨h1, rfl⟩, v3, b3, f3, ⟨⟨f4, h2⟩, rfl⟩, rfl, rfl, rfl⟩, h3⟩ := h
  have hlen := gapOf_length b
  obtain ⟨c, c1, c2, rfl⟩ := ih _ (by omega) _ _ (gap_stop _) h1
  obtain ⟨e1, e2⟩ := gap_split c2 (cval_text_ne c1)
  obtain ⟨rfl, vs, rfl, h4, _⟩ := star_ok.1 h2
  obtain ⟨as, s1, rfl, rfl⟩ := elemSteps_sound ih h4 (by
    have := congrArg List.length c2; simp at this; omega)
  refine ⟨.mk Gap.empty _ c :: as, ⟨⟨by simp [Gap.empty], rfl⟩, e1, c1, (fun h => nomatch h), s1⟩, ?_, ?_⟩
  · conv => lhs; rw [e2]
    simp [elemsText]
  · simp only [runAct, Frame.get, if_true, reduceCtorEq, if_false, attributeComment_cvalVal, toIfaceSlice] at h3
    cases hp : c.isPlug with
    | true =>
      rw [hp] at h3
      simp only [if_true, List.nil_append, collectAttrs_attr] at h3
      injection h3 with h3
      rw [← h3]
      simp [elemsAst, hp]
    | false =>
      rw [hp] at h3
      simp only [Bool.false_eq_true, if_false] at h3
      rw [show ∀ (x : Attr) (l : List Attr), [Val.attr x] ++ l.map Val.attr = (x :: l).map Val.attr from fun _ _ => rfl,
        collectAttrs_attr] at h3
      simp only at h3
      injection h3 with h3
      rw [← h3, block_gap]
      simp [elemsAst, hp]

/-- Soundness of the rule `array`. -/
theorem array_sound {n : Nat} (ih : ∀ b, b.length < n → ValueSound o b) {b b' : Bytes} {v : Val} (hb : b.length ≤ n)
    (h : Runs o G.array b v b') : ∃ as g, (CVal.arr as g).Ok ∧ b = (CVal.arr as g).text ++ b' ∧
      v = .attr ((CVal.arr as g).ast o.ignoreComments) := by
  obtain ⟨f, h⟩ := h
  simp (discharger := decide) only [G.array, action_ok, run_seq, seqR_cons_ok, seqR_nil_ok, labeled_ok, ref_ok, tok_ok, gapS_ok, warn_ok,
    runs_gap, close_ok] at h
  obtain ⟨v0, ⟨v1, b1, f1, ⟨rfl, rfl, rfl⟩, v2, b2, f2, ⟨⟨f3, h1⟩, rfl⟩, v3, b3, f4, ⟨⟨rfl, rfl⟩, rfl⟩, v4, b4, f5, ⟨h2, rfl, rfl⟩,
    rfl, rfl, rfl⟩, h3⟩ := h
  obtain ⟨e1, e2⟩ := gap_split h2 (by simp)
  obtain ⟨as, s1, s2, s3⟩ : ∃ as : List CElem, elemsOk true as ∧ b1 = elemsText true as ++ b2 ∧
      (v2 = .attrs (elemsAst o.ignoreComments true as) ∨ (v2 = .nil ∧ as = [])) := by
    rcases opt_ok.1 h1 with ⟨h6, _⟩ | ⟨_, h6, rfl, _⟩
    · obtain ⟨as, s1, s2, s3⟩ := elems_sound ih (by simp at hb; omega) h6
      exact ⟨as, s1, s2, .inl s3⟩
    · exact ⟨[], trivial, rfl, .inr ⟨h6, rfl⟩⟩
  refine ⟨as, (gapOf b2).1, ⟨s1, e1⟩, ?_, ?_⟩
  · conv => lhs; rw [s2, e2]
    simp [CVal.text]
  · simp only [runAct, Frame.get, if_true, reduceCtorEq, if_false] at h3
    rcases s3 with rfl | ⟨rfl, rfl⟩ <;> simp only [block_gap] at h3 <;> injection h3 with h3 <;> rw [← h3] <;> rfl

/-! ### Hashes -/

/-- Soundness of the rule `hashentry`; `com` is the gap in front of the key. -/
theorem hashentry_sound {n : Nat} (ih : ∀ b, b.length < n → ValueSound o b) {b b' : Bytes} {v : Val} (hb : b.length ≤ n)
    (h : Runs o G.hashentry b v b') : ∃ (k : CKey) (g1 g2 : Gap) (c : CVal), (gapOf b).1.Ok ∧ k.Ok ∧ g1.Ok ∧ g2.Ok ∧ c.Ok ∧
      c.isPlug = false ∧
      b = (gapOf b).1.text ++ k.text ++ g1.text ++ b!"=>" ++ g2.text ++ c.text ++ b' ∧
      v = .hentry (.mk Pos.zero k.ast (c.ast o.ignoreComments) ((gapOf b).1.block o.ignoreComments true false)) := by
  obtain ⟨f, h⟩ := h
  simp (discharger := decide) only [G.hashentry, action_ok, run_seq, seqR_cons_ok, seqR_nil_ok, labeled_ok, ref_ok, tok_ok, gapS_ok, warn_ok,
    runs_gap, runs_ref, gram] at h
  obtain ⟨v0, ⟨v1, b1, f1, ⟨⟨rfl, rfl⟩, rfl⟩, v2, b2, f2, ⟨⟨f3, h1⟩, rfl⟩, v3, b3, f4, ⟨rfl, rfl, rfl⟩, v4, b4, f5, ⟨rfl, rfl, rfl⟩,
    v5, b5, f6, ⟨h2, rfl, rfl⟩, v6, b6, f7, ⟨rfl, rfl, rfl⟩, v7, b7, f8, ⟨rfl, rfl, rfl⟩, v8, b8, f9, ⟨h3, rfl⟩, rfl, rfl, rfl⟩, h4⟩ := h
  obtain ⟨k, k1, k2, k3, k4⟩ : ∃ k : CKey, k.Ok ∧ (gapOf b).2 = k.text ++ b2 ∧ toHKey v2 = some k.ast ∧ k.text ≠ [] := by
    rw [run_choice] at h1
    simp only [choiceR_cons_ok, choiceR_nil_ok, and_false, or_false] at h1
    rcases h1 with ⟨h1, _⟩ | ⟨_, ⟨h1, _⟩ | ⟨_, h1, _⟩⟩
    · obtain ⟨t, t1, t2, rfl⟩ := number_sound h1
      refine ⟨.num t, t1, t2, rfl, ?_⟩
      obtain ⟨⟨s, d, f, rfl, _, hd, _⟩, _⟩ := t1
      simp [CKey.text, hd]
    · obtain ⟨x, x1, x2, _, rfl⟩ := runs_bareword.1 h1
      refine ⟨.str ⟨.bareword, x⟩, bare_value x1, by simpa [CKey.text, StrLit.text, StrLit.quote] using x2, rfl, ?_⟩
      obtain ⟨c, r, rfl, _⟩ := x1
      simp [CKey.text, StrLit.text, StrLit.quote]
    · obtain ⟨s, s1, s2, rfl⟩ := runs_stringValue.1 h1
      exact ⟨.str s, .inr s1, s2, rfl, name_text_ne (.inr s1)⟩
  obtain ⟨e1, e2⟩ := gap_split k2 k4
  obtain ⟨e3, e4⟩ := gap_split h2 (by simp)
  have hlen : (gapOf b5).2.length < n := by
    have l1 := gapOf_length b
    have l2 := gapOf_length b2
    have l3 := gapOf_length b5
    have l4 := congrArg List.length k2
    have l5 := congrArg List.length h2
    simp at l4 l5; omega
  obtain ⟨c, c1, c2, rfl⟩ := ih _ hlen _ _ (gap_stop _) h3
  obtain ⟨e5, e6⟩ := gap_split c2 (cval_text_ne c1)
  simp only [runAct, Frame.get, if_true, reduceCtorEq, if_false, k3, block_gap] at h4
  have hp : c.isPlug = false := by
    cases c <;> first | rfl | (simp [cvalVal, toAttr, badAssert] at h4)
  have hv : toAttr (cvalVal o.ignoreComments c) = some (c.ast o.ignoreComments) := by
    cases c <;> first | rfl | (simp [CVal.isPlug] at hp)
  rw [hv] at h4
  simp only at h4
  injection h4 with h4
  refine ⟨k, _, _, c, e1, k1, e3, e5, c1, hp, ?_, h4.symm⟩
  conv => lhs; rw [e2, e4, e6]
  simp

/-- The expression of a further hash entry. -/
abbrev entryStepEx : Ex := .action (.ret .hashentry) (.seq [G.whitespace, .labeled .hashentry (.ref .hashentry)])

theorem markFirst_idem (b c : Bool) (l : List Comment) : markFirst b (markFirst c l) = markFirst b l := by
  cases l <;> rfl

theorem markFirst_block (ign : Bool) (g : Gap) : markFirst true (g.block ign true false) = g.block ign true false := by
  unfold Gap.block
  cases ign
  · simp [markFirst_idem]
  · rfl

theorem entryStep_sound {n : Nat} (ih : ∀ b, b.length < n → ValueSound o b) {b b' : Bytes} {v : Val} (hb : b.length ≤ n)
    (h : Runs o entryStepEx b v b') : ∃ a : CEntry, entriesOk false [a] ∧ b = entriesText false [a] ++ b' ∧
      [v] = (entriesAst o.ignoreComments false [a]).map Val.hentry := by
  obtain ⟨f, h⟩ := h
  simp (discharger := decide) only [entryStepEx, action_ok, run_seq, seqR_cons_ok, seqR_nil_ok, labeled_ok, ref_ok, tok_ok, gapS_ok, warn_ok,
    ws_ok, runs_gap, runs_ref, gram] at h
  obtain ⟨v0, ⟨v1, b1, f1, ⟨hw, rfl, rfl, rfl⟩, v2, b2, f2, ⟨h1, rfl⟩, rfl, rfl, rfl⟩, h2⟩ := h
  have hlen : (b.dropWhile isWs).length ≤ n := by
    have l2 := dropWhile_length isWs b
    omega
  obtain ⟨k, g1, g2, c, e1, k1, k2, k3, k4, k5, k6, rfl⟩ := hashentry_sound ih hlen h1
  refine ⟨.mk (b.takeWhile isWs) _ k g1 g2 c, ⟨fun _ => sepOk_gapOf b hw, e1, k1, k2, k3, k4, k5, trivial⟩, ?_, ?_⟩
  · conv => lhs; rw [← List.takeWhile_append_dropWhile (p := isWs) (l := b), k6]
    simp [entriesText]
  · simp only [runAct, Frame.get, if_true] at h2
    injection h2 with h2
    rw [← h2]
    simp [entriesAst, markFirst_block]

theorem entriesText_append (a : CEntry) (as : List CEntry) : entriesText false (a :: as) = entriesText false [a] ++ entriesText false as := by
  cases a; simp [entriesText]
theorem entriesAst_append (ign : Bool) (a : CEntry) (as : List CEntry) :
    entriesAst ign false (a :: as) = entriesAst ign false [a] ++ entriesAst ign false as := by
  cases a; simp [entriesAst]
theorem entriesOk_append (a : CEntry) (as : List CEntry) : entriesOk false (a :: as) ↔ entriesOk false [a] ∧ entriesOk false as := by
  cases a; simp [entriesOk, and_assoc]

theorem entrySteps_sound {n : Nat} (ih : ∀ b, b.length < n → ValueSound o b) {b b' : Bytes} {vs : List Val}
    (h : Steps o entryStepEx b vs b') (hb : b.length ≤ n) : ∃ as : List CEntry, entriesOk false as ∧
      b = entriesText false as ++ b' ∧ vs = (entriesAst o.ignoreComments false as).map Val.hentry := by
  induction h with
  | nil => exact ⟨[], trivial, rfl, rfl⟩
  | cons h1 _ ih2 =>
    obtain ⟨a, a1, rfl, a3⟩ := entryStep_sound ih hb h1
    obtain ⟨as, s1, rfl, rfl⟩ := ih2 (by simp at hb; omega)
    refine ⟨a :: as, (entriesOk_append a as).2 ⟨a1, s1⟩, ?_, ?_⟩
    · rw [entriesText_append a as, List.append_assoc]
    · rw [entriesAst_append, List.map_append, ← a3]; rfl

theorem collectHEntries_hentry (l : List HEntry) : collectHEntries (l.map Val.hentry) = some l := by
  induction l with
  | nil => rfl
  | cons a l ih => simp [collectHEntries, ih]

theorem hashentries_sound {n : Nat} (ih : ∀ b, b.length < n → ValueSound o b) {b b' : Bytes} {v : Val} (hb : b.length ≤ n)
    (h : Runs o G.hashentries b v b') : ∃ as : List CEntry, entriesOk true as ∧ b = entriesText true as ++ b' ∧
      v = .hentries (entriesAst o.ignoreComments true as) := by
  obtain ⟨f, h⟩ := h
  simp (discharger := decide) only [G.hashentries, action_ok, run_seq, seqR_cons_ok, seqR_nil_ok, labeled_ok, ref_ok, tok_ok, gapS_ok, warn_ok,
    ws_ok, runs_gap, runs_ref, gram] at h
  obtain ⟨v0, ⟨v2, b2, f2, ⟨h1, rfl⟩, v3, b3, f3, ⟨⟨f4, h2⟩, rfl⟩, rfl, rfl, rfl⟩, h3⟩ := h
  obtain ⟨k, g1, g2, c, e1, k1, k2, k3, k4, k5, k6, rfl⟩ := hashentry_sound ih hb h1
  obtain ⟨rfl, vs, rfl, h4, _⟩ := star_ok.1 h2
  obtain ⟨as, s1, rfl, rfl⟩ := entrySteps_sound ih h4 (by
    have := congrArg List.length k6; simp at this; omega)
  refine ⟨.mk [] _ k g1 g2 c :: as, ⟨(fun h => nomatch h), e1, k1, k2, k3, k4, k5, s1⟩, ?_, ?_⟩
  · conv => lhs; rw [k6]
    simp [entriesText]
  · simp only [runAct, Frame.get, if_true, reduceCtorEq, if_false, toIfaceSlice] at h3
    rw [show ∀ (x : HEntry) (l : List HEntry), Val.hentry x :: l.map Val.hentry = (x :: l).map Val.hentry from fun _ _ => rfl,
        collectHEntries_hentry] at h3
    simp only at h3
    injection h3 with h3
    rw [← h3, setFirst_eq]
    simp [entriesAst]

/-- Soundness of the rule `hash`. -/
theorem hash_sound {n : Nat} (ih : ∀ b, b.length < n → ValueSound o b) {b b' : Bytes} {v : Val} (hb : b.length ≤ n)
    (h : Runs o G.hash b v b') : ∃ as g, (CVal.hash as g).Ok ∧ b = (CVal.hash as g).text ++ b' ∧
      v = .attr ((CVal.hash as g).ast o.ignoreComments) := by
  obtain ⟨f, h⟩ := h
  simp (discharger := decide) only [G.hash, action_ok, run_seq, seqR_cons_ok, seqR_nil_ok, labeled_ok, ref_ok, tok_ok, gapS_ok, warn_ok,
    runs_gap, close_ok] at h
  obtain ⟨v0, ⟨v1, b1, f1, ⟨rfl, rfl, rfl⟩, v2, b2, f2, ⟨⟨f3, h1⟩, rfl⟩, v3, b3, f4, ⟨⟨rfl, rfl⟩, rfl⟩, v4, b4, f5, ⟨h2, rfl, rfl⟩,
    rfl, rfl, rfl⟩, h3⟩ := h
  obtain ⟨e1, e2⟩ := gap_split h2 (by simp)
  obtain ⟨as, s1, s2, s3⟩ : ∃ as : List CEntry, entriesOk true as ∧ b1 = entriesText true as ++ b2 ∧
      (v2 = .hentries (entriesAst o.ignoreComments true as) ∨ (v2 = .nil ∧ as = [])) := by
    rcases opt_ok.1 h1 with ⟨h6, _⟩ | ⟨_, h6, rfl, _⟩
    · rw [runs_ref] at h6
      obtain ⟨as, s1, s2, s3⟩ := hashentries_sound ih (by simp at hb; omega) h6
      exact ⟨as, s1, s2, .inl s3⟩
    · exact ⟨[], trivial, rfl, .inr ⟨h6, rfl⟩⟩
  refine ⟨as, (gapOf b2).1, ⟨s1, e1⟩, ?_, ?_⟩
  · conv => lhs; rw [s2, e2]
    simp [CVal.text]
  · simp only [runAct, Frame.get, if_true, reduceCtorEq, if_false] at h3
    rcases s3 with rfl | ⟨rfl, rfl⟩ <;> simp only [block_gap] at h3 <;> injection h3 with h3 <;> rw [← h3] <;> rfl

/-! ### Values -/

/-- Soundness of the rule `value`. -/
theorem value_sound (n : Nat) : ∀ b, b.length < n → ValueSound o b := by
  induction n with
  | zero => intro b hb; omega
  | succ n ih =>
    intro b hb v b' hs h
    have hb : b.length ≤ n := by omega
    obtain ⟨f, h⟩ := h
    rw [G.value, run_choice] at h
    simp only [choiceR_cons_ok, choiceR_nil_ok, and_false, or_false, runs_ref, gram] at h
    rcases h with ⟨h, _⟩ | ⟨_, ⟨h, _⟩ | ⟨_, ⟨h, _⟩ | ⟨_, ⟨h, _⟩ | ⟨_, ⟨h, _⟩ | ⟨_, ⟨h, _⟩ | ⟨_, ⟨f1, h⟩, _⟩⟩⟩⟩⟩⟩
    · obtain ⟨p, p1, p2, p3, _, rfl⟩ := plugin_sound ih hb h
      rw [gapOf_stop hs] at p3 ⊢
      simp only [block_empty]
      exact ⟨.plug p, p1, by simpa [Gap.empty, Gap.text, CVal.text] using p3, rfl⟩
    · obtain ⟨x, x1, x2, _, rfl⟩ := runs_bareword.1 h
      exact ⟨.str ⟨.bareword, x⟩, bare_value x1, by simpa [CVal.text, StrLit.text, StrLit.quote] using x2, rfl⟩
    · obtain ⟨s, s1, s2, rfl⟩ := runs_stringValue.1 h
      exact ⟨.str s, .inr s1, s2, rfl⟩
    · obtain ⟨t, t1, t2, rfl⟩ := number_sound h
      exact ⟨.num t, t1, t2, rfl⟩
    · obtain ⟨as, g, a1, a2, rfl⟩ := array_sound ih hb h
      exact ⟨.arr as g, a1, a2, rfl⟩
    · obtain ⟨as, g, a1, a2, rfl⟩ := hash_sound ih hb h
      exact ⟨.hash as g, a1, a2, rfl⟩
    · rw [run_pushError] at h; cases h

end
end Verif
