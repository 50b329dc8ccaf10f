import Verif.Proofs.SoundPosBlock
import Verif.Proofs.CompletePosBlock
import Verif.Spec.EntryVal
/-
What the entry points return: soundness of every rule, with positions.
-/
namespace Verif
open Spec

section
variable {o : Opts} {pf : Bytes → Pos} {pos : Nat → Pos} {D : Nat}

theorem item_itemVal (i : CItem) (ign : Bool) (k : Nat) : bopVal (i.astAt ign pos k) = itemVal (i.astAt ign pos k) := by
  cases i <;> rfl

theorem rval_of {v : Val} {r : Rvalue} (h : toRvalue v = some r) : v = rvalVal r := by
  unfold toRvalue at h
  split at h <;> first | (injection h with h; subst h; rfl) | cases h

theorem act_in {l r : Lbl} {fr : Frame} {p : Pos} {t : Bytes} {ws : List Bytes} {v : Val} (h : runAct o (.inExpression l r) fr p t ws = .val v) :
    ∃ p j a b, v = .expr (.inE p j a b) := by
  simp only [runAct, badAssert] at h
  split at h
  · injection h with h
    exact ⟨_, _, _, _, h.symm⟩
  · cases h

theorem act_notIn {l r : Lbl} {fr : Frame} {p : Pos} {t : Bytes} {ws : List Bytes} {v : Val} (h : runAct o (.notInExpression l r) fr p t ws = .val v) :
    ∃ p j a b, v = .expr (.notIn p j a b) := by
  simp only [runAct, badAssert] at h
  split at h
  · injection h with h
    exact ⟨_, _, _, _, h.symm⟩
  · cases h

theorem act_cmp {l q r : Lbl} {fr : Frame} {p : Pos} {t : Bytes} {ws : List Bytes} {v : Val} (h : runAct o (.compareExpression l q r) fr p t ws = .val v) :
    ∃ p j a b c, v = .expr (.cmp p j a b c) := by
  simp only [runAct, badAssert] at h
  split at h
  · injection h with h
    exact ⟨_, _, _, _, _, h.symm⟩
  · cases h

theorem act_re {l q r : Lbl} {fr : Frame} {p : Pos} {t : Bytes} {ws : List Bytes} {v : Val} (h : runAct o (.regexpExpression l q r) fr p t ws = .val v) :
    ∃ p j a b c, v = .expr (.re p j a b c) := by
  simp only [runAct, badAssert] at h
  split at h
  · injection h with h
    exact ⟨_, _, _, _, _, h.symm⟩
  · cases h

theorem act_negC {l : Lbl} {fr : Frame} {p : Pos} {t : Bytes} {ws : List Bytes} {v : Val} (h : runAct o (.negativeExpression l) fr p t ws = .val v) :
    ∃ p j a, v = .expr (.negCond p j a) := by
  simp only [runAct, badAssert] at h
  split at h
  · injection h with h
    exact ⟨_, _, _, h.symm⟩
  · cases h

theorem act_negS {l : Lbl} {fr : Frame} {p : Pos} {t : Bytes} {ws : List Bytes} {v : Val} (h : runAct o (.negativeSelector l) fr p t ws = .val v) :
    ∃ p j a, v = .expr (.negSel p j a) := by
  simp only [runAct, badAssert] at h
  split at h
  · injection h with h
    exact ⟨_, _, _, h.symm⟩
  · cases h

theorem act_cond {l : Lbl} {fr : Frame} {p : Pos} {t : Bytes} {ws : List Bytes} {v : Val} (h : runAct o (.conditionExpression l) fr p t ws = .val v) :
    ∃ p j a, v = .expr (.cond p j a) := by
  simp only [runAct, badAssert] at h
  split at h
  · injection h with h
    exact ⟨_, _, _, h.symm⟩
  · cases h

theorem act_rval {l : Lbl} {fr : Frame} {p : Pos} {t : Bytes} {ws : List Bytes} {v : Val} (h : runAct o (.rvalue l) fr p t ws = .val v) :
    ∃ p j a, v = .expr (.rval p j a) := by
  simp only [runAct, badAssert] at h
  split at h
  · injection h with h
    exact ⟨_, _, _, h.symm⟩
  · cases h

theorem act_branch {l q r s : Lbl} {fr : Frame} {p : Pos} {t : Bytes} {ws : List Bytes} {v : Val} (h : runAct o (.branch l q r s) fr p t ws = .val v) :
    ∃ p c b cm f ei el, v = .branch p c b cm f ei el := by
  simp only [runAct, badAssert] at h
  split at h
  · cases h
  · split at h
    · injection h with h
      exact ⟨_, _, _, _, _, _, _, h.symm⟩
    · cases h

theorem yields_p (hp : PosFn pf pos D) {r : Rule} {b : Bytes} {v : Val} {b' : Bytes} {ws' : List Bytes} (hi : r ≠ .init) (hc : r ≠ .config)
    (hk : b.length = D) (h : RunsP o pf (gram r) b [] v b' ws') : ∃ t, b = t ++ b' ∧ Yields false o.ignoreComments pos r.name t v := by
  have hk : 0 + b.length = D := by omega
  have V : ∀ c, c.length < b.length → ValueP o pf pos D c := value_p hp _
  have B : ∀ c, c.length < b.length → BopP o pf pos D c := bop_p hp _
  have E : ∀ c, c.length < b.length + 1 → ExprPAt o pf pos D G.expression c := expression_p hp _
  cases r with
  | init => exact absurd rfl hi
  | config => exact absurd rfl hc
  | pluginSection =>
    obtain ⟨t, g, is, ft, h1, h2, h3, h4, h5, rfl, -⟩ := section_p hp hk h
    exact ⟨_, h5, by simp only [Nat.zero_add]; exact Yields.pluginSection h1 h2 h3 nofun h4⟩
  | branchOrPlugin =>
    obtain ⟨i, h1, h2, rfl, -⟩ := bop_p' hp b _ _ _ _ _ hk h
    exact ⟨_, h2, by rw [item_itemVal]; exact .branchOrPlugin h1 nofun⟩
  | plugin =>
    obtain ⟨p, h1, h2, h3, -, rfl, -⟩ := plugin_p hp V (Nat.le_refl _) hk h
    exact ⟨(gapOf b).1.text ++ p.text, by simpa using h3, by simp only [Nat.zero_add]; exact Yields.plugin h2 h1⟩
  | «attribute» =>
    obtain ⟨nm, g1, g2, c, h1, h2, h3, h4, h5, rfl, -⟩ := attr_p hp V (Nat.le_refl _) hk h
    exact ⟨_, h5, by simp only [Nat.zero_add]; exact Yields.attr h1 h2 h3 h4⟩
  | value =>
    simp only [gram] at h
    rw [G.value] at h
    simp only [runsP_choice, runsP_choice_nil, runsP_ref, gram, and_false, or_false] at h
    rcases h with h | ⟨_, h | ⟨_, h | ⟨_, h | ⟨_, h | ⟨_, h | ⟨_, h⟩⟩⟩⟩⟩⟩
    · obtain ⟨p, h1, h2, h3, -, rfl, -⟩ := plugin_p hp V (Nat.le_refl _) hk h
      exact ⟨(gapOf b).1.text ++ p.text, by simpa using h3, by simp only [Nat.zero_add]; exact Yields.valuePlugin h2 h1⟩
    · obtain ⟨x, x1, x2, rfl, rfl⟩ := bareword_p hp hk h
      exact ⟨_, x2, by
        have := Yields.value (cl := false) (ign := o.ignoreComments) (pos := pos) (c := .str ⟨.bareword, x⟩) (bare_value x1) rfl
        have hx : (CVal.str ⟨.bareword, x⟩).text = x := by simp [CVal.text, StrLit.text, StrLit.quote]
        rw [hx] at this
        exact this⟩
    · obtain ⟨s, s1, s2, rfl, rfl⟩ := stringValue_p hp hk h
      exact ⟨_, s2, .value (c := .str s) (.inr s1) rfl⟩
    · obtain ⟨t, t1, t2, rfl, rfl⟩ := number_p h
      exact ⟨_, t2, .value (c := .num t) t1 rfl⟩
    · obtain ⟨as, g, a1, a2, rfl, rfl⟩ := array_p hp V (Nat.le_refl _) hk h
      exact ⟨_, a2, .value (c := .arr as g) a1 rfl⟩
    · obtain ⟨as, g, a1, a2, rfl, rfl⟩ := hash_p hp V (Nat.le_refl _) hk h
      exact ⟨_, a2, .value (c := .hash as g) a1 rfl⟩
    · exact absurd (runsP_pushError.1 h) id
  | array =>
    obtain ⟨as, g, a1, a2, rfl, -⟩ := array_p hp V (Nat.le_refl _) hk h
    exact ⟨_, a2, .array a1⟩
  | hash =>
    obtain ⟨as, g, a1, a2, rfl, -⟩ := hash_p hp V (Nat.le_refl _) hk h
    exact ⟨_, a2, .hash a1⟩
  | hashentries =>
    obtain ⟨as, a0, a1, a2, rfl, -⟩ := hashentries_p hp V (Nat.le_refl _) hk h
    exact ⟨_, a2, .hashentries a0 a1⟩
  | hashentry =>
    obtain ⟨key, g1, g2, c, h1, h2, h3, h4, h5, h6, h7, rfl, -⟩ := hashentry_p hp V (Nat.le_refl _) hk h
    exact ⟨_, h7, by simp only [Nat.zero_add]; exact Yields.hashentry h1 h2 h3 h4 h5 h6⟩
  | branch =>
    obtain ⟨i, h1, h2, h3, -⟩ := branch_p hp B (Nat.le_refl _) hk h
    obtain ⟨f, h⟩ := h
    simp only [gram, G.branch, action_rp] at h
    obtain ⟨v0, -, h4⟩ := h
    obtain ⟨_, _, _, _, _, _, _, h5⟩ := act_branch h4
    rw [h5] at h3
    cases i with
    | plugin com p => cases h3
    | branch com g1 c g2 is ft es el => exact ⟨_, h2, by rw [h5, h3, item_itemVal]; exact .branch h1 nofun⟩
  | ifCond =>
    obtain ⟨g1, c, g2, is, ft, h1, h2, h3, h4, h5, h6, rfl, -⟩ := if_p hp B (Nat.le_refl _) hk h
    exact ⟨_, h6, by simp only [Nat.zero_add]; exact Yields.ifCond h1 h2 h3 h4 nofun h5⟩
  | elseIf =>
    obtain ⟨g0, g1, c, g2, is, ft, h0, h1, h2, h3, h4, h5, h6, rfl, -⟩ := elseIf_p hp B (Nat.le_refl _) hk h
    exact ⟨_, h6, by simp only [Nat.zero_add]; exact Yields.elseIf h0 h1 h2 h3 h4 nofun h5⟩
  | elseCond =>
    obtain ⟨g, is, ft, h1, h4, h5, h6, rfl, -⟩ := else_p hp B (Nat.le_refl _) hk h
    exact ⟨_, h6, by simp only [Nat.zero_add]; exact Yields.elseCond h1 h4 nofun h5⟩
  | condition =>
    obtain ⟨c, h1, h2, rfl, -⟩ := condition_p' hp b _ _ _ _ _ hk h
    exact ⟨_, h2, .condition h1⟩
  | expression =>
    obtain ⟨c, h1, h2, rfl, -⟩ := E b (Nat.lt_succ_self _) _ _ _ _ _ hk h
    exact ⟨_, h2, .expression h1⟩
  | negativeExpression =>
    obtain ⟨e, h1, h2, h3, -⟩ := neg_p hp (fun c hc => condition_p' hp c) (Nat.le_refl _) _ _ _ _ _ hk h
    rw [gram, G.negativeExpression, runsP_choice, runsP_choice, runsP_choice_nil] at h
    rcases h with ⟨f, h⟩ | ⟨_, ⟨f, h⟩ | ⟨_, h⟩⟩
    · simp only [action_rp] at h
      obtain ⟨v0, -, h4⟩ := h
      have h5 := act_negC h4
      subst h3
      cases e <;> simp only [CExpr.astAt, Val.expr.injEq, reduceCtorEq, exists_false, exists_const] at h5
      exact ⟨_, h2, .notParen h1⟩
    · simp only [action_rp] at h
      obtain ⟨v0, -, h4⟩ := h
      have h5 := act_negS h4
      subst h3
      cases e <;> simp only [CExpr.astAt, Val.expr.injEq, reduceCtorEq, exists_false, exists_const] at h5
      exact ⟨_, h2, .notSel h1⟩
    · cases h
  | inExpression =>
    obtain ⟨e, h1, h2, h3, -⟩ := in_p hp _ _ _ _ _ _ hk h
    obtain ⟨f, h⟩ := h
    simp only [gram, G.inExpression, action_rp] at h
    obtain ⟨v0, -, h4⟩ := h
    have h5 := act_in h4
    subst h3
    cases e <;> simp only [CExpr.astAt, Val.expr.injEq, reduceCtorEq, exists_false, exists_const] at h5
    exact ⟨_, h2, .inE h1⟩
  | notInExpression =>
    obtain ⟨e, h1, h2, h3, -⟩ := notIn_p hp _ _ _ _ _ _ hk h
    obtain ⟨f, h⟩ := h
    simp only [gram, G.notInExpression, action_rp] at h
    obtain ⟨v0, -, h4⟩ := h
    have h5 := act_notIn h4
    subst h3
    cases e <;> simp only [CExpr.astAt, Val.expr.injEq, reduceCtorEq, exists_false, exists_const] at h5
    exact ⟨_, h2, .notIn h1⟩
  | rvalue =>
    obtain ⟨r, h1, h2, h3, -⟩ := rvalue_p hp hk h
    exact ⟨_, h2, by rw [rval_of h3]; exact .rvalue h1⟩
  | compareExpression =>
    obtain ⟨e, h1, h2, h3, -⟩ := cmp_p hp _ _ _ _ _ _ hk h
    obtain ⟨f, h⟩ := h
    simp only [gram, G.compareExpression, action_rp] at h
    obtain ⟨v0, -, h4⟩ := h
    have h5 := act_cmp h4
    subst h3
    cases e <;> simp only [CExpr.astAt, Val.expr.injEq, reduceCtorEq, exists_false, exists_const] at h5
    exact ⟨_, h2, .cmp h1⟩
  | regexpExpression =>
    obtain ⟨e, h1, h2, h3, -⟩ := re_p hp _ _ _ _ _ _ hk h
    obtain ⟨f, h⟩ := h
    simp only [gram, G.regexpExpression, action_rp] at h
    obtain ⟨v0, -, h4⟩ := h
    have h5 := act_re h4
    subst h3
    cases e <;> simp only [CExpr.astAt, Val.expr.injEq, reduceCtorEq, exists_false, exists_const] at h5
    exact ⟨_, h2, .re h1⟩
/-! ### Completeness -/

theorem brace_val {X : Bytes} (h : X = [] ∨ ∃ r, X = b!"}" ++ r) : ValFollow X := by
  rcases h with rfl | ⟨X, rfl⟩
  · exact ⟨nofun, by rw [gapOf_stop ⟨rfl, rfl⟩]; simp⟩
  refine ⟨?_, ?_⟩
  · intro c hc
    simp at hc
    exact .inr (.inl hc.symm)
  · rw [show b!"}" ++ X = (125 : UInt8) :: X from rfl, gapOf_stop (stop_cons (by decide))]
    simp

theorem cond_follow {X : Bytes} (h : X = [] ∨ ∃ r, X = b!"{" ++ r ∨ X = b!")" ++ r) : CondFollow X := by
  rcases h with rfl | ⟨r, rfl | rfl⟩
  · exact ⟨.empty, _, gap_empty_ok, rfl, .inl rfl⟩
  · exact ⟨.empty, _, gap_empty_ok, rfl, .inr ⟨r, .inr rfl⟩⟩
  · exact ⟨.empty, _, gap_empty_ok, rfl, .inr ⟨r, .inl rfl⟩⟩

theorem neg_kind {b ws v b' ws'} (h : RunsP o pf G.negativeExpression b ws (.expr v) b' ws') :
    ∃ p j, (∃ a, v = .negCond p j a) ∨ ∃ a, v = .negSel p j a := by
  rw [G.negativeExpression, runsP_choice, runsP_choice, runsP_choice_nil] at h
  rcases h with ⟨f, h⟩ | ⟨_, ⟨f, h⟩ | ⟨_, h⟩⟩
  · simp only [action_rp] at h
    obtain ⟨v0, -, h4⟩ := h
    obtain ⟨p, j, a, h5⟩ := act_negC h4
    injection h5 with h5
    exact ⟨p, j, .inl ⟨a, h5⟩⟩
  · simp only [action_rp] at h
    obtain ⟨v0, -, h4⟩ := h
    obtain ⟨p, j, a, h5⟩ := act_negS h4
    injection h5 with h5
    exact ⟨p, j, .inr ⟨a, h5⟩⟩
  · cases h

theorem name_inj {r q : Rule} (h : r.name = q.name) : r = q := by
  revert h
  cases r <;> cases q <;> decide

/-- Which alternative of `expression` gave the value. -/
theorem expr_alt {b ws v b' ws'} (h : RunsP o pf G.expression b ws (.expr v) b' ws') :
    ((∃ p j a c, v = .inE p j a c) → RunsP o pf G.inExpression b ws (.expr v) b' ws') ∧
    ((∃ p j a c, v = .notIn p j a c) → RunsP o pf G.notInExpression b ws (.expr v) b' ws') ∧
    ((∃ p j a c d, v = .cmp p j a c d) → RunsP o pf G.compareExpression b ws (.expr v) b' ws') ∧
    ((∃ p j a c d, v = .re p j a c d) → RunsP o pf G.regexpExpression b ws (.expr v) b' ws') ∧
    (((∃ p j a, v = .negCond p j a) ∨ ∃ p j a, v = .negSel p j a) → RunsP o pf G.negativeExpression b ws (.expr v) b' ws') := by
  rw [G.expression] at h
  simp only [runsP_choice, runsP_choice_nil, runsP_ref, gram, and_false, or_false] at h
  rcases h with h | ⟨_, h | ⟨_, h | ⟨_, h | ⟨_, h | ⟨_, h | ⟨_, h⟩⟩⟩⟩⟩⟩
  · obtain ⟨f, h⟩ := h
    simp only [action_rp] at h
    obtain ⟨v0, -, h4⟩ := h
    obtain ⟨p, j, a, h5⟩ := act_cond h4
    injection h5 with h5
    subst h5
    simp
  · obtain ⟨p, j, h5⟩ := neg_kind h
    rcases h5 with ⟨a, h5⟩ | ⟨a, h5⟩ <;> subst h5 <;> simp [h]
  · have h0 := h
    obtain ⟨f, h⟩ := h
    simp only [G.inExpression, action_rp] at h
    obtain ⟨v0, -, h4⟩ := h
    obtain ⟨p, j, a, c, h5⟩ := act_in h4
    injection h5 with h5
    subst h5
    simp [h0]
  · have h0 := h
    obtain ⟨f, h⟩ := h
    simp only [G.notInExpression, action_rp] at h
    obtain ⟨v0, -, h4⟩ := h
    obtain ⟨p, j, a, c, h5⟩ := act_notIn h4
    injection h5 with h5
    subst h5
    simp [h0]
  · have h0 := h
    obtain ⟨f, h⟩ := h
    simp only [G.compareExpression, action_rp] at h
    obtain ⟨v0, -, h4⟩ := h
    obtain ⟨p, j, a, c, d, h5⟩ := act_cmp h4
    injection h5 with h5
    subst h5
    simp [h0]
  · have h0 := h
    obtain ⟨f, h⟩ := h
    simp only [G.regexpExpression, action_rp] at h
    obtain ⟨v0, -, h4⟩ := h
    obtain ⟨p, j, a, c, d, h5⟩ := act_re h4
    injection h5 with h5
    subst h5
    simp [h0]
  · obtain ⟨f, h⟩ := h
    simp only [action_rp] at h
    obtain ⟨v0, -, h4⟩ := h
    obtain ⟨p, j, a, h5⟩ := act_rval h4
    injection h5 with h5
    subst h5
    simp

theorem yields_q (hp : PosFn pf pos D) {r : Rule} {t X : Bytes} {v : Val} {ws : List Bytes} (hi : r ≠ .init) (hc : r ≠ .config)
    (hk : (t ++ X).length = D) (hX : Follows r.name X) (h : Yields true o.ignoreComments pos r.name t v) :
    ∃ ws', RunsP o pf (gram r) (t ++ X) ws v X ws' := by
  have hk : 0 + (t ++ X).length = D := by omega
  have ex : ∀ e : CExpr, e.Ok → (X = [] ∨ ∃ r, X = b!"{" ++ r ∨ X = b!")" ++ r) → 0 + (e.text ++ X).length = D → RunsP o pf G.expression (e.text ++ X) ws
      (.expr (e.astAt o.ignoreComments pos 0 unjoined)) X (ws ++ wl o pos (e.exc 0)) :=
    fun e he hx hl => expressionQ o hp e he X (condFollow_expr (cond_follow hx)) 0 hl ws
  have bop : ∀ i : CItem, i.Ok → i.Clear → (X = [] ∨ ∃ r, X = b!"}" ++ r) → 0 + (i.text ++ X).length = D → RunsP o pf G.branchOrPlugin (i.text ++ X) ws
      (bopVal (i.astAt o.ignoreComments pos 0)) X (ws ++ wl o pos (i.exc 0)) := by
    intro i h1 h2 hY hl
    have := bopQ o hp i h1 h2 X (fun _ => by
      have := branchEnd_head (o := o) (g := .empty) gap_empty_ok (T := X)
        (by
          rcases hY with rfl | ⟨Y, rfl⟩
          · exact ⟨rfl, rfl⟩
          · exact stop_cons (by decide)) (by rcases hY with rfl | ⟨Y, rfl⟩ <;> simp)
      exact this) i.com (item_ok_com h1)
    rw [setCom_com] at this
    exact this 0 hl ws
  clear hi hc
  generalize hn : r.name = nm at h hX
  cases h with
  | @pluginSection t g is ft h1 h2 h3 h4 h5 =>
    obtain rfl := name_inj (q := .pluginSection) hn
    have := sectionQ (o := o) hp (s := ⟨.empty, t, g, is, ft⟩) ⟨gap_empty_ok, h1, h2, h3, h5⟩ (h4 rfl) X 0 (by simpa using hk) ws
    exact ⟨_, by simpa [gram] using this⟩
  | @branchOrPlugin i h1 h2 =>
    obtain rfl := name_inj (q := .branchOrPlugin) hn
    exact ⟨_, by rw [← item_itemVal]; exact bop i h1 (h2 rfl) (hX.1 (by decide)) hk⟩
  | @branch com g1 c g2 is ft es el h1 h2 =>
    obtain rfl := name_inj (q := .branch) hn
    obtain ⟨f, h⟩ := bop _ h1 (h2 rfl) (hX.1 (by decide)) hk
    simp only [gram, G.branchOrPlugin, choice_rp, choice_nil_rp, and_false, or_false, runsP_ref] at h
    rcases h with ⟨h, _⟩ | ⟨_, h, _⟩
    · exact ⟨_, h⟩
    · obtain ⟨p, _, _, _, _, h6, _⟩ := plugin_p' (o := o) hp hk h
      cases h6
  | plugin h1 h2 =>
    obtain rfl := name_inj (q := .plugin) hn
    have := pluginQ (o := o) hp (ws := ws) h1 h2 X (k := 0) (by simpa using hk)
    exact ⟨_, by simpa [gram] using this⟩
  | @attr nm g1 g2 c h1 h2 h3 h4 =>
    obtain rfl := name_inj (q := .attribute) hn
    have hY := hX.1 (by decide)
    have := attrQ (o := o) hp (ws := ws) (k := 0) (by simpa using hk) h1 h2 h3 h4 (valQ o hp c h4 _ (brace_val hY) _ (by
      simp at hk ⊢; omega))
    exact ⟨_, by simpa [gram] using this⟩
  | @value c h1 h2 =>
    obtain rfl := name_inj (q := .value) hn
    have hY := hX.1 (by decide)
    have := valQ o hp c h1 _ (brace_val hY) 0 hk ws
    have hv : cvalAt o.ignoreComments pos 0 c = .attr (c.astAt o.ignoreComments pos 0) := by
      cases c <;> first | rfl | cases h2
    rw [hv] at this
    exact ⟨_, this⟩
  | valuePlugin h1 h2 =>
    obtain rfl := name_inj (q := .value) hn
    have := pluginQ (o := o) hp (ws := ws) h1 h2 X (k := 0) (by simpa using hk)
    rw [← List.append_assoc] at this
    simp only [Nat.zero_add] at this
    have h3 : RunsP o pf G.value _ _ _ _ _ := choice1Q (refQ (r := .plugin) this)
    exact ⟨_, h3⟩
  | array h1 =>
    obtain rfl := name_inj (q := .array) hn
    exact ⟨_, arrayQ hp h1 X hk⟩
  | @hash es ft h1 =>
    obtain rfl := name_inj (q := .hash) hn
    exact ⟨_, hashQ_of h1.2 (optEntriesQ o hp es h1.1 ft h1.2 X (0 + 1) (by simp only [CVal.text, List.append_assoc] at hk ⊢; len))⟩
  | @hashentries es h0 h1 =>
    obtain rfl := name_inj (q := .hashentries) hn
    obtain ⟨Y, rfl⟩ := hX.2.2 rfl
    have := optEntriesQ o hp es h1 .empty gap_empty_ok Y 0 (by simpa [Gap.text, Gap.empty] using hk) ws
    rw [runsP_opt] at this
    rcases this with h | ⟨_, h, _⟩
    · rw [optEntriesAt, if_neg (by simpa using h0)] at h
      exact ⟨_, runsP_ref.1 h⟩
    · rw [optEntriesAt, if_neg (by simpa using h0)] at h
      cases h
  | @hashentry com key g1 g2 c h1 h2 h3 h4 h5 h6 =>
    obtain rfl := name_inj (q := .hashentry) hn
    have hY := hX.1 (by decide)
    have := hashentryQ (o := o) hp (ws := ws) (k := 0) (by simpa using hk) h1 h2 h3 h4 h5 h6 (valQ o hp c h5 _ (brace_val hY) _ (by
      simp at hk ⊢; omega))
    exact ⟨_, by simpa [gram] using this⟩
  | @ifCond g1 c g2 is ft h1 h2 h3 h4 h5 h6 =>
    obtain rfl := name_inj (q := .ifCond) hn
    have := ifQ (o := o) hp (X := X) h1 h2 h3 h6 0 (by simpa using hk) (itemsQ o hp is h4 (h5 rfl) ft h6 X _ (by simp at hk ⊢; omega)) ws
    exact ⟨_, by simpa [gram] using this⟩
  | @elseIf g0 g1 c g2 is ft h0 h1 h2 h3 h4 h5 h6 =>
    obtain rfl := name_inj (q := .elseIf) hn
    have := elseIfQ (o := o) hp (X := X) h0 h1 h2 h3 h6 0 (by simpa using hk) (itemsQ o hp is h4 (h5 rfl) ft h6 X _ (by simp at hk ⊢; omega)) ws
    exact ⟨_, by simpa [gram] using this⟩
  | @elseCond g is ft h1 h2 h3 h4 =>
    obtain rfl := name_inj (q := .elseCond) hn
    have := elseCondQ (o := o) hp (X := X) h1 h4 0 (by simpa using hk) (itemsQ o hp is h2 (h3 rfl) ft h4 X _ (by simp at hk ⊢; omega)) ws
    exact ⟨_, by simpa [gram] using this⟩
  | condition h1 =>
    obtain rfl := name_inj (q := .condition) hn
    exact ⟨_, conditionQ o hp _ h1 X (cond_follow (hX.2.1 (by decide))) 0 hk ws⟩
  | expression h1 =>
    obtain rfl := name_inj (q := .expression) hn
    exact ⟨_, ex _ h1 (hX.2.1 (by decide)) hk⟩
  | notParen h1 =>
    obtain rfl := name_inj (q := .negativeExpression) hn
    exact ⟨_, (expr_alt (ex _ h1 (hX.2.1 (by decide)) hk)).2.2.2.2 (.inl ⟨_, _, _, rfl⟩)⟩
  | notSel h1 =>
    obtain rfl := name_inj (q := .negativeExpression) hn
    exact ⟨_, (expr_alt (ex _ h1 (hX.2.1 (by decide)) hk)).2.2.2.2 (.inr ⟨_, _, _, rfl⟩)⟩
  | inE h1 =>
    obtain rfl := name_inj (q := .inExpression) hn
    exact ⟨_, (expr_alt (ex _ h1 (hX.2.1 (by decide)) hk)).1 ⟨_, _, _, _, rfl⟩⟩
  | notIn h1 =>
    obtain rfl := name_inj (q := .notInExpression) hn
    exact ⟨_, (expr_alt (ex _ h1 (hX.2.1 (by decide)) hk)).2.1 ⟨_, _, _, _, rfl⟩⟩
  | rvalue h1 =>
    obtain rfl := name_inj (q := .rvalue) hn
    obtain ⟨v, h2, h3⟩ := rvalueQ (o := o) hp h1 (condFollow_expr (cond_follow (hX.2.1 (by decide)))).rv 0 hk
    exact ⟨_, by rw [← rval_of h3]; exact h2 ws⟩
  | cmp h1 =>
    obtain rfl := name_inj (q := .compareExpression) hn
    exact ⟨_, (expr_alt (ex _ h1 (hX.2.1 (by decide)) hk)).2.2.1 ⟨_, _, _, _, _, rfl⟩⟩
  | re h1 =>
    obtain rfl := name_inj (q := .regexpExpression) hn
    exact ⟨_, (expr_alt (ex _ h1 (hX.2.1 (by decide)) hk)).2.2.2.1 ⟨_, _, _, _, _, rfl⟩⟩
end
end Verif
