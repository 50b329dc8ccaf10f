import Verif.Proofs.CostCond
/-
The cost of expressions and conditions.
-/
namespace Verif
open Spec

/-- What an expression costs. -/
def exprR (b : Bytes) (n : Nat) : CR → Prop
  | .ok b' => b'.length < b.length ∧ n ≤ 20000 * (b.length - b'.length) + 3000 * le b' ∧ b.head? ≠ some 35 ∧ Stay b b'
  | .fail => n ≤ 2500 ∨ (n + 500 ≤ 30000 * hl b ∧ b.head? ≠ some 35)
  | .fatal => n + 15000 ≤ 60000 * (b.length + 1) ∧ b.head? ≠ some 35

/-- What a boolean operator with its operand costs, after an expression that leaves `b`. -/
def bitemR (b : Bytes) (n : Nat) : CR → Prop
  | .ok b' => isBool (gr b) = true ∧ b'.length < b.length ∧ n + 4000 * gl b ≤ 20000 * (b.length - b'.length) + 3000 * le b' ∧ Stay b b'
  | .fail => (n ≤ 100 * gl b + 60 ∧ isBool (gr b) = false) ∨ (isBool (gr b) = true ∧ n + 4000 * gl b + 1000 ≤ 30000 * hl b)
  | .fatal => isBool (gr b) = true ∧ n + 4000 * gl b + 10000 ≤ 60000 * (b.length + 1)

/-- What the rest of a condition costs. -/
def tailR (b : Bytes) (n : Nat) : CR → Prop
  | .ok b' => n + 3000 * le b + 300 * gl b' + 100 ≤ 30000 * hl b ∧
      (isEnd (gr b') = true → n + 3000 * le b + 10 ≤ 20000 * (b.length - b'.length) + 6000 * gl b') ∧ Stay b b'
  | .fail => False
  | .fatal => n + 3000 * le b + 8000 ≤ 60000 * (b.length + 1)

/-- What a condition costs. -/
def condR (b : Bytes) (n : Nat) : CR → Prop
  | .ok b' => b'.length < b.length ∧ n + 300 * gl b' ≤ 30000 * hl b ∧
      (isEnd (gr b') = true → n ≤ 20000 * (b.length - b'.length) + 6000 * gl b') ∧ b.head? ≠ some 35 ∧ Stay b b'
  | .fail => n ≤ 2600 ∨ (n ≤ 30000 * hl b ∧ b.head? ≠ some 35)
  | .fatal => n ≤ 60000 * (b.length + 1) ∧ b.head? ≠ some 35

/-- An item of the rest of a condition. -/
def bitem : Ex := .action (.expression .bo .cond) (.seq [G.gapS, G.warn,
      .labeled .bo G.booleanOperator, G.gapS, G.warn, .labeled .cond (.ref .expression)])

theorem bitem_cost (b : Bytes) (hE : ∀ s, s.length < b.length → wp (.ref .expression) s (exprR s)) : wp bitem b (bitemR b) := by
  refine wp_action (wp_gapS fun n hn => ?_)
  have hgh := gl_le_hl b
  have hgl := gl_le b
  have hgp := gl_pos b
  have hg := gr_len b
  have hhl := hl_le b
  refine wp_seq_cons (wp_labeled (wp_mono (boolOp_cost (gr b)) ?_))
  rintro m r ⟨h, hiff⟩
  cases r with
  | fatal => exact h.elim
  | fail =>
    simp only [opR, onOk_fail, bitemR] at h ⊢
    exact .inl ⟨by omega, hiff.1 rfl⟩
  | ok b2 =>
  simp only [opR, onOk_ok] at h ⊢
  have hbool := h.2.2.1
  have hnd := gl_nd (b := b) (by rcases isBool_head hbool with h | h | h | h <;> (rw [h]; simp))
  have hst := (Stay.gap b).trans h.2.2.2
  have hst2 := hst.trans (Stay.gap b2)
  refine wp_gapS fun k hk => ?_
  have hgh2 := gl_le_hl b2
  have hgp2 := gl_pos b2
  have hg2 := gr_len b2
  have hlt := hst.hl
  have hlt2 := (Stay.gap b2).hl
  refine wp_seq_cons (wp_labeled (wp_mono (hE (gr b2) (by omega)) ?_))
  intro j r h2
  cases r with
  | ok b' =>
    simp only [exprR, onOk_ok] at h2 ⊢
    have hnd2 := gl_nd h2.2.2.1
    refine wp_seq_nil ?_
    simp only [bitemR]
    exact ⟨hbool, by omega, by omega, hst2.trans h2.2.2.2⟩
  | fail =>
    simp only [exprR, onOk_fail, bitemR] at h2 ⊢
    refine .inr ⟨hbool, ?_⟩
    rcases h2 with h2 | h2
    · omega
    · have hnd2 := gl_nd h2.2
      omega
  | fatal =>
    simp only [exprR, onOk_fatal, bitemR] at h2 ⊢
    have hnd2 := gl_nd h2.2
    exact ⟨hbool, by omega⟩

theorem tail_cost (b : Bytes) (hE : ∀ s, s.length < b.length → wp (.ref .expression) s (exprR s)) : wp (.star bitem) b (tailR b) := by
  induction hN : b.length using Nat.strongRecOn generalizing b with
  | ind N ih =>
  subst hN
  have hgh := gl_le_hl b
  have hgp := gl_pos b
  have hle := le_hl b
  have hhl := hl_le b
  refine wp_star (wp_mono (bitem_cost b hE) ?_)
  intro n r h
  cases r with
  | ok b1 =>
    simp only [bitemR] at h ⊢
    have hb : le b = gl b := le_next (by rw [h.1]; simp)
    have hlt := h.2.2.2.hl
    refine wp_mono (ih b1.length h.2.1 b1 (fun s hs => hE s (by omega)) rfl) ?_
    intro m r h2
    cases r with
    | ok b' =>
      simp only [tailR] at h2 ⊢
      have hl2 := h2.2.2.1
      refine ⟨by omega, fun he => ?_, h.2.2.2.trans h2.2.2⟩
      have := h2.2.1 he
      omega
    | fail => exact h2.elim
    | fatal =>
      simp only [tailR] at h2 ⊢
      omega
  | fail =>
    simp only [bitemR, tailR] at h ⊢
    rcases h with h | h
    · refine ⟨by omega, fun he => ?_, .refl b⟩
      have hb : le b = gl b := le_next (by rw [he]; simp)
      omega
    · have hb : le b = gl b := le_next (by rw [h.1]; simp)
      refine ⟨by omega, fun he => ?_, .refl b⟩
      exfalso
      have h1 := isBool_head h.1
      simp only [isEnd, Bool.or_eq_true, beq_iff_eq] at he
      rcases he with he | he <;> (rw [he] at h1; revert h1; decide)
  | fatal =>
    simp only [bitemR, tailR] at h ⊢
    have hb : le b = gl b := le_next (by rw [h.1]; simp)
    omega

theorem cond_cost_of (b : Bytes) (hE : ∀ s, s.length ≤ b.length → wp (.ref .expression) s (exprR s)) :
    wp (.ref .condition) b (condR b) := by
  refine wp_ref (wp_action (wp_seq_cons (wp_labeled (wp_mono (hE b (Nat.le_refl _)) ?_))))
  intro n r h
  have hhl := hl_le b
  cases r with
  | ok b1 =>
    simp only [exprR, onOk_ok] at h ⊢
    have hlt := h.2.2.2.hl
    have hle1 := hl_le b1
    refine wp_seq_cons (wp_labeled (wp_mono (tail_cost b1 fun s hs => hE s (by omega)) ?_))
    intro m r h2
    cases r with
    | ok b' =>
      simp only [tailR, onOk_ok] at h2 ⊢
      refine wp_seq_nil ?_
      have hl2 := h2.2.2.1
      simp only [condR]
      refine ⟨by omega, by omega, fun he => ?_, h.2.2.1, h.2.2.2.trans h2.2.2⟩
      have := h2.2.1 he
      omega
    | fail => exact h2.elim
    | fatal =>
      simp only [tailR, onOk_fatal, condR] at h2 ⊢
      exact ⟨by omega, h.2.2.1⟩
  | fail =>
    simp only [exprR, onOk_fail, condR] at h ⊢
    rcases h with h | h
    · exact .inl (by omega)
    · exact .inr ⟨by omega, h.2⟩
  | fatal =>
    simp only [exprR, onOk_fatal, condR] at h ⊢
    exact ⟨by omega, h.2⟩

theorem end_head {b : Bytes} {c : UInt8} {t : Bytes} (h : gr b = c :: t) (hc : c = 41 ∨ c = 123) : isEnd (gr b) = true := by
  rw [h]; rcases hc with rfl | rfl <;> rfl

/-- `( condition )` after the parenthesis. -/
theorem paren_cost (s : Bytes) (hC : ∀ t, t.length ≤ s.length → wp (.ref .condition) t (condR t)) :
    wp (.seq [G.gapS, G.warn, .labeled .cond (.ref .condition), G.gapS, G.warn, .lit b!")"]) s (fun n r => match r with
      | .ok b' => b'.length ≤ s.length ∧ n ≤ 20000 * (s.length - b'.length)
      | .fail => n ≤ 30000 * (s.length + 1) + 500
      | .fatal => n ≤ 60000 * (s.length + 1) + 200) := by
  refine wp_gapS fun n hn => ?_
  have hgl := gl_le s
  have hgp := gl_pos s
  have hg := gr_len s
  have hhl := hl_le (gr s)
  refine wp_seq_cons (wp_labeled (wp_mono (hC (gr s) hg) ?_))
  intro m r h
  cases r with
  | ok b1 =>
    simp only [condR, onOk_ok] at h ⊢
    have hnd := gl_nd h.2.2.2.1
    refine wp_gapS fun k hk => ?_
    refine wp_seq_cons (wp_chr (c := 41) (by decide) ?_ fun _ => ?_)
    · intro b' hb
      have h3 := gl_bound hb (by decide)
      have h4 := h.2.2.1 (end_head hb (.inl rfl))
      refine wp_seq_nil ?_
      have h5 := gr_len b1
      rw [hb] at h5
      simp only [List.length_cons] at h5 h3 ⊢
      exact ⟨by omega, by omega⟩
    · simp only [onOk_fail]; omega
  | fail =>
    simp only [condR, onOk_fail] at h ⊢
    rcases h with h | h
    · omega
    · have hnd := gl_nd h.2
      omega
  | fatal =>
    simp only [condR, onOk_fatal] at h ⊢
    have hnd := gl_nd h.2
    omega

/-- `( condition )` after `! (`. -/
theorem negParen_cost (s : Bytes) (hC : ∀ t, t.length ≤ s.length → wp (.ref .condition) t (condR t)) :
    wp (.seq [G.gapS, G.warn, .labeled .cond (.ref .condition), G.gapS, G.warn,
      G.close b!")" (.fatalError b!"expect closing parenthesis")]) s (fun n r => match r with
      | .ok b' => b'.length ≤ s.length ∧ n ≤ 20000 * (s.length - b'.length) + 5
      | .fail => n ≤ 30000 * (s.length + 1) + 500
      | .fatal => n ≤ 60000 * (s.length + 1) + 200) := by
  refine wp_gapS fun n hn => ?_
  have hgl := gl_le s
  have hgp := gl_pos s
  have hg := gr_len s
  have hhl := hl_le (gr s)
  refine wp_seq_cons (wp_labeled (wp_mono (hC (gr s) hg) ?_))
  intro m r h
  cases r with
  | ok b1 =>
    simp only [condR, onOk_ok] at h ⊢
    have hnd := gl_nd h.2.2.2.1
    refine wp_gapS fun k hk => ?_
    refine wp_seq_cons (wp_choice_cons (wp_chr (c := 41) (by decide) ?_ fun _ => ?_))
    · intro b' hb
      have h3 := gl_bound hb (by decide)
      have h4 := h.2.2.1 (end_head hb (.inl rfl))
      refine wp_seq_nil ?_
      have h5 := gr_len b1
      rw [hb] at h5
      simp only [List.length_cons] at h5 h3 ⊢
      exact ⟨by omega, by omega⟩
    · refine wp_choice_cons (wp_fatalError ?_)
      simp only [onFail_fatal, onOk_fatal]; omega
  | fail =>
    simp only [condR, onOk_fail] at h ⊢
    rcases h with h | h
    · omega
    · have hnd := gl_nd h.2
      omega
  | fatal =>
    simp only [condR, onOk_fatal] at h ⊢
    have hnd := gl_nd h.2
    omega

theorem hl_noHd {c : UInt8} {t : Bytes} (h : noHd c = true) : hl (c :: t) = t.length + 2 := by
  unfold hl; rw [if_neg (noHd_not h)]; simp

/-- What a negation costs. -/
def negR (b : Bytes) (n : Nat) : CR → Prop
  | .ok b' => b'.length < b.length ∧ n + 500 ≤ 20000 * (b.length - b'.length) + 3000 * le b' ∧ b.head? = some 33
  | .fail => n ≤ 20 ∨ (n + 5000 ≤ 30000 * (b.length + 1) ∧ b.head? = some 33)
  | .fatal => n + 20000 ≤ 60000 * (b.length + 1) ∧ b.head? = some 33

theorem negSel_cost (s : Bytes) (P : Nat → CR → Prop)
    (h1 : ∀ n b', n ≤ 92 * gl s + 50 * ((gr s).length - b'.length) + le b' + 20 → b'.length < (gr s).length →
      (gr s).head? = some 91 → P n (.ok b'))
    (h2 : ∀ n, n ≤ 92 * gl s + selScan (gr s) + 50 → P n .fail) :
    wp (.seq [.lit b!"!", G.gapS, G.warn, .labeled .sel G.selector]) (33 :: s) P := by
  refine wp_seq_cons (wp_chr (c := 33) (by decide) ?_ fun h => absurd rfl h)
  intro s' hs
  cases hs
  refine wp_gapS fun n hn => ?_
  refine wp_seq_cons (wp_labeled (wp_mono (selector_cost (gr s)) ?_))
  intro m r h
  cases r with
  | ok b' =>
    have := selScan_le_le b'
    exact wp_seq_nil (h1 _ _ (by omega) h.1 h.2.2)
  | fail => exact h2 _ (by simp only at h; omega)
  | fatal => exact h.elim

theorem neg_cost (b : Bytes) (hC : ∀ t, t.length < b.length → wp (.ref .condition) t (condR t)) :
    wp (.ref .negativeExpression) b (negR b) := by
  refine wp_ref (wp_choice_cons (wp_action (wp_seq_cons (wp_chr (c := 33) (by decide) ?_ fun hb => ?_))))
  · rintro s rfl
    refine wp_gapS fun n hn => ?_
    have hgl := gl_le s
    have hg := gr_len s
    have hgp := gl_pos s
    have hsc := selScan_le (gr s)
    refine wp_seq_cons (wp_chr (c := 40) (by decide) ?_ fun hb => ?_)
    · intro u hu
      have h3 := gl_bound hu (by decide)
      have h4 : selScan (gr s) = 0 := selScan_ne (by rw [hu]; simp)
      rw [hu] at hg
      simp only [List.length_cons] at hg h3
      refine wp_mono (negParen_cost u fun t ht => hC t (by simp only [List.length_cons]; omega)) ?_
      intro m r h
      cases r with
      | ok b' =>
        simp only [onFail_ok, negR, List.length_cons, List.head?_cons] at h ⊢
        exact ⟨by omega, by omega, trivial⟩
      | fail =>
        simp only [onFail_fail] at h ⊢
        refine wp_choice_cons (wp_action (negSel_cost s _ (fun k b' h5 h6 h7 => ?_) fun k h5 => ?_))
        · rw [hu] at h7; cases h7
        · refine wp_choice_nil ?_
          simp only [negR, List.length_cons, List.head?_cons]
          exact .inr ⟨by omega, trivial⟩
      | fatal =>
        simp only [onFail_fatal, negR, List.length_cons, List.head?_cons] at h ⊢
        exact ⟨by omega, trivial⟩
    · refine wp_choice_cons (wp_action (negSel_cost s _ (fun k b' h5 h6 h7 => ?_) fun k h5 => ?_))
      · have hnd := gl_nd (b := s) (by rw [h7]; simp)
        simp only [onFail_ok, negR, List.length_cons, List.head?_cons]
        exact ⟨by omega, by omega, trivial⟩
      · refine wp_choice_nil ?_
        simp only [negR, List.length_cons, List.head?_cons]
        exact .inr ⟨by omega, trivial⟩
  · refine wp_choice_cons (wp_action (wp_seq_cons (wp_chr (c := 33) (by decide) (fun s hs => ?_) fun _ => ?_)))
    · rw [hs] at hb; exact absurd rfl hb
    · refine wp_choice_nil ?_
      simp only [negR]
      exact .inl (by omega)

theorem expr_cost_of (b : Bytes) (hC : ∀ t, t.length < b.length → wp (.ref .condition) t (condR t)) :
    wp (.ref .expression) b (exprR b) := by
  refine wp_ref (wp_choice_cons (wp_action (wp_seq_cons (wp_chr (c := 40) (by decide) ?_ fun hb => ?_))))
  · rintro s rfl
    have hh : hl (40 :: s) = s.length + 2 := hl_noHd (by decide)
    refine wp_mono (paren_cost s fun t ht => hC t (by simp only [List.length_cons]; omega)) ?_
    intro m r h
    cases r with
    | ok b' =>
      simp only [onFail_ok, exprR, List.length_cons, List.head?_cons] at h ⊢
      exact ⟨by omega, by omega, by simp, .no (c := 40) rfl (by decide) (by simp only [List.length_cons]; omega)⟩
    | fatal =>
      simp only [onFail_fatal, exprR, List.length_cons, List.head?_cons] at h ⊢
      exact ⟨by omega, by simp⟩
    | fail =>
      simp only [onFail_fail] at h ⊢
      refine wp_choice_cons (wp_mono (neg_cost _ hC) ?_)
      intro m2 r h2
      cases r with
      | ok b' => exact absurd h2.2.2 (by simp)
      | fatal => exact absurd h2.2 (by simp)
      | fail =>
        simp only [negR, onFail_fail] at h2 ⊢
        have h2' : m2 ≤ 20 := h2.elim id fun h => absurd h.2 (by simp)
        refine wp_mono (simple_cost (40 :: s)) ?_
        intro m3 r h3
        cases r with
        | ok b' =>
          obtain ⟨c, t, he, hc⟩ := h3.2.2.1
          cases he; exact absurd hc (by decide)
        | fatal =>
          obtain ⟨c, t, he, hc⟩ := h3.2
          cases he; exact absurd hc (by decide)
        | fail =>
          simp only [simpR, exprR, hh] at h3 ⊢
          exact .inr ⟨by omega, by simp⟩
  · refine wp_choice_cons (wp_mono (neg_cost _ hC) ?_)
    intro m2 r h2
    cases r with
    | ok b' =>
      simp only [negR, onFail_ok, exprR] at h2 ⊢
      exact ⟨h2.1, by omega, by rw [h2.2.2]; simp, .no h2.2.2 (by decide) (by omega)⟩
    | fatal =>
      simp only [negR, onFail_fatal, exprR] at h2 ⊢
      exact ⟨by omega, by rw [h2.2]; simp⟩
    | fail =>
      simp only [negR, onFail_fail] at h2 ⊢
      refine wp_mono (simple_cost b) ?_
      intro m3 r h3
      rcases h2 with h2 | h2
      · cases r with
        | ok b' =>
          simp only [simpR, exprR] at h3 ⊢
          exact ⟨h3.1, by omega, rvStart_nd h3.2.2.1, h3.2.2.2⟩
        | fatal =>
          simp only [simpR, exprR] at h3 ⊢
          exact ⟨by omega, rvStart_nd h3.2⟩
        | fail =>
          simp only [simpR, exprR] at h3 ⊢
          exact .inl (by omega)
      · obtain ⟨s, rfl⟩ := head_cons h2.2
        have hh : hl (33 :: s) = s.length + 2 := hl_noHd (by decide)
        cases r with
        | ok b' =>
          obtain ⟨c, t, he, hc⟩ := h3.2.2.1
          cases he; exact absurd hc (by decide)
        | fatal =>
          obtain ⟨c, t, he, hc⟩ := h3.2
          cases he; exact absurd hc (by decide)
        | fail =>
          simp only [simpR, exprR, hh, List.length_cons] at h2 h3 ⊢
          exact .inr ⟨by omega, by simp⟩

theorem expr_cost (b : Bytes) : wp (.ref .expression) b (exprR b) := by
  induction hN : b.length using Nat.strongRecOn generalizing b with
  | ind N ih =>
  subst hN
  exact expr_cost_of b fun t ht => cond_cost_of t fun s hs => ih s.length (by omega) s rfl

/-- `condition`. -/
theorem cond_cost (b : Bytes) : wp (.ref .condition) b (condR b) := cond_cost_of b fun s _ => expr_cost s

end Verif
