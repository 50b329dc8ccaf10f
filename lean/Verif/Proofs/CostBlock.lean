import Verif.Proofs.CostExpr
/-
The cost of blocks, branches, sections and files.
-/
namespace Verif
open Spec

/-- A plugin with an unquoted name starts with a header. -/
theorem plugin_header (b : Bytes) : wp (.ref .plugin) b (fun _ r => ∀ b', r = .ok b' → b'.length < (gr b).length ∧ (dn (gr b) ≠ gr b →
    Hd (gr b) ∧ b'.length < (gr (dn (gr b))).length)) := by
  refine wp_ref (wp_action (wp_lgap fun n hn => wp_seq_cons (wp_labeled (wp_mono (name_cost (gr b)) ?_))))
  intro m r h
  cases r with
  | ok b1 =>
    simp only [onOk_ok] at h ⊢
    refine wp_gapS fun k hk => ?_
    refine wp_seq_cons (wp_chr (c := 123) (by decide) ?_ fun _ => ?_)
    · intro s hs
      refine wp_mono (wp_suffix (P := fun _ _ => True) fun _ _ _ => trivial) ?_
      rintro j r ⟨_, h2⟩ b' rfl
      have h4 := (h2 b' rfl).length_le
      have h6 := gr_len b1
      rw [hs] at h6
      simp only [List.length_cons] at h6
      refine ⟨by omega, fun h3 => ?_⟩
      rcases h.2.2 with ⟨rfl, _⟩ | ⟨h5, _⟩
      · refine ⟨by unfold Hd; rw [hs]; rfl, ?_⟩
        rw [hs]; simp only [List.length_cons]; omega
      · exact absurd h5 h3
    · intro b' hb; cases hb
  | fail => intro b' hb; cases hb
  | fatal => intro b' hb; cases hb

theorem plugR_fail {b : Bytes} {n : Nat} (h : plugR b n .fail) : n ≤ 400 * (b.length + 1) ∧
    ((gr b).head? = some 125 ∨ gr b = [] → n ≤ 100 * gl b + 50) := by
  have hgl := gl_le b
  have hg := gr_len b
  rcases h with h | h | h
  · exact ⟨by omega, fun _ => h.2.2.2⟩
  · refine ⟨?_, fun hh => ?_⟩
    · have := gl_le (dn (gr b))
      have := dn_len (gr b)
      omega
    · exfalso
      obtain ⟨c, t, hb, hc⟩ := dn_ne h.1
      rcases hh with hh | hh
      · rw [hb] at hh; simp only [List.head?_cons, Option.some.injEq] at hh; subst hh; exact absurd hc (by decide)
      · rw [hb] at hh; cases hh
  · obtain ⟨h1, k, b1, h2, h3⟩ := h
    have h4 := h2.suffix.length_le
    have h5 := gl_le b1
    refine ⟨by omega, fun hh => ?_⟩
    exfalso
    have h6 := (string_cost _ _ _ h2)
    simp only [tokR, reduceCtorEq, false_iff] at h6
    rcases string_head h6.2 with h7 | h7 <;> rcases hh with hh | hh <;> rw [hh] at h7 <;> cases h7

/-- The input starts with `if`. -/
def isIf (b : Bytes) : Bool := b!"if".isPrefixOf b
/-- The input starts with `else`. -/
def isElse (b : Bytes) : Bool := b!"else".isPrefixOf b

theorem isIf_head {b : Bytes} (h : isIf b = true) : b.head? = some 105 := prefix_head h
theorem isElse_head {b : Bytes} (h : isElse b = true) : b.head? = some 101 := prefix_head h

/-- How far the evaluation of a branch looks behind it, for `else`. -/
def el (b : Bytes) : Nat := if isElse (gr b) then gl b + hl (gr b) else gl b

theorem gl_le_el (b : Bytes) : gl b ≤ el b := by unfold el; split <;> omega
theorem el_le (b : Bytes) : el b ≤ b.length + 2 := by
  have h1 := gl_le b
  unfold el
  split
  · rename_i h
    have h2 := gl_nd (b := b) (by rw [isElse_head h]; simp)
    have := hl_le (gr b)
    omega
  · omega

theorem head_name {b : Bytes} {c : UInt8} (h : b.head? = some c) (hc : Spec.isNameChar c = true) : dn b ≠ b := by
  obtain ⟨t, rfl⟩ := head_cons h
  intro hh
  have h1 : (dn (c :: t)).length = t.length + 1 := by rw [hh]; rfl
  have h2 : dn (c :: t) = dn t := by show (c :: t).dropWhile _ = _; rw [List.dropWhile_cons_of_pos hc]; rfl
  have := dn_len t
  rw [h2] at h1; omega

/-! ### Blocks -/

/-- What a branch or plugin costs. -/
def bopR (b : Bytes) (n : Nat) : CR → Prop
  | .ok b' => b'.length < b.length ∧ n + 36000 * el b ≤ 90000 * (b.length - b'.length) + 33000 * el b' ∧ (gr b).head? ≠ some 35
  | .fail => n + 36000 * el b ≤ 150000 * (b.length + 1) ∧ ((gr b).head? = some 125 → n ≤ 400 * gl b)
  | .fatal => n + 36000 * el b ≤ 250000 * (b.length + 1) ∧ (gr b).head? ≠ some 35

/-- What the rest of a block costs. -/
def blockR (b : Bytes) (n : Nat) : CR → Prop
  | .ok b' => b'.length < b.length ∧ n + 33000 * el b ≤ 90000 * (b.length - b'.length)
  | .fail => False
  | .fatal => n + 33000 * el b ≤ 250000 * (b.length + 1)

/-- An item of a block. -/
def blkItem : Ex := .action (.branchOrPluginComment .bop .comment) (.seq [
    .labeled .comment G.gap, .labeled .bop (.ref .branchOrPlugin)])

theorem el_gr {b : Bytes} (h : (gr b).head? ≠ some 35) : el b + (gr b).length = el (gr b) + b.length := by
  have h1 := gl_nd h
  have h2 := gl_nd (b := gr b) (by rw [gr_gr]; exact h)
  rw [gr_gr] at h2
  unfold el
  rw [gr_gr]
  split <;> omega

/-- What an item of a block costs. -/
def blkItemR (b : Bytes) (n : Nat) : CR → Prop
  | .ok b' => b'.length < b.length ∧ n + 35000 * el b ≤ 90000 * (b.length - b'.length) + 33000 * el b'
  | .fail => n + 34000 * el b ≤ 160000 * (b.length + 1) ∧ ((gr b).head? = some 125 → n ≤ 600 * gl b)
  | .fatal => n + 34000 * el b ≤ 250000 * (b.length + 1)

theorem blkItem_cost (b : Bytes) (hB : ∀ s, s.length ≤ b.length → wp (.ref .branchOrPlugin) s (bopR s)) :
    wp blkItem b (blkItemR b) := by
  refine wp_action (wp_lgap fun n hn => wp_seq_cons (wp_labeled (wp_mono (hB (gr b) (gr_len b)) ?_)))
  have hgl := gl_le b
  have hg := gr_len b
  have hge := gl_le_el b
  have hgp := gl_pos b
  intro m r h
  cases r with
  | ok b' =>
    simp only [bopR, onOk_ok, gr_gr] at h ⊢
    have h1 := el_gr h.2.2
    refine wp_seq_nil ?_
    simp only [blkItemR]
    exact ⟨by omega, by omega⟩
  | fail =>
    simp only [bopR, onOk_fail, gr_gr, blkItemR] at h ⊢
    have h1 := el_le b
    refine ⟨?_, fun hh => ?_⟩
    · by_cases h35 : (gr b).head? = some 35
      · have : el b = gl b := by
          unfold el
          rw [if_neg]
          intro hh
          rw [isElse_head hh] at h35; cases h35
        have h2 := gl_gr b
        have h3 := gl_le_el (gr b)
        unfold deadLen at h2
        rw [if_pos h35] at h2
        omega
      · have h1 := el_gr h35
        omega
    · have h2 := h.2 hh
      have h3 := gl_gr b
      have h4 : deadLen (gr b) = 0 := by unfold deadLen; rw [if_neg]; rw [hh]; decide
      omega
  | fatal =>
    simp only [bopR, onOk_fatal, gr_gr, blkItemR] at h ⊢
    have h1 := el_gr h.2
    omega

theorem block_cost (b : Bytes) (l : Lbl) (hB : ∀ s, s.length ≤ b.length → wp (.ref .branchOrPlugin) s (bopR s)) :
    wp (.seq [G.block, .labeled l G.gap, G.close b!"}" (.fatalError b!"expect closing curly bracket")]) b (blockR b) := by
  refine wp_seq_cons (wp_labeled ?_)
  suffices H : wp (.star blkItem) b (onOk (fun n r => blockR b (n + 1) r)
      (wp (.seq [.labeled l G.gap, G.close b!"}" (.fatalError b!"expect closing curly bracket")]))) by
    refine wp_mono H ?_
    intro n r h
    cases r with
    | ok b1 =>
      simp only [onOk_ok] at h ⊢
      refine wp_mono h ?_
      intro m r h
      rw [show n + 1 + m = n + m + 1 by omega]; exact h
    | fail => exact h
    | fatal => exact h
  induction hN : b.length using Nat.strongRecOn generalizing b with
  | ind N ih =>
  subst hN
  have hgl := gl_le b
  have hg := gr_len b
  have hge := gl_le_el b
  have hgp := gl_pos b
  refine wp_star (wp_mono (blkItem_cost b hB) ?_)
  intro n r h
  cases r with
  | ok b1 =>
    simp only [blkItemR] at h ⊢
    refine wp_mono (ih b1.length h.1 b1 (fun s hs => hB s (by omega)) rfl) ?_
    intro m r h2
    cases r with
    | ok b2 =>
      simp only [onOk_ok] at h2 ⊢
      refine wp_mono h2 ?_
      intro k r h3
      cases r with
      | ok b' => simp only [blockR] at h3 ⊢; exact ⟨by omega, by omega⟩
      | fail => exact h3
      | fatal => simp only [blockR] at h3 ⊢; omega
    | fail => exact h2.elim
    | fatal => simp only [onOk_fatal, blockR] at h2 ⊢; omega
  | fail =>
    simp only [blkItemR, onOk_ok] at h ⊢
    refine close_cost (by decide) (fun k t hk ht => ?_) (fun k hk ht => ?_)
    · have h2 := h.2 (by rw [ht]; rfl)
      have h3 : el b = gl b := by unfold el; rw [ht]; rfl
      have h4 := gl_bound ht (by decide)
      rw [ht] at hg
      simp only [List.length_cons] at h4 hg
      simp only [blockR]
      exact ⟨by omega, by omega⟩
    · simp only [blockR]
      omega
  | fatal =>
    simp only [blkItemR, onOk_fatal, blockR] at h ⊢
    omega

/-! ### Branches -/

/-- The condition and the block of a branch. -/
theorem condBlock_cost (s : Bytes) (hB : ∀ t, t.length < s.length → wp (.ref .branchOrPlugin) t (bopR t)) :
    wp (.seq [G.gapS, G.warn, .labeled .cond (.ref .condition), G.gapS, G.warn, .lit b!"{", G.block,
      .labeled .footerComment G.gap, G.close b!"}" (.fatalError b!"expect closing curly bracket")]) s (fun n r => match r with
      | .ok b' => b'.length < s.length ∧ n ≤ 90000 * (s.length - b'.length)
      | .fail => n ≤ 31000 * hl s
      | .fatal => n + 50000 ≤ 250000 * (s.length + 1)) := by
  refine wp_gapS fun n hn => ?_
  have hgl := gl_le s
  have hgp := gl_pos s
  have hg := gr_len s
  have hhl := hl_le s
  have hgh := gl_le_hl s
  have hlt := (Stay.gap s).hl
  refine wp_seq_cons (wp_labeled (wp_mono (cond_cost (gr s)) ?_))
  intro m r h
  cases r with
  | ok b1 =>
    simp only [condR, onOk_ok] at h ⊢
    have hnd := gl_nd h.2.2.2.1
    refine wp_gapS fun k hk => ?_
    refine wp_seq_cons (wp_chr (c := 123) (by decide) ?_ fun _ => ?_)
    · intro u hu
      have h3 := gl_bound hu (by decide)
      have h4 := h.2.2.1 (end_head hu (.inr rfl))
      have h5 := gr_len b1
      rw [hu] at h5
      simp only [List.length_cons] at h5 h3
      have hge := gl_le_el u
      have hgpu := gl_pos u
      refine wp_mono (block_cost u _ fun t ht => hB t (by omega)) ?_
      intro j r h6
      cases r with
      | ok b' => simp only [blockR] at h6 ⊢; exact ⟨by omega, by omega⟩
      | fail => exact h6.elim
      | fatal => simp only [blockR] at h6 ⊢; omega
    · simp only [onOk_fail]; omega
  | fail =>
    simp only [condR, onOk_fail] at h ⊢
    rcases h with h | h
    · omega
    · have hnd := gl_nd h.2
      omega
  | fatal =>
    simp only [condR, onOk_fatal] at h ⊢
    have hnd := gl_nd h.2
    omega

theorem isPrefix_false {tok b : Bytes} (h : ¬ tok <+: b) : tok.isPrefixOf b = false := by
  rw [Bool.eq_false_iff]
  intro hh
  exact h (List.isPrefixOf_iff_prefix.1 hh)

/-- `ifCond`. -/
theorem ifCond_cost (g : Bytes) (hB : ∀ t, t.length < g.length → wp (.ref .branchOrPlugin) t (bopR t)) :
    wp (.ref .ifCond) g (fun n r => match r with
      | .ok b' => b'.length < g.length ∧ n + 170000 ≤ 90000 * (g.length - b'.length) ∧ isIf g = true
      | .fail => (n ≤ 10 ∧ isIf g = false) ∨ (n ≤ 31000 * hl g ∧ isIf g = true)
      | .fatal => n + 150000 ≤ 250000 * (g.length + 1) ∧ isIf g = true) := by
  refine wp_ref (wp_action (wp_seq_cons (wp_tok (tok := b!"if") (by decide) ?_ fun h => ?_)))
  · rintro s rfl
    have hst := (Stay.tok (tok := b!"if") (t := s) (by decide)).hl
    have hi : isIf (b!"if" ++ s) = true := isPrefixOf_append _ _
    have hlen : (b!"if" ++ s).length = s.length + 2 := by simp
    rw [hlen] at hst hB ⊢
    refine wp_mono (condBlock_cost s fun t ht => hB t (by omega)) ?_
    intro n r h
    cases r with
    | ok b' => simp only at h ⊢; exact ⟨by omega, by omega, hi⟩
    | fail => simp only at h ⊢; exact .inr ⟨by omega, hi⟩
    | fatal => simp only at h ⊢; exact ⟨by omega, hi⟩
  · simp only [onOk_fail]
    exact .inl ⟨by omega, isPrefix_false h⟩

/-- `elseIf`. -/
theorem elseIf_cost (g : Bytes) (hB : ∀ t, t.length < g.length → wp (.ref .branchOrPlugin) t (bopR t)) :
    wp (.ref .elseIf) g (fun n r => match r with
      | .ok b' => b'.length < g.length ∧ n + 170000 ≤ 90000 * (g.length - b'.length) ∧ isElse g = true
      | .fail => (n ≤ 10 ∧ isElse g = false) ∨ (n ≤ 31000 * hl g ∧ isElse g = true)
      | .fatal => n + 150000 ≤ 250000 * (g.length + 1) ∧ isElse g = true) := by
  refine wp_ref (wp_action (wp_seq_cons (wp_tok (tok := b!"else") (by decide) ?_ fun h => ?_)))
  · rintro s rfl
    have hst := (Stay.tok (tok := b!"else") (t := s) (by decide)).hl
    have hi : isElse (b!"else" ++ s) = true := isPrefixOf_append _ _
    have hlen : (b!"else" ++ s).length = s.length + 4 := by simp
    rw [hlen] at hst hB ⊢
    have hgl := gl_le_hl s
    have hgp := gl_pos s
    refine wp_gapS fun k hk => ?_
    refine wp_seq_cons (wp_tok (tok := b!"if") (by decide) ?_ fun h => ?_)
    · intro u hu
      have hnd := gl_nd (b := s) (by rw [hu]; simp)
      have hst2 := ((Stay.gap s).trans (hu ▸ Stay.tok (tok := b!"if") (t := u) (by decide))).hl
      have hlu : (gr s).length = u.length + 2 := by rw [hu]; simp
      refine wp_mono (condBlock_cost u fun t ht => hB t (by omega)) ?_
      intro n r h
      cases r with
      | ok b' => simp only at h ⊢; exact ⟨by omega, by omega, hi⟩
      | fail => simp only at h ⊢; exact .inr ⟨by omega, hi⟩
      | fatal => simp only at h ⊢; exact ⟨by omega, hi⟩
    · simp only [onOk_fail]
      exact .inr ⟨by omega, hi⟩
  · simp only [onOk_fail]
    exact .inl ⟨by omega, isPrefix_false h⟩

/-- `elseCond`. -/
theorem elseCond_cost (g : Bytes) (hB : ∀ t, t.length < g.length → wp (.ref .branchOrPlugin) t (bopR t)) :
    wp (.ref .elseCond) g (fun n r => match r with
      | .ok b' => b'.length + hl g < g.length ∧ n + 35000 * hl g + 50000 ≤ 90000 * (g.length - b'.length) ∧ isElse g = true
      | .fail => (n ≤ 10 ∧ isElse g = false) ∨ (n ≤ 100 * hl g ∧ isElse g = true)
      | .fatal => n + 35000 * hl g + 150000 ≤ 250000 * (g.length + 1) ∧ isElse g = true) := by
  refine wp_ref (wp_action (wp_seq_cons (wp_tok (tok := b!"else") (by decide) ?_ fun h => ?_)))
  · rintro s rfl
    have hst := (Stay.tok (tok := b!"else") (t := s) (by decide)).hl
    have hi : isElse (b!"else" ++ s) = true := isPrefixOf_append _ _
    have hlen : (b!"else" ++ s).length = s.length + 4 := by simp
    rw [hlen] at hst hB ⊢
    have hgl := gl_le_hl s
    have hgp := gl_pos s
    refine wp_gapS fun k hk => ?_
    refine wp_seq_cons (wp_chr (c := 123) (by decide) ?_ fun h => ?_)
    · intro u hu
      have hd : dn (b!"else" ++ s) = s := by
        rw [dn_tok (by decide)]
        apply dn_gap
        rw [hu, dn_cons (by decide)]
      have hhd : Hd (b!"else" ++ s) := by unfold Hd; rw [hd, hu]; rfl
      have hlv := hhd.lv
      have hh : hl (b!"else" ++ s) = lv (b!"else" ++ s) := by unfold hl; rw [if_pos hhd]
      rw [← hh, hd, hu, hlen] at hlv
      simp only [List.length_cons] at hlv
      have h3 := gl_bound hu (by decide)
      have h5 := gr_len s
      rw [hu] at h5
      simp only [List.length_cons] at h5 h3
      have hge := gl_le_el u
      have hgpu := gl_pos u
      refine wp_mono (block_cost u _ fun t ht => hB t (by omega)) ?_
      intro j r h6
      cases r with
      | ok b' => simp only [blockR] at h6 ⊢; exact ⟨by omega, by omega, hi⟩
      | fail => exact h6.elim
      | fatal => simp only [blockR] at h6 ⊢; exact ⟨by omega, hi⟩
    · simp only [onOk_fail]
      exact .inr ⟨by omega, hi⟩
  · simp only [onOk_fail]
    exact .inl ⟨by omega, isPrefix_false h⟩

theorem el_else {b : Bytes} (h : isElse (gr b) = true) : el b = gl b + hl (gr b) := by unfold el; rw [h]; rfl
theorem el_not {b : Bytes} (h : isElse (gr b) = false) : el b = gl b := by unfold el; rw [h]; rfl
theorem el_if {b : Bytes} (h : isIf (gr b) = true) : el b = gl b := by
  refine el_not ?_
  rw [Bool.eq_false_iff]
  intro hh
  have h1 := isElse_head hh
  rw [isIf_head h] at h1; cases h1

/-- An `else if` with the gap before it. -/
def eifItem : Ex := .action (.elseIfComment .eib .eibComment) (.seq [
    .labeled .eibComment G.gap, .labeled .eib (.ref .elseIf)])

theorem eifStar_cost (b : Bytes) (hB : ∀ t, t.length < b.length → wp (.ref .branchOrPlugin) t (bopR t)) :
    wp (.star eifItem) b (fun n r => match r with
      | .ok b' => b'.length ≤ b.length ∧ n ≤ 90000 * (b.length - b'.length) + 32000 * el b'
      | .fail => False
      | .fatal => n + 100000 ≤ 250000 * (b.length + 1)) := by
  induction hN : b.length using Nat.strongRecOn generalizing b with
  | ind N ih =>
  subst hN
  have hgl := gl_le b
  have hgp := gl_pos b
  have hg := gr_len b
  have hge := gl_le_el b
  refine wp_star (wp_action (wp_lgap fun n hn => wp_seq_cons (wp_labeled (wp_mono (elseIf_cost (gr b) fun t ht => hB t (by omega)) ?_))))
  intro m r h
  cases r with
  | ok b1 =>
    simp only [onOk_ok] at h ⊢
    have hnd := gl_nd (b := b) (by rw [isElse_head h.2.2]; simp)
    refine wp_seq_nil ?_
    refine wp_mono (ih b1.length (by omega) b1 (fun t ht => hB t (by omega)) rfl) ?_
    intro k r h2
    cases r with
    | ok b' => simp only at h2 ⊢; exact ⟨by omega, by omega⟩
    | fail => exact h2
    | fatal => simp only at h2 ⊢; omega
  | fail =>
    simp only [onOk_fail] at h ⊢
    refine ⟨by omega, ?_⟩
    rcases h with h | h
    · omega
    · have := el_else h.2
      omega
  | fatal =>
    simp only [onOk_fatal] at h ⊢
    have hnd := gl_nd (b := b) (by rw [isElse_head h.2]; simp)
    omega

theorem optElse_cost (b : Bytes) (hB : ∀ t, t.length < b.length → wp (.ref .branchOrPlugin) t (bopR t)) :
    wp (.opt (.action (.elseComment .eb .ebComment) (.seq [.labeled .ebComment G.gap, .labeled .eb (.ref .elseCond)]))) b
      (fun n r => match r with
      | .ok b' => (b' = b ∧ n ≤ 300 * el b) ∨ (b'.length < b.length ∧ n + 34000 * el b ≤ 90000 * (b.length - b'.length))
      | .fail => False
      | .fatal => n + 34000 * el b + 50000 ≤ 250000 * (b.length + 1)) := by
  have hgl := gl_le b
  have hgp := gl_pos b
  have hg := gr_len b
  have hge := gl_le_el b
  refine wp_opt (wp_action (wp_lgap fun n hn => wp_seq_cons (wp_labeled (wp_mono (elseCond_cost (gr b) fun t ht => hB t (by omega)) ?_))))
  intro m r h
  cases r with
  | ok b1 =>
    simp only [onOk_ok] at h ⊢
    have hnd := gl_nd (b := b) (by rw [isElse_head h.2.2]; simp)
    have hel := el_else h.2.2
    refine wp_seq_nil ?_
    simp only [CR.opt_ok]
    exact .inr ⟨by omega, by omega⟩
  | fail =>
    simp only [onOk_fail, CR.opt_fail] at h ⊢
    refine .inl ⟨trivial, ?_⟩
    rcases h with h | h
    · omega
    · have := el_else h.2
      omega
  | fatal =>
    simp only [onOk_fatal, CR.opt_fatal] at h ⊢
    have hnd := gl_nd (b := b) (by rw [isElse_head h.2]; simp)
    have hel := el_else h.2
    omega

/-- `branch`. -/
theorem branch_cost (b : Bytes) (hB : ∀ t, t.length < b.length → wp (.ref .branchOrPlugin) t (bopR t)) :
    wp (.ref .branch) b (fun n r => match r with
      | .ok b' => b'.length < b.length ∧ n + 36000 * el b + 100 ≤ 90000 * (b.length - b'.length) + 33000 * el b' ∧ isIf (gr b) = true
      | .fail => (n ≤ 92 * gl b + 20 ∧ isIf (gr b) = false) ∨ (n ≤ 92 * gl b + 31000 * hl (gr b) + 20 ∧ isIf (gr b) = true)
      | .fatal => n + 36000 * el b + 100 ≤ 250000 * (b.length + 1) ∧ isIf (gr b) = true) := by
  have hgl := gl_le b
  have hgp := gl_pos b
  have hg := gr_len b
  refine wp_ref (wp_action (wp_lgap fun n hn => wp_seq_cons (wp_labeled (wp_mono (ifCond_cost (gr b) fun t ht => hB t (by omega)) ?_))))
  intro m r h
  cases r with
  | ok b1 =>
    simp only [onOk_ok] at h ⊢
    have hnd := gl_nd (b := b) (by rw [isIf_head h.2.2]; simp)
    have hel := el_if h.2.2
    refine wp_seq_cons (wp_labeled (wp_mono (eifStar_cost b1 fun t ht => hB t (by omega)) ?_))
    intro k r h2
    cases r with
    | ok b2 =>
      simp only [onOk_ok] at h2 ⊢
      refine wp_seq_cons (wp_labeled (wp_mono (optElse_cost b2 fun t ht => hB t (by omega)) ?_))
      intro j r h3
      cases r with
      | ok b' =>
        simp only [onOk_ok] at h3 ⊢
        refine wp_seq_nil ?_
        rcases h3 with ⟨rfl, h3⟩ | h3
        · exact ⟨by omega, by omega, h.2.2⟩
        · exact ⟨by omega, by omega, h.2.2⟩
      | fail => exact h3.elim
      | fatal => simp only [onOk_fatal] at h3 ⊢; exact ⟨by omega, h.2.2⟩
    | fail => exact h2.elim
    | fatal => simp only [onOk_fatal] at h2 ⊢; exact ⟨by omega, h.2.2⟩
  | fail =>
    simp only [onOk_fail] at h ⊢
    rcases h with h | h
    · exact .inl ⟨by omega, h.2⟩
    · exact .inr ⟨by omega, h.2⟩
  | fatal =>
    simp only [onOk_fatal] at h ⊢
    have hnd := gl_nd (b := b) (by rw [isIf_head h.2]; simp)
    have hel := el_if h.2
    exact ⟨by omega, h.2⟩

theorem bop_cost_of (b : Bytes) (hB : ∀ t, t.length < b.length → wp (.ref .branchOrPlugin) t (bopR t)) :
    wp (.ref .branchOrPlugin) b (bopR b) := by
  have hgl := gl_le b
  have hgp := gl_pos b
  have hg := gr_len b
  have hele := el_le b
  have hhl := hl_le (gr b)
  refine wp_ref (wp_choice_cons (wp_mono (branch_cost b hB) ?_))
  intro n r h
  cases r with
  | ok b' =>
    simp only [onFail_ok, bopR] at h ⊢
    exact ⟨by omega, by omega, by rw [isIf_head h.2.2]; simp⟩
  | fatal =>
    simp only [onFail_fatal, bopR] at h ⊢
    exact ⟨by omega, by rw [isIf_head h.2]; simp⟩
  | fail =>
    simp only [onFail_fail] at h ⊢
    refine wp_choice_cons (wp_mono (wp_and (plugin_cost' b) (plugin_header b)) ?_)
    rintro m r ⟨h2, h3⟩
    cases r with
    | ok b' =>
      simp only [plugR, onFail_ok, bopR] at h2 ⊢
      have hnd := gl_nd h2.2.2
      have hlt := (h3 b' rfl).1
      have hep := gl_le_el b'
      have hgp' := gl_pos b'
      refine ⟨by omega, ?_, h2.2.2⟩
      by_cases hd : dn (gr b) = gr b
      · have hni : isIf (gr b) = false := by
          rw [Bool.eq_false_iff]; intro hh
          exact head_name (isIf_head hh) (by decide) hd
        have hne : isElse (gr b) = false := by
          rw [Bool.eq_false_iff]; intro hh
          exact head_name (isElse_head hh) (by decide) hd
        have hel := el_not hne
        have h4 : n ≤ 92 * gl b + 20 := h.elim (·.1) fun h => by rw [hni] at h; cases h.2
        omega
      · obtain ⟨h5, h6⟩ := (h3 b' rfl).2 hd
        have h7 := h5.lv
        have h8 : hl (gr b) = lv (gr b) := by unfold hl; rw [if_pos h5]
        have h9 : el b ≤ gl b + hl (gr b) := by unfold el; split <;> omega
        have h10 : n ≤ 92 * gl b + 31000 * hl (gr b) + 20 := by
          rcases h with h | h
          · omega
          · exact h.1
        omega
    | fail =>
      have h4 := plugR_fail h2
      simp only [onFail_fail]
      refine wp_choice_nil ?_
      simp only [bopR]
      refine ⟨?_, fun hh => ?_⟩
      · rcases h with h | h <;> omega
      · have h5 := h4.2 (.inl hh)
        have hni : isIf (gr b) = false := by
          rw [Bool.eq_false_iff]; intro hi
          rw [isIf_head hi] at hh; cases hh
        have h4 : n ≤ 92 * gl b + 20 := h.elim (·.1) fun h => by rw [hni] at h; cases h.2
        omega
    | fatal =>
      simp only [plugR, onFail_fatal, bopR] at h2 ⊢
      refine ⟨?_, h2.2⟩
      rcases h with h | h <;> omega

/-- `branchOrPlugin`. -/
theorem bop_cost (b : Bytes) : wp (.ref .branchOrPlugin) b (bopR b) := by
  induction hN : b.length using Nat.strongRecOn generalizing b with
  | ind N ih =>
  subst hN
  exact bop_cost_of b fun t ht => ih t.length ht t rfl

end Verif
