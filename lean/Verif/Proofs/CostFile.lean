import Verif.Proofs.CostBlock
import Verif.Proofs.CostTotal
import Verif.Proofs.CostCap
/-
The cost of sections and files, and what it means for `Parse`.
-/
namespace Verif
open Spec

theorem ptype_cost (b : Bytes) : wp G.pluginType b (fun n r => match r with
    | .ok b' => b'.length < b.length ∧ n ≤ 20 ∧ b.head? ≠ some 35
    | .fail => n ≤ 20
    | .fatal => False) := by
  refine wp_choice_cons (wp_action (wp_tok (tok := b!"input") (by decide) ?_ fun _ => ?_))
  · rintro b' rfl; simp only [onFail_ok]; exact ⟨by simp; omega, by omega, by simp⟩
  simp only [onFail_fail]
  refine wp_choice_cons (wp_action (wp_tok (tok := b!"filter") (by decide) ?_ fun _ => ?_))
  · rintro b' rfl; simp only [onFail_ok]; exact ⟨by simp; omega, by omega, by simp⟩
  simp only [onFail_fail]
  refine wp_choice_cons (wp_action (wp_tok (tok := b!"output") (by decide) ?_ fun _ => ?_))
  · rintro b' rfl; simp only [onFail_ok]; exact ⟨by simp; omega, by omega, by simp⟩
  simp only [onFail_fail]
  refine wp_choice_cons (wp_pushError (wp_choice_nil ?_))
  simp

/-- The body of a section. -/
theorem secBody_cost (b : Bytes) :
    wp (.seq [.labeled .bops (.star (.action (.ret .bop) (.labeled .bop (.ref .branchOrPlugin)))),
      .labeled .footerComment G.gap, G.close b!"}" (.pushError b!"expect closing curly bracket")]) b (fun n r => match r with
      | .ok b' => b'.length < b.length ∧ n ≤ 90000 * (b.length - b'.length)
      | .fail => n ≤ 250000 * (b.length + 1)
      | .fatal => n ≤ 250000 * (b.length + 1)) := by
  refine wp_seq_cons (wp_labeled ?_)
  suffices H : wp (.star (.action (.ret .bop) (.labeled .bop (.ref .branchOrPlugin)))) b (fun n r => match r with
      | .ok b' => b'.length ≤ b.length ∧ n + 33000 * el b ≤ 160000 * (b.length + 1) ∧
          ((gr b').head? = some 125 → n + 33000 * el b ≤ 90000 * (b.length - b'.length) + 33500 * gl b')
      | .fail => False
      | .fatal => n + 33000 * el b ≤ 250000 * (b.length + 1)) by
    have hep := gl_le_el b
    have hgp := gl_pos b
    refine wp_mono H ?_
    intro n r h
    cases r with
    | ok b1 =>
      simp only [onOk_ok] at h ⊢
      refine wp_lgap fun m hm => ?_
      have hgl1 := gl_le b1
      refine wp_seq_cons (wp_choice_cons (wp_chr (c := 125) (by decide) ?_ fun hb => ?_))
      · intro t ht
        have h2 := h.2.2 (by rw [ht]; rfl)
        have h3 := gl_bound ht (by decide)
        have h4 := gr_len b1
        rw [ht] at h4
        simp only [List.length_cons] at h3 h4
        refine wp_seq_nil ?_
        exact ⟨by omega, by omega⟩
      · refine wp_choice_cons (wp_pushError (wp_choice_nil ?_))
        simp only [onOk_fail]
        omega
    | fail => exact h.elim
    | fatal => simp only [onOk_fatal] at h ⊢; omega
  induction hN : b.length using Nat.strongRecOn generalizing b with
  | ind N ih =>
  subst hN
  have hgl := gl_le b
  have hg := gr_len b
  have hge := gl_le_el b
  have hgp := gl_pos b
  refine wp_star (wp_action (wp_labeled (wp_mono (bop_cost b) ?_)))
  intro n r h
  cases r with
  | ok b1 =>
    simp only [bopR] at h ⊢
    refine wp_mono (ih b1.length h.1 b1 rfl) ?_
    intro m r h2
    cases r with
    | ok b' =>
      simp only at h2 ⊢
      exact ⟨by omega, by omega, fun hh => by have := h2.2.2 hh; omega⟩
    | fail => exact h2
    | fatal => simp only at h2 ⊢; omega
  | fail =>
    simp only [bopR] at h ⊢
    refine ⟨Nat.le_refl _, by omega, fun hh => ?_⟩
    have h2 := h.2 hh
    have h3 : el b = gl b := el_not (by
      rw [Bool.eq_false_iff]; intro hi
      rw [isElse_head hi] at hh; cases hh)
    omega
  | fatal =>
    simp only [bopR] at h ⊢
    omega

/-- `pluginSection`. -/
theorem section_cost (g : Bytes) : wp (.ref .pluginSection) g (fun n r => match r with
    | .ok b' => b'.length < g.length ∧ n ≤ 90000 * (g.length - b'.length) ∧ g.head? ≠ some 35
    | .fail => n ≤ 251000 * (g.length + 1)
    | .fatal => n ≤ 251000 * (g.length + 1)) := by
  refine wp_ref (wp_action (wp_seq_cons (wp_labeled (wp_mono (ptype_cost g) ?_))))
  intro n r h
  cases r with
  | fatal => exact h.elim
  | fail => simp only [onOk_fail] at h ⊢; omega
  | ok s =>
  simp only [onOk_ok] at h ⊢
  refine wp_gapS fun k hk => ?_
  have hgl := gl_le s
  have hgp := gl_pos s
  refine wp_seq_cons (wp_chr (c := 123) (by decide) ?_ fun _ => ?_)
  · intro u hu
    have h3 := gl_bound hu (by decide)
    have h5 := gr_len s
    rw [hu] at h5
    simp only [List.length_cons] at h5 h3
    refine wp_mono (secBody_cost u) ?_
    intro j r h6
    cases r with
    | ok b' => simp only at h6 ⊢; exact ⟨by omega, by omega, h.2.2⟩
    | fail => simp only at h6 ⊢; omega
    | fatal => simp only at h6 ⊢; omega
  · simp only [onOk_fail]; omega

/-- A section with the gap before it. -/
theorem gapSection_cost (b : Bytes) (l l' : Lbl) (es : List Ex) (P : Nat → CR → Prop)
    (h1 : ∀ n b', b'.length < b.length → n ≤ 91000 * (b.length - b'.length) → wp (.seq es) b' (fun m r => P (n + m) r))
    (h2 : ∀ n, n ≤ 252000 * (b.length + 1) → P n .fail) (h3 : ∀ n, n ≤ 252000 * (b.length + 1) → P n .fatal) :
    wp (.seq (.labeled l G.gap :: .labeled l' (.ref .pluginSection) :: es)) b P := by
  have hgl := gl_le b
  have hgp := gl_pos b
  have hg := gr_len b
  refine wp_lgap fun n hn => wp_seq_cons (wp_labeled (wp_mono (section_cost (gr b)) ?_))
  intro m r h
  cases r with
  | ok b' =>
    simp only [onOk_ok] at h ⊢
    have hnd := gl_nd h.2.2
    refine wp_mono (h1 (n + (m + 1)) b' (by omega) (by omega)) ?_
    intro j r hj
    rw [← Nat.add_assoc]
    exact hj
  | fail => simp only [onOk_fail] at h ⊢; exact h2 _ (by omega)
  | fatal => simp only [onOk_fatal] at h ⊢; exact h3 _ (by omega)

theorem sections_cost (b : Bytes) : wp (.star (.action (.configSection .ps .psComment)
      (.seq [.labeled .psComment G.gap, .labeled .ps (.ref .pluginSection)]))) b (fun n r => match r with
    | .ok b' => b'.length ≤ b.length ∧ n ≤ 253000 * (b.length + 1)
    | .fail => False
    | .fatal => n ≤ 253000 * (b.length + 1)) := by
  induction hN : b.length using Nat.strongRecOn generalizing b with
  | ind N ih =>
  subst hN
  refine wp_star (wp_action (gapSection_cost b _ _ _ _ (fun n b1 h1 h2 => ?_) (fun n h => ?_) (fun n h => ?_)))
  · refine wp_seq_nil ?_
    refine wp_mono (ih b1.length h1 b1 rfl) ?_
    intro m r h3
    cases r with
    | ok b' => simp only at h3 ⊢; exact ⟨by omega, by omega⟩
    | fail => exact h3
    | fatal => simp only at h3 ⊢; omega
  · exact ⟨Nat.le_refl _, by omega⟩
  · simp only; omega

/-- `config`. -/
theorem config_cost (b : Bytes) : wp (.ref .config) b (fun n _ => n ≤ 260000 * (b.length + 1)) := by
  refine wp_ref (wp_action (gapSection_cost b _ _ _ _ (fun n b1 h1 h2 => ?_) (fun n h => ?_) (fun n h => ?_)))
  · refine wp_seq_cons (wp_labeled (wp_mono (sections_cost b1) ?_))
    intro m r h3
    cases r with
    | ok b2 =>
      simp only [onOk_ok] at h3 ⊢
      have hgl := gl_le b2
      refine wp_lgap fun k hk => wp_seq_cons (wp_eof (fun _ => ?_) (fun _ => ?_))
      · exact wp_seq_nil (by omega)
      · simp only [onOk_fail]; omega
    | fail => exact h3.elim
    | fatal => simp only [onOk_fatal] at h3 ⊢; omega
  · omega
  · omega

/-- `init`. -/
theorem init_cost (b : Bytes) : wp G.init b (fun n _ => n ≤ 270000 * (b.length + 1)) := by
  refine wp_action (wp_seq_cons (wp_state (wp_seq_cons (wp_initParser (wp_seq_cons (wp_labeled ?_))))))
  refine wp_choice_cons (wp_action (wp_seq_cons (wp_labeled (wp_mono (config_cost b) ?_))))
  intro n r h
  have hgl := gl_le b
  have alt : ∀ k, k ≤ 260000 * (b.length + 1) + 20 → wp (.choice [.action .newConfig (.seq [G.gap, G.eof])]) b
      (fun m r => onOk (fun m r => 1 + (1 + m) + 1 ≤ 270000 * (b.length + 1))
        (wp (.seq [])) (k + m + 1) r) := by
    intro k hk
    refine wp_choice_cons (wp_action (wp_seq_cons (wp_mono (gap_cost b) ?_)))
    rintro m r ⟨rfl, hm⟩
    simp only [onOk_ok]
    refine wp_seq_cons (wp_eof (fun _ => ?_) (fun _ => ?_))
    · simp only [onOk_ok]
      refine wp_seq_nil ?_
      simp only [onFail_ok, onOk_ok]
      exact wp_seq_nil (by omega)
    · simp only [onOk_fail, onFail_fail]
      refine wp_choice_nil ?_
      simp only [onOk_fail]
      omega
  cases r with
  | ok b1 =>
    simp only [onOk_ok]
    refine wp_seq_cons (wp_eof (fun _ => ?_) (fun _ => ?_))
    · simp only [onOk_ok]
      refine wp_seq_nil ?_
      simp only [onFail_ok, onOk_ok]
      exact wp_seq_nil (by omega)
    · simp only [onOk_fail, onFail_fail]
      refine alt _ (by omega)
  | fail =>
    simp only [onOk_fail, onFail_fail]
    refine alt _ (by omega)
  | fatal =>
    simp only [onOk_fatal, onFail_fatal]
    omega

/-- The number of expressions evaluated by `Parse` is linear in the length of the input. -/
theorem evalInit_cost (fuel : Nat) (o : Opts) (data : Bytes) (ff : List FF) (hf : parseFuel data ≤ fuel) (m : Nat)
    (hm : 270000 * (data.length + 1) ≤ m) : ¬ (evalInit fuel { o with maxExpr := none } data ff).over m := by
  have ht := evalInit_term fuel { o with maxExpr := none } data ff hf
  have hc := eval_cost (o := { o with maxExpr := none }) rfl fuel G.init (initSt { o with maxExpr := none } data ff)
  rw [initSt_rest] at hc
  have h0 : (initSt { o with maxExpr := none } data ff).cnt = 0 := by
    unfold initSt
    simp only
    rw [(firstRead_fields _ _).2.2.2.2.2.1]
    rfl
  rw [h0] at hc
  rw [evalInit_eq] at ht ⊢
  cases hr : eval { o with maxExpr := none } gram fuel G.init (initSt { o with maxExpr := none } data ff) with
  | timeout => rw [hr] at ht; exact absurd rfl ht
  | ok v t =>
    rw [hr] at hc
    obtain ⟨k, h1, h2⟩ := hc
    have := init_cost data _ _ h1
    simp only [Out.over]; omega
  | fail t =>
    rw [hr] at hc
    obtain ⟨k, h1, h2⟩ := hc
    have := init_cost data _ _ h1
    simp only [Out.over]; omega
  | panic x t =>
    rw [hr] at hc
    simp only [Out.over]
    rcases hc with ⟨k, h1, h2⟩ | ⟨k, h1, h2⟩
    · obtain ⟨n, r, h3⟩ := Cost.rule_total .init data
      have h4 := h1.le h3
      have := init_cost data _ _ h3
      omega
    · have := init_cost data _ _ h1
      omega

end Verif
