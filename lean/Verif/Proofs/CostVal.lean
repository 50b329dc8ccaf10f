import Verif.Proofs.CostTok
/-
The cost of plugins and values.
-/
namespace Verif
open Spec

/-! ### Gaps in sequences -/

theorem wp_gapS {es : List Ex} {b : Bytes} {P : Nat → CR → Prop}
    (h : ∀ n, n ≤ 92 * gl b → wp (.seq es) (gr b) (fun m r => P (n + m) r)) :
    wp (.seq (G.gapS :: G.warn :: es)) b P := by
  refine wp_seq_cons (wp_action (wp_mono (gap_cost b) ?_))
  rintro n r ⟨rfl, h1⟩
  refine wp_seq_cons (wp_state ?_)
  have h2 := gl_pos b
  refine wp_mono (h (n + 1 + 1) (by omega)) ?_
  intro m r h3
  show P (n + 1 + (1 + m)) r
  rw [← Nat.add_assoc]; exact h3

theorem wp_lgap {l : Lbl} {es : List Ex} {b : Bytes} {P : Nat → CR → Prop}
    (h : ∀ n, n ≤ 92 * gl b → wp (.seq es) (gr b) (fun m r => P (n + m) r)) :
    wp (.seq (.labeled l G.gap :: es)) b P := by
  refine wp_seq_cons (wp_labeled (wp_mono (gap_cost b) ?_))
  rintro n r ⟨rfl, h1⟩
  have h2 := gl_pos b
  exact h (n + 1) (by omega)

theorem gr_gr (b : Bytes) : gr (gr b) = gr b := by unfold gr; rw [gapOf_idem]

theorem gr_stop {b : Bytes} (h : Stop b) : gr b = b := by unfold gr; rw [gapOf_stop h]

theorem gl_gr (b : Bytes) : gl (gr b) = deadLen (gr b) + 1 := by unfold gl; rw [gr_gr]; omega

/-- A character that starts neither whitespace nor a comment. -/
theorem gr_cons {c : UInt8} {t : Bytes} (h1 : isWs c = false) (h2 : c ≠ 35) : gr (c :: t) = c :: t := by
  apply gr_stop
  constructor
  · simp [List.takeWhile, h1]
  · unfold lineOf
    simp only [List.dropWhile, h1]
    split
    · rename_i h; simp only [List.cons.injEq] at h; exact absurd h.1 h2
    · rfl

theorem gl_cons {c : UInt8} {t : Bytes} (h1 : isWs c = false) (h2 : c ≠ 35) : gl (c :: t) = 1 := by
  rw [gl_of_head (gr_cons h1 h2) h2, gr_cons h1 h2]; omega

/-- The first character of a gap. -/
theorem cgap_head (b : Bytes) : gr b = b ∨ ∃ c t, b = c :: t ∧ (isWs c = true ∨ c = 35) := by
  cases b with
  | nil => exact .inl (gr_stop ⟨rfl, rfl⟩)
  | cons c t =>
    by_cases h : isWs c = true ∨ c = 35
    · exact .inr ⟨c, t, rfl, h⟩
    · simp only [not_or, Bool.not_eq_true] at h
      exact .inl (gr_cons h.1 h.2)

theorem ws_not_name {c : UInt8} (h : isWs c = true ∨ c = 35) : Spec.isNameChar c = false := by
  rcases h with h | h
  · exact (by decide +kernel : ∀ c, isWs c = true → Spec.isNameChar c = false) c h
  · subst h; decide

theorem name_not_ws {c : UInt8} (h : Spec.isNameChar c = true) : isWs c = false ∧ c ≠ 35 :=
  (by decide +kernel : ∀ c, Spec.isNameChar c = true → isWs c = false ∧ c ≠ 35) c h

/-- If what follows the gap is not a name, the gap does not start with one. -/
theorem dn_gap {b : Bytes} (h : dn (gr b) = gr b) : dn b = b := by
  rcases cgap_head b with h1 | ⟨c, t, rfl, h1⟩
  · rw [h1] at h; exact h
  · simp [dn, List.dropWhile, ws_not_name h1]

theorem dn_cons {c : UInt8} {t : Bytes} (h : Spec.isNameChar c = false) : dn (c :: t) = c :: t := by
  simp [dn, List.dropWhile, h]

theorem dn_ne {b : Bytes} (h : dn b ≠ b) : ∃ c t, b = c :: t ∧ Spec.isNameChar c = true := by
  cases b with
  | nil => exact absurd rfl h
  | cons c t =>
    cases hc : Spec.isNameChar c with
    | true => exact ⟨c, t, rfl, hc⟩
    | false => exact absurd (dn_cons hc) h

theorem dn_len (b : Bytes) : (dn b).length ≤ b.length := dropWhile_len _ b

theorem gr_dropWs (b : Bytes) : gr (b.dropWhile isWs) = gr b := by
  cases h : lineOf b with
  | none =>
    have h2 : gr b = b.dropWhile isWs := by unfold gr gapOf; rw [linesOf_none h]
    have h3 := lineOf_dropWhile h
    have h4 : gr (b.dropWhile isWs) = (b.dropWhile isWs).dropWhile isWs := by
      unfold gr gapOf; rw [linesOf_none h3]
    rw [h2, h4, dropWhile_idem]
  | some p =>
    obtain ⟨l, b'⟩ := p
    have : ∃ l', lineOf (b.dropWhile isWs) = some (l', b') := by
      unfold lineOf at h ⊢
      rw [dropWhile_idem]
      split at h
      · rename_i r hr
        rw [hr]
        split at h
        all_goals first | (cases h; done) | skip
        all_goals
          simp only [Option.some.injEq, Prod.mk.injEq] at h
          exact ⟨_, by rw [← h.2]⟩
      · cases h
    obtain ⟨l', h'⟩ := this
    unfold gr gapOf
    rw [linesOf_some h, linesOf_some h']

/-- How far a scan for a plugin looks behind a value. -/
def lv (b : Bytes) : Nat := b.length - (dn b).length + gl (dn b)

theorem lv_pos (b : Bytes) : 1 ≤ lv b := by have := gl_pos (dn b); unfold lv; omega

theorem lv_le (b : Bytes) : lv b ≤ b.length + 1 := by
  have h1 := gl_le (dn b); have h2 := dn_len b; unfold lv; omega

theorem gl_le_lv (b : Bytes) : gl b ≤ lv b := by
  by_cases h : dn b = b
  · unfold lv; rw [h]; omega
  · obtain ⟨c, t, rfl, hc⟩ := dn_ne h
    rw [gl_cons (name_not_ws hc).1 (name_not_ws hc).2]
    exact lv_pos _

theorem lv_gap {b : Bytes} {c : UInt8} {t : Bytes} (h : gr b = c :: t) (hc : Spec.isNameChar c = false) (h35 : c ≠ 35) :
    lv b + (c :: t).length = b.length + 1 := by
  have h1 : dn b = b := dn_gap (by rw [h]; exact dn_cons hc)
  have h2 := gl_of_head h h35
  have h3 := gr_len b
  unfold lv
  rw [h1, h2]
  rw [h] at h3 ⊢
  omega

/-! ### Lists -/

/-- What a list, its closing gap and bracket cost. -/
def listR (b : Bytes) (n : Nat) : CR → Prop
  | .ok b' => b'.length < b.length ∧ n + 300 * lv b ≤ 3000 * (b.length - b'.length)
  | .fail => False
  | .fatal => n + 300 * lv b ≤ 20000 * (b.length + 1)

/-- What an item of a list costs. -/
def itemR (q : UInt8) (b : Bytes) (n : Nat) : CR → Prop
  | .ok b' => b'.length < b.length ∧ n + 300 * lv b ≤ 3000 * (b.length - b'.length) + 300 * lv b'
  | .fail => n ≤ 10000 * (b.length + 1) ∧ ∀ t, gr b = q :: t → n ≤ 1000 * gl b
  | .fatal => n + 300 * lv b + 10 ≤ 20000 * (b.length + 1)

theorem close_cost {l : Lbl} {q : UInt8} {m b : Bytes} (hq : q < 128) {P : Nat → CR → Prop}
    (h1 : ∀ n t, n ≤ 92 * gl b + 3 → gr b = q :: t → P n (.ok t))
    (h2 : ∀ n, n ≤ 92 * gl b + 5 → (gr b).head? ≠ some q → P n .fatal) :
    wp (.seq [.labeled l G.gap, G.close [q] (.fatalError m)]) b P := by
  refine wp_lgap fun n hn => ?_
  refine wp_seq_cons (wp_choice_cons (wp_chr (c := q) hq ?_ fun hb => ?_))
  · intro t ht
    refine wp_seq_nil ?_
    exact h1 _ t (by omega) ht
  · refine wp_choice_cons (wp_fatalError ?_)
    exact h2 _ (by omega) hb

/-- The items of a list up to the closing bracket. -/
theorem list_cost {it : Ex} {l : Lbl} {q : UInt8} {m : Bytes} (hq : q < 128) (hn : Spec.isNameChar q = false) (h35 : q ≠ 35)
    (N : Nat) (hit : ∀ b, b.length ≤ N → wp it b (itemR q b)) (b : Bytes) (hb : b.length ≤ N) :
    wp (.star it) b (fun n r => match r with
      | .ok b2 => wp (.seq [.labeled l G.gap, G.close [q] (.fatalError m)]) b2 (fun m r => listR b (n + m) r)
      | r => listR b n r) := by
  obtain ⟨k, hk⟩ : ∃ k, b.length ≤ k := ⟨_, Nat.le_refl _⟩
  induction k generalizing b with
  | zero =>
    refine wp_star (wp_mono (hit b hb) ?_)
    intro n r h
    cases r with
    | ok b' => simp only [itemR] at h; omega
    | fatal => simp only [itemR, listR] at h ⊢; omega
    | fail =>
      simp only [itemR] at h ⊢
      have hgl := gl_le b
      have hlv := lv_le b
      refine close_cost hq (fun j t hj ht => ?_) (fun j hj _ => ?_)
      · have := gr_len b
        rw [ht] at this
        simp at this; omega
      · simp only [listR]; omega
  | succ k ih =>
    refine wp_star (wp_mono (hit b hb) ?_)
    intro n r h
    cases r with
    | ok b' =>
      simp only [itemR] at h ⊢
      refine wp_mono (ih b' (by omega) (by omega)) ?_
      intro j r h2
      cases r with
      | ok b2 =>
        simp only at h2 ⊢
        refine wp_mono h2 ?_
        intro i r h3
        cases r with
        | ok b3 => simp only [listR] at h3 ⊢; omega
        | fail => exact h3
        | fatal => simp only [listR] at h3 ⊢; omega
      | fail => exact h2
      | fatal => simp only [listR] at h2 ⊢; omega
    | fatal => simp only [itemR, listR] at h ⊢; omega
    | fail =>
      simp only [itemR] at h ⊢
      have hgl := gl_le b
      have hlv := lv_le b
      refine close_cost hq (fun j t hj ht => ?_) (fun j hj _ => ?_)
      · have h1 := gr_len b
        have h2 := lv_gap ht hn h35
        have h4 := h.2 t ht
        have h5 := gl_of_head ht h35
        rw [ht] at h1 h5
        simp only [List.length_cons, listR] at *
        omega
      · simp only [listR]; omega

/-! ### Values -/

/-- What a value costs. -/
def valR (b : Bytes) (n : Nat) : CR → Prop
  | .ok b' => b'.length < b.length ∧ n ≤ 3000 * (b.length - b'.length) + 300 * lv b' ∧ b.head? ≠ some 35
  | .fail => n ≤ 500 * (b.length + 1) ∧ (dn b = b → b.head? ≠ some 34 → b.head? ≠ some 39 → b.head? ≠ some 35 → n ≤ 500)
  | .fatal => n ≤ 20000 * (b.length + 1) ∧ b.head? ≠ some 35

/-- What a construct in brackets costs. -/
def brR (c : UInt8) (b : Bytes) (n : Nat) : CR → Prop
  | .ok b' => b'.length < b.length ∧ n + 500 ≤ 3000 * (b.length - b'.length) ∧ b.head? = some c
  | .fail => n ≤ 20 ∧ b.head? ≠ some c
  | .fatal => n + 10000 ≤ 20000 * (b.length + 1) ∧ b.head? = some c

/-- What a plugin costs. -/
def plugR (b : Bytes) (n : Nat) : CR → Prop
  | .ok b' => b'.length < b.length ∧ n + 100 ≤ 3000 * (b.length - b'.length) ∧ (gr b).head? ≠ some 35
  | .fail => ((gr b).head? ≠ some 34 ∧ (gr b).head? ≠ some 39 ∧ dn (gr b) = gr b ∧ n ≤ 100 * gl b + 50) ∨
      (dn (gr b) ≠ gr b ∧ n ≤ 100 * gl b + 100 * ((gr b).length - (dn (gr b)).length) + 100 * gl (dn (gr b)) + 50) ∨
      (dn (gr b) = gr b ∧ ∃ k b1, Cost G.stringValue (gr b) k (.ok b1) ∧
        n ≤ 100 * gl b + 100 * ((gr b).length - b1.length) + 100 * gl b1 + 50)
  | .fatal => n + 100 ≤ 20000 * (b.length + 1) ∧ (gr b).head? ≠ some 35

/-- What an attribute costs. -/
def attrR (b : Bytes) (n : Nat) : CR → Prop
  | .ok b' => b'.length + 3 ≤ b.length ∧ n + 6000 ≤ 3000 * (b.length - b'.length) + 300 * lv b' ∧ b.head? ≠ some 35
  | .fail => n ≤ 1000 * (b.length + 1) ∧ (dn b = b → b.head? ≠ some 34 → b.head? ≠ some 39 → n ≤ 100)
  | .fatal => n + 1000 ≤ 20000 * (b.length + 1) ∧ b.head? ≠ some 35

theorem gl_bound {b : Bytes} {c : UInt8} {t : Bytes} (h : gr b = c :: t) (h35 : c ≠ 35) :
    gl b + (c :: t).length = b.length + 1 := by
  have h1 := gl_of_head h h35
  have h2 := gr_len b
  rw [h] at h1 h2; omega

theorem gl_nd {b : Bytes} (h : (gr b).head? ≠ some 35) : gl b + (gr b).length = b.length + 1 := by
  have h2 := gr_len b
  unfold gl deadLen; rw [if_neg h]; omega

/-- `gap "=>" gap value`. -/
theorem arrow_cost (N : Nat) (hv : ∀ b, b.length < N → gr b = b → wp (.ref .value) b (valR b)) (l : Lbl) (b : Bytes)
    (hb : b.length < N) :
    wp (.seq [G.gapS, G.warn, .lit b!"=>", G.gapS, G.warn, .labeled l (.ref .value)]) b (fun n r => match r with
      | .ok b' => b'.length + 3 ≤ b.length ∧ n + 5000 ≤ 3000 * (b.length - b'.length) + 300 * lv b'
      | .fail => n ≤ 700 * (b.length + 1)
      | .fatal => n + 3000 ≤ 20000 * (b.length + 1)) := by
  refine wp_gapS fun n hn => ?_
  have hgl := gl_le b
  refine wp_seq_cons (wp_tok (by decide) ?_ fun _ => by simp only [onOk_fail]; omega)
  intro b1 h1
  have h2 := gl_bound h1 (by decide)
  have hg := gr_len b
  rw [h1] at hg
  have hb1 : b1.length + 2 ≤ b.length := by simp at hg; omega
  refine wp_gapS fun m hm => ?_
  have hgl1 := gl_le b1
  have hg1 := gr_len b1
  refine wp_seq_cons (wp_labeled (wp_mono (hv (gr b1) (by omega) (gr_gr b1)) ?_))
  intro k r h
  simp at h2
  cases r with
  | ok b' =>
    simp only [valR] at h
    refine wp_seq_nil ?_
    have h4 := gl_nd h.2.2
    exact ⟨by omega, by omega⟩
  | fail => simp only [valR, onOk_fail] at h ⊢; omega
  | fatal =>
    simp only [valR, onOk_fatal] at h ⊢
    have h4 := gl_nd h.2
    omega

theorem cname_head {b : Bytes} (h : dn b ≠ b ∨ b.head? = some 34 ∨ b.head? = some 39) : b.head? ≠ some 35 := by
  rcases h with h | h | h
  · obtain ⟨c, t, rfl, hc⟩ := dn_ne h
    simpa using (name_not_ws hc).2
  · rw [h]; simp
  · rw [h]; simp

/-- `attribute`. -/
theorem attr_cost (N : Nat) (hv : ∀ b, b.length < N → gr b = b → wp (.ref .value) b (valR b)) (b : Bytes)
    (hb : b.length ≤ N) : wp (.ref .attribute) b (attrR b) := by
  refine wp_ref (wp_action (wp_seq_cons (wp_labeled (wp_mono (name_cost b) ?_))))
  intro n r h
  cases r with
  | ok b1 =>
    simp only [onOk_ok] at h ⊢
    have h35 : b.head? ≠ some 35 := by
      apply cname_head
      rcases h.2.2 with h3 | h3
      · exact .inl h3.2
      · exact .inr h3.2.1
    refine wp_mono (arrow_cost N hv _ b1 (by omega)) ?_
    intro m r h2
    cases r with
    | ok b' => simp only [attrR] at h2 ⊢; exact ⟨by omega, by omega, h35⟩
    | fail =>
      simp only [attrR] at h2 ⊢
      refine ⟨by omega, fun hd h34 h39 => ?_⟩
      rcases h.2.2 with h3 | h3
      · exact absurd hd h3.2
      · rcases h3.2.1 with h4 | h4
        · exact absurd h4 h34
        · exact absurd h4 h39
    | fatal => simp only [attrR] at h2 ⊢; exact ⟨by omega, h35⟩
  | fail => simp only [onOk_fail, attrR] at h ⊢; exact ⟨by omega, fun _ _ _ => by omega⟩
  | fatal => simp only [onOk_fatal, attrR] at h ⊢; exact ⟨by omega, cname_head (.inr h.2)⟩

/-- The name of an entry of a hash. -/
theorem key_cost (b : Bytes) : wp (.choice [G.number, G.bareword, G.stringValue]) b (fun n r => match r with
    | .ok b' => b'.length < b.length ∧ n ≤ 70 * (b.length - b'.length) ∧ b.head? ≠ some 35 ∧
        (dn b = b → b.head? = some 34 ∨ b.head? = some 39)
    | .fail => n ≤ 62
    | .fatal => n ≤ 70 * (b.length + 1) ∧ b.head? ≠ some 35) := by
  have hn : dn b ≠ b → b.head? ≠ some 35 := by
    intro h
    obtain ⟨c, t, rfl, hc⟩ := dn_ne h
    simpa using (name_not_ws hc).2
  have hs : ∀ (P : Prop), ¬ (b.head? ≠ some 34 ∧ b.head? ≠ some 39) → b.head? ≠ some 35 ∧ (b.head? = some 34 ∨ b.head? = some 39) := by
    intro _ h
    by_cases h34 : b.head? = some 34
    · rw [h34]; simp
    · have h39 : b.head? = some 39 := Classical.byContradiction fun hh => h ⟨h34, hh⟩
      rw [h39]; simp
  refine wp_choice_cons (wp_mono (number_cost b) ?_)
  intro n r h
  cases r with
  | ok b' =>
    simp only [onFail_ok] at h ⊢
    exact ⟨h.1, by omega, hn h.2.2.1, fun hh => absurd hh h.2.2.1⟩
  | fatal => exact h.elim
  | fail =>
    simp only at h
    refine wp_choice_cons (wp_mono (bareword_cost b) ?_)
    intro m r h2
    cases r with
    | ok b' =>
      simp only [onFail_ok] at h2 ⊢
      exact ⟨h2.1, by omega, hn h2.2.2.2, fun hh => absurd hh h2.2.2.2⟩
    | fatal => exact h2.elim
    | fail =>
      simp only at h2
      refine wp_choice_cons (wp_mono (string_cost b) ?_)
      intro k r h3
      cases r with
      | ok b' =>
        simp only [onFail_ok, tokR, reduceCtorEq, false_iff] at h3 ⊢
        have := hs True h3.2
        exact ⟨h3.1.1, by omega, this.1, fun _ => this.2⟩
      | fatal =>
        simp only [onFail_fatal, tokR, reduceCtorEq, false_iff] at h3 ⊢
        exact ⟨by omega, (hs True h3.2).1⟩
      | fail =>
        refine wp_choice_nil ?_
        simp only [tokR] at h3 ⊢
        omega

/-- What an entry of a hash costs: it starts with a gap. -/
def entryR (b : Bytes) (n : Nat) : CR → Prop
  | .ok b' => b'.length + 3 ≤ b.length ∧ n + 600 * gl b + 300 ≤ 3000 * (b.length - b'.length) + 300 * lv b' ∧ (gr b).head? ≠ some 35
  | .fail => n ≤ 1500 * (b.length + 1) ∧ (dn (gr b) = gr b → (gr b).head? ≠ some 34 → (gr b).head? ≠ some 39 → n ≤ 200 * gl b)
  | .fatal => n + 600 * gl b + 300 ≤ 20000 * (b.length + 1) ∧ (gr b).head? ≠ some 35

/-- `hashentry`. -/
theorem entry_cost (N : Nat) (hv : ∀ b, b.length < N → gr b = b → wp (.ref .value) b (valR b)) (b : Bytes)
    (hb : b.length ≤ N) : wp (.ref .hashentry) b (entryR b) := by
  refine wp_ref (wp_action (wp_lgap fun n hn => wp_seq_cons (wp_labeled (wp_mono (key_cost (gr b)) ?_))))
  have hgl := gl_le b
  have hgp := gl_pos b
  have hg := gr_len b
  intro m r h
  cases r with
  | ok b1 =>
    simp only [onOk_ok] at h ⊢
    have h1 := gl_nd h.2.2.1
    refine wp_mono (arrow_cost N hv _ b1 (by omega)) ?_
    intro k r h2
    cases r with
    | ok b' => simp only [entryR] at h2 ⊢; exact ⟨by omega, by omega, h.2.2.1⟩
    | fail =>
      simp only [entryR] at h2 ⊢
      refine ⟨by omega, fun hd h34 h39 => ?_⟩
      rcases h.2.2.2 hd with h4 | h4
      · exact absurd h4 h34
      · exact absurd h4 h39
    | fatal => simp only [entryR] at h2 ⊢; exact ⟨by omega, h.2.2.1⟩
  | fail => simp only [onOk_fail, entryR] at h ⊢; exact ⟨by omega, fun _ _ _ => by omega⟩
  | fatal =>
    simp only [onOk_fatal, entryR] at h ⊢
    have h1 := gl_nd h.2
    exact ⟨by omega, h.2⟩

/-! ### Items -/

theorem dn_quote_closer {b : Bytes} {q : UInt8} {t : Bytes} (h : b = q :: t) (hq : q = 125 ∨ q = 93) :
    dn b = b ∧ b.head? ≠ some 34 ∧ b.head? ≠ some 39 := by
  subst h
  rcases hq with rfl | rfl <;> exact ⟨dn_cons (by decide), by simp, by simp⟩

theorem gl_dropWs (b : Bytes) : gl (b.dropWhile isWs) + b.length = gl b + (b.dropWhile isWs).length := by
  have h1 := gr_len (b.dropWhile isWs)
  have h2 := dropWhile_len isWs b
  unfold gl
  rw [gr_dropWs] at *
  omega

theorem dn_ws {b : Bytes} (h : (b.dropWhile isWs).length < b.length) : dn b = b := by
  cases b with
  | nil => rfl
  | cons c t =>
    apply dn_cons
    cases hc : isWs c with
    | true => exact ws_not_name (.inl hc)
    | false => simp [List.dropWhile, hc] at h

/-- The attributes of a plugin but the first. -/
theorem attrItem_cost (N : Nat) (hv : ∀ b, b.length < N → gr b = b → wp (.ref .value) b (valR b)) (a : Act) (l l' : Lbl)
    (b : Bytes) (hb : b.length ≤ N) :
    wp (.action a (.seq [G.whitespace, .labeled l G.gap, .labeled l' (.ref .attribute)])) b (itemR 125 b) := by
  have hgp := gl_pos b
  have hlv := lv_le b
  have hgl := gl_le b
  have hg := gr_len b
  refine wp_action (wp_seq_cons (wp_mono (ws_cost b) ?_))
  rintro n r (⟨rfl, rfl, h, _⟩ | ⟨rfl, h1, h2⟩)
  · simp only [onOk_fail, itemR]
    exact ⟨by omega, fun _ _ => by omega⟩
  · have hd := dn_ws h2
    have hlvb : lv b = gl b := by unfold lv; rw [hd]; omega
    have hgd := gl_dropWs b
    have hgr := gr_dropWs b
    generalize b.dropWhile isWs = s at *
    refine wp_lgap fun m hm => ?_
    rw [hgr]
    refine wp_seq_cons (wp_labeled (wp_mono (attr_cost N hv (gr b) (by omega)) ?_))
    intro k r h
    cases r with
    | ok b' =>
      simp only [attrR] at h
      have hnd := gl_nd h.2.2
      refine wp_seq_nil ?_
      simp only [itemR]
      exact ⟨by omega, by omega⟩
    | fail =>
      simp only [attrR, onOk_fail, itemR] at h ⊢
      refine ⟨by omega, fun t ht => ?_⟩
      obtain ⟨h3, h4, h5⟩ := dn_quote_closer ht (.inl rfl)
      have := h.2 h3 h4 h5
      omega
    | fatal =>
      simp only [attrR, onOk_fatal, itemR] at h ⊢
      have hnd := gl_nd h.2
      omega

/-- The entries of a hash but the first. -/
theorem entryItem_cost (N : Nat) (hv : ∀ b, b.length < N → gr b = b → wp (.ref .value) b (valR b)) (a : Act) (l : Lbl)
    (b : Bytes) (hb : b.length ≤ N) :
    wp (.action a (.seq [G.whitespace, .labeled l (.ref .hashentry)])) b (itemR 125 b) := by
  have hgp := gl_pos b
  have hlv := lv_le b
  have hgl := gl_le b
  have hg := gr_len b
  refine wp_action (wp_seq_cons (wp_mono (ws_cost b) ?_))
  rintro n r (⟨rfl, rfl, h, _⟩ | ⟨rfl, h1, h2⟩)
  · simp only [onOk_fail, itemR]
    exact ⟨by omega, fun _ _ => by omega⟩
  · have hd := dn_ws h2
    have hlvb : lv b = gl b := by unfold lv; rw [hd]; omega
    have hgd := gl_dropWs b
    have hgr := gr_dropWs b
    generalize b.dropWhile isWs = s at *
    refine wp_seq_cons (wp_labeled (wp_mono (entry_cost N hv s (by omega)) ?_))
    intro k r h
    cases r with
    | ok b' =>
      simp only [entryR] at h
      rw [hgr] at h
      have hnd := gl_nd h.2.2
      refine wp_seq_nil ?_
      simp only [itemR]
      exact ⟨by omega, by omega⟩
    | fail =>
      simp only [entryR, onOk_fail, itemR] at h ⊢
      refine ⟨by omega, fun t ht => ?_⟩
      obtain ⟨h3, h4, h5⟩ := dn_quote_closer ht (.inl rfl)
      rw [hgr] at h
      have := h.2 h3 h4 h5
      omega
    | fatal =>
      simp only [entryR, onOk_fatal, itemR] at h ⊢
      rw [hgr] at h
      have hnd := gl_nd h.2
      omega

/-- The elements of an array but the first. -/
theorem valueItem_cost (N : Nat) (hv : ∀ b, b.length < N → gr b = b → wp (.ref .value) b (valR b)) (a : Act) (l l' : Lbl)
    (b : Bytes) (hb : b.length ≤ N) :
    wp (.action a (.seq [G.gapS, G.warn, .lit b!",", .labeled l G.gap, .labeled l' (.ref .value)])) b (itemR 93 b) := by
  have hgp := gl_pos b
  have hlv := lv_le b
  have hgl := gl_le b
  have hg := gr_len b
  refine wp_action (wp_gapS fun n hn => wp_seq_cons (wp_chr (c := 44) (by decide) ?_ fun _ => ?_))
  · intro s hs
    have hl := lv_gap hs (by decide) (by decide)
    rw [hs] at hg
    simp only [List.length_cons] at hl hg
    have hgs := gr_len s
    refine wp_lgap fun m hm => ?_
    have hgls := gl_le s
    refine wp_seq_cons (wp_labeled (wp_mono (hv (gr s) (by omega) (gr_gr s)) ?_))
    intro k r h
    cases r with
    | ok b' =>
      simp only [valR] at h
      have hnd := gl_nd h.2.2
      refine wp_seq_nil ?_
      have := gl_bound hs (by decide)
      simp only [List.length_cons] at this
      simp only [itemR]
      exact ⟨by omega, by omega⟩
    | fail =>
      simp only [valR, onOk_fail, itemR] at h ⊢
      refine ⟨by omega, fun t ht => ?_⟩
      rw [hs] at ht; cases ht
    | fatal =>
      simp only [valR, onOk_fatal, itemR] at h ⊢
      have hnd := gl_nd h.2
      have := gl_bound hs (by decide)
      simp only [List.length_cons] at this
      omega
  · simp only [onOk_fail, itemR]
    exact ⟨by omega, fun _ _ => by omega⟩

/-! ### Arrays, hashes, plugins -/

/-- An empty list: the attempt to read a first item has failed. -/
theorem empty_cost {l : Lbl} {q : UInt8} {m : Bytes} (hq : q < 128) (h35 : q ≠ 35) (b : Bytes) (n : Nat)
    (h1 : n ≤ 3000 * (b.length + 1)) (h2 : ∀ t, gr b = q :: t → n ≤ 2000 * gl b) {P : Nat → CR → Prop}
    (hok : ∀ k b', b'.length < b.length → k ≤ 2200 * (b.length - b'.length) → P k (.ok b'))
    (hfatal : ∀ k, k ≤ 4000 * (b.length + 1) → P k .fatal) :
    wp (.seq [.labeled l G.gap, G.close [q] (.fatalError m)]) b (fun k r => P (n + k) r) := by
  have hgl := gl_le b
  refine close_cost hq (fun j t hj ht => ?_) (fun j hj _ => ?_)
  · have h3 := gl_bound ht h35
    have h4 := h2 t ht
    have h5 := gr_len b
    rw [ht] at h5
    simp only [List.length_cons] at h3 h5
    exact hok _ _ (by omega) (by omega)
  · exact hfatal _ (by omega)

/-- `array`. -/
theorem array_cost (b : Bytes) (hv : ∀ s, s.length < b.length → gr s = s → wp (.ref .value) s (valR s)) :
    wp (.ref .array) b (brR 91 b) := by
  refine wp_ref (wp_action (wp_seq_cons (wp_chr (c := 91) (by decide) ?_ fun hh => ⟨by simp, hh⟩)))
  rintro s rfl
  have hsl : s.length < (91 :: s).length := by simp
  refine wp_seq_cons (wp_labeled (wp_opt (wp_action (wp_lgap fun n hn => wp_seq_cons (wp_labeled
    (wp_mono (hv (gr s) (by have := gr_len s; simp; omega) (gr_gr s)) ?_))))))
  have hgl := gl_le s
  have hgp := gl_pos s
  have hg := gr_len s
  intro m r h
  cases r with
  | ok b1 =>
    simp only [valR] at h
    have hnd := gl_nd h.2.2
    refine wp_seq_cons (wp_labeled (wp_mono (list_cost (l := .footerComment) (m := b!"expect closing square bracket")
      (by decide) (by decide) (by decide) (91 :: s).length
      (fun b hb => valueItem_cost (91 :: s).length hv _ _ _ b hb) b1 (by simp; omega)) ?_))
    intro k r h2
    cases r with
    | ok b2 =>
      simp only at h2
      refine wp_seq_nil ?_
      refine wp_mono h2 ?_
      intro j r h3
      cases r with
      | ok b' => simp only [listR, brR, List.length_cons, List.head?_cons] at h3 ⊢; exact ⟨by omega, by omega, trivial⟩
      | fail => exact h3.elim
      | fatal => simp only [listR, brR, List.length_cons, List.head?_cons] at h3 ⊢; exact ⟨by omega, trivial⟩
    | fail => exact h2.elim
    | fatal => simp only [listR, brR, onOk_fatal, CR.opt_fatal, List.length_cons, List.head?_cons] at h2 ⊢; exact ⟨by omega, trivial⟩
  | fail =>
    simp only [valR, onOk_fail, CR.opt_fail, onOk_ok] at h ⊢
    refine wp_mono (empty_cost (l := .footerComment) (m := b!"expect closing square bracket") (q := 93)
      (by decide) (by decide) s (n + m + 10) (by omega) (fun t ht => ?_) (P := brR 91 (91 :: s)) ?_ ?_) ?_
    · obtain ⟨h3, h4, h5⟩ := dn_quote_closer ht (.inr rfl)
      have := h.2 h3 h4 h5 (by rw [ht]; simp)
      omega
    · intro k b' h3 h4
      simp only [brR, List.length_cons, List.head?_cons]; exact ⟨by omega, by omega, trivial⟩
    · intro k h3; simp only [brR, List.length_cons, List.head?_cons]; exact ⟨by omega, trivial⟩
    · intro k r h3
      cases r <;> simp only [brR, List.length_cons, List.head?_cons] at h3 ⊢
      · exact ⟨by omega, by omega, trivial⟩
      · exact ⟨by omega, h3.2⟩
      · exact ⟨by omega, trivial⟩
  | fatal =>
    simp only [valR, onOk_fatal, CR.opt_fatal, brR, List.length_cons, List.head?_cons] at h ⊢
    have hnd := gl_nd h.2
    exact ⟨by omega, trivial⟩

/-- `hash`. -/
theorem hash_cost (b : Bytes) (hv : ∀ s, s.length < b.length → gr s = s → wp (.ref .value) s (valR s)) :
    wp (.ref .hash) b (brR 123 b) := by
  refine wp_ref (wp_action (wp_seq_cons (wp_chr (c := 123) (by decide) ?_ fun hh => ⟨by simp, hh⟩)))
  rintro s rfl
  have hsl : s.length < (123 :: s).length := by simp
  refine wp_seq_cons (wp_labeled (wp_opt (wp_ref (wp_action (wp_seq_cons (wp_labeled
    (wp_mono (entry_cost (123 :: s).length hv s (by simp)) ?_)))))))
  have hgl := gl_le s
  have hgp := gl_pos s
  have hg := gr_len s
  intro m r h
  cases r with
  | ok b1 =>
    simp only [entryR] at h
    refine wp_seq_cons (wp_labeled (wp_mono (list_cost (l := .footerComment) (m := b!"expect closing curly bracket")
      (by decide) (by decide) (by decide) (123 :: s).length
      (fun b hb => entryItem_cost (123 :: s).length hv _ _ b hb) b1 (by simp; omega)) ?_))
    intro k r h2
    cases r with
    | ok b2 =>
      simp only at h2
      refine wp_seq_nil ?_
      refine wp_mono h2 ?_
      intro j r h3
      cases r with
      | ok b' => simp only [listR, brR, List.length_cons, List.head?_cons] at h3 ⊢; exact ⟨by omega, by omega, trivial⟩
      | fail => exact h3.elim
      | fatal => simp only [listR, brR, List.length_cons, List.head?_cons] at h3 ⊢; exact ⟨by omega, trivial⟩
    | fail => exact h2.elim
    | fatal => simp only [listR, brR, onOk_fatal, CR.opt_fatal, List.length_cons, List.head?_cons] at h2 ⊢; exact ⟨by omega, trivial⟩
  | fail =>
    simp only [entryR, onOk_fail, CR.opt_fail, onOk_ok] at h ⊢
    refine wp_mono (empty_cost (l := .footerComment) (m := b!"expect closing curly bracket") (q := 125)
      (by decide) (by decide) s (m + 10) (by omega) (fun t ht => ?_) (P := brR 123 (123 :: s)) ?_ ?_) ?_
    · obtain ⟨h3, h4, h5⟩ := dn_quote_closer ht (.inl rfl)
      have := h.2 h3 h4 h5
      omega
    · intro k b' h3 h4
      simp only [brR, List.length_cons, List.head?_cons]; exact ⟨by omega, by omega, trivial⟩
    · intro k h3; simp only [brR, List.length_cons, List.head?_cons]; exact ⟨by omega, trivial⟩
    · intro k r h3
      cases r <;> simp only [brR, List.length_cons, List.head?_cons] at h3 ⊢
      · exact ⟨by omega, by omega, trivial⟩
      · exact ⟨by omega, h3.2⟩
      · exact ⟨by omega, trivial⟩
  | fatal =>
    simp only [entryR, onOk_fatal, CR.opt_fatal, brR, List.length_cons, List.head?_cons] at h ⊢
    exact ⟨by omega, trivial⟩

/-- What follows the opening bracket of a plugin. -/
theorem pluginBody_cost (N : Nat) (hv : ∀ s, s.length < N → gr s = s → wp (.ref .value) s (valR s)) (s : Bytes)
    (hs : s.length ≤ N) :
    wp (.seq [.labeled .attributes (.opt (.action (.attributes .attribute .attrs .comment) (.seq [
      .labeled .comment G.gap, .labeled .attribute (.ref .attribute),
      .labeled .attrs (.star (.action (.attributeComment .attribute .comment true) (.seq [
        G.whitespace, .labeled .comment G.gap, .labeled .attribute (.ref .attribute)])))]))),
    .labeled .footerComment G.gap, G.close b!"}" (.fatalError b!"expect closing curly bracket")]) s (fun n r => match r with
      | .ok b' => b'.length < s.length ∧ n ≤ 3000 * (s.length - b'.length) + 500
      | .fail => False
      | .fatal => n ≤ 20000 * (s.length + 1) + 500) := by
  have hgl := gl_le s
  have hgp := gl_pos s
  have hg := gr_len s
  refine wp_seq_cons (wp_labeled (wp_opt (wp_action (wp_lgap fun n hn => wp_seq_cons (wp_labeled
    (wp_mono (attr_cost N hv (gr s) (by omega)) ?_))))))
  intro m r h
  cases r with
  | ok b1 =>
    simp only [attrR] at h
    have hnd := gl_nd h.2.2
    refine wp_seq_cons (wp_labeled (wp_mono (list_cost (l := .footerComment) (m := b!"expect closing curly bracket")
      (by decide) (by decide) (by decide) N
      (fun b hb => attrItem_cost N hv _ _ _ b hb) b1 (by omega)) ?_))
    intro k r h2
    cases r with
    | ok b2 =>
      simp only at h2
      refine wp_seq_nil ?_
      refine wp_mono h2 ?_
      intro j r h3
      cases r with
      | ok b' => simp only [listR] at h3 ⊢; exact ⟨by omega, by omega⟩
      | fail => exact h3.elim
      | fatal => simp only [listR] at h3 ⊢; omega
    | fail => exact h2.elim
    | fatal => simp only [listR, onOk_fatal, CR.opt_fatal] at h2 ⊢; omega
  | fail =>
    simp only [attrR, onOk_fail, CR.opt_fail, onOk_ok] at h ⊢
    refine wp_mono (empty_cost (l := .footerComment) (m := b!"expect closing curly bracket") (q := 125)
      (by decide) (by decide) s (n + m + 10) (by omega) (fun t ht => ?_) (P := fun n r => match r with
      | .ok b' => b'.length < s.length ∧ n ≤ 3000 * (s.length - b'.length) + 500
      | .fail => False
      | .fatal => n ≤ 20000 * (s.length + 1) + 500) ?_ ?_) ?_
    · obtain ⟨h3, h4, h5⟩ := dn_quote_closer ht (.inl rfl)
      have := h.2 h3 h4 h5
      omega
    · intro k b' h3 h4
      simp only; exact ⟨by omega, by omega⟩
    · intro k h3; simp only; omega
    · intro k r h3
      cases r <;> simp only at h3 ⊢
      · exact ⟨by omega, by omega⟩
      · omega
  | fatal =>
    simp only [attrR, onOk_fatal, CR.opt_fatal] at h ⊢
    have hnd := gl_nd h.2
    omega

/-- `plugin`. -/
theorem plugin_cost (b : Bytes) (hv : ∀ s, s.length < b.length → gr s = s → wp (.ref .value) s (valR s)) :
    wp (.ref .plugin) b (plugR b) := by
  have hgl := gl_le b
  have hgp := gl_pos b
  have hg := gr_len b
  refine wp_ref (wp_action (wp_lgap fun n hn => wp_seq_cons (wp_labeled (wp_mono (name_cost (gr b)) ?_))))
  intro m r h
  cases r with
  | ok b1 =>
    simp only [onOk_ok] at h ⊢
    have h35 : (gr b).head? ≠ some 35 := by
      apply cname_head
      rcases h.2.2 with h3 | h3
      · exact .inl h3.2
      · exact .inr h3.2.1
    have hnd := gl_nd h35
    refine wp_gapS fun k hk => ?_
    refine wp_seq_cons (wp_chr (c := 123) (by decide) ?_ fun _ => ?_)
    · intro s hs
      have h5 := gl_bound hs (by decide)
      have h6 := gr_len b1
      rw [hs] at h6
      simp only [List.length_cons] at h5 h6
      refine wp_mono (pluginBody_cost b.length hv s (by omega)) ?_
      intro j r h3
      cases r with
      | ok b' => simp only [plugR] at h3 ⊢; exact ⟨by omega, by omega, h35⟩
      | fail => exact h3.elim
      | fatal => simp only [plugR] at h3 ⊢; exact ⟨by omega, h35⟩
    · simp only [onOk_fail, plugR]
      have hgp1 := gl_pos b1
      rcases h.2.2 with ⟨rfl, h3⟩ | ⟨h3, h4, k, hk⟩
      · exact .inr (.inl ⟨h3, by omega⟩)
      · exact .inr (.inr ⟨h3, k, b1, hk, by omega⟩)
  | fail =>
    simp only [onOk_fail, plugR] at h ⊢
    exact .inl ⟨h.2.2.1, h.2.2.2, h.2.1, by omega⟩
  | fatal =>
    simp only [onOk_fatal, plugR] at h ⊢
    have h35 := cname_head (.inr h.2)
    have hnd := gl_nd h35
    exact ⟨by omega, h35⟩

/-- `value`. -/
theorem value_cost (b : Bytes) (hb : gr b = b) : wp (.ref .value) b (valR b) := by
  obtain ⟨N, hN⟩ : ∃ N, b.length ≤ N := ⟨_, Nat.le_refl _⟩
  induction N using Nat.strongRecOn generalizing b with
  | _ N ih =>
  have hv : ∀ s, s.length < b.length → gr s = s → wp (.ref .value) s (valR s) := fun s hs hg =>
    ih s.length (by omega) s hg (Nat.le_refl _)
  have hglb := gl_gr b
  rw [hb] at hglb
  have hdl := deadLen_le b
  have hlv := lv_le b
  refine wp_ref (wp_choice_cons (wp_mono (plugin_cost b hv) ?_))
  intro n r h
  cases r with
  | ok b' => simp only [plugR, onFail_ok, valR] at h ⊢; rw [hb] at h; exact ⟨by omega, by omega, h.2.2⟩
  | fatal => simp only [plugR, onFail_fatal, valR] at h ⊢; rw [hb] at h; exact ⟨by omega, h.2⟩
  | fail =>
  simp only [plugR] at h
  rw [hb] at h
  -- the cost of the attempt to read a plugin
  have hE : n ≤ 100 * b.length + 300 ∧ (dn b = b → b.head? ≠ some 34 → b.head? ≠ some 39 → b.head? ≠ some 35 → n ≤ 150) := by
    rcases h with ⟨_, _, _, h4⟩ | ⟨h1, h4⟩ | ⟨h1, k, b1, hk, h4⟩
    · refine ⟨by omega, fun _ _ _ h35 => ?_⟩
      unfold deadLen at hglb; rw [if_neg h35] at hglb; omega
    · have h35 := cname_head (.inl h1)
      unfold deadLen at hglb; rw [if_neg h35] at hglb
      have := gl_le (dn b)
      have := dn_len b
      exact ⟨by omega, fun hh => absurd hh h1⟩
    · have h5 := string_cost b k _ hk
      simp only [tokR, reduceCtorEq, false_iff] at h5
      have h6 : b.head? = some 34 ∨ b.head? = some 39 := by
        by_cases hh : b.head? = some 34
        · exact .inl hh
        · exact .inr (Classical.byContradiction fun h4 => h5.2 ⟨hh, h4⟩)
      have h35 := cname_head (.inr h6)
      unfold deadLen at hglb; rw [if_neg h35] at hglb
      have := gl_le b1
      refine ⟨by omega, fun _ h34 h39 => ?_⟩
      rcases h6 with h6 | h6
      · exact absurd h6 h34
      · exact absurd h6 h39
  refine wp_choice_cons (wp_mono (bareword_cost b) ?_)
  intro n1 r h1
  cases r with
  | ok b' =>
    simp only [onFail_ok, valR] at h1 ⊢
    have h35 := cname_head (.inl h1.2.2.2)
    have hlv' := lv_pos b'
    refine ⟨h1.1, ?_, h35⟩
    unfold deadLen at hglb; rw [if_neg h35] at hglb
    have hl := dn_len b'
    have hlvd : lv b' = b'.length - (dn b).length + gl (dn b) := by unfold lv; rw [h1.2.2.1]
    rw [h1.2.2.1] at hl
    rcases h with ⟨_, _, h4, _⟩ | ⟨_, h4⟩ | ⟨h4, _⟩
    · exact absurd h4 h1.2.2.2
    · omega
    · exact absurd h4 h1.2.2.2
  | fatal => exact h1.elim
  | fail =>
  simp only at h1
  refine wp_choice_cons ?_
  intro n2 r hc2
  have h2 := string_cost b n2 r hc2
  cases r with
  | ok b' =>
    simp only [tokR, onFail_ok, valR, reduceCtorEq, false_iff] at h2 ⊢
    have h6 : b.head? = some 34 ∨ b.head? = some 39 := by
      by_cases hh : b.head? = some 34
      · exact .inl hh
      · exact .inr (Classical.byContradiction fun h4 => h2.2 ⟨hh, h4⟩)
    have h35 := cname_head (.inr h6)
    refine ⟨h2.1.1, ?_, h35⟩
    unfold deadLen at hglb; rw [if_neg h35] at hglb
    have hlv' := gl_le_lv b'
    rcases h with ⟨h34, h39, _⟩ | ⟨h4, _⟩ | ⟨_, k, b1, hk, h5⟩
    · rcases h6 with h6 | h6
      · exact absurd h6 h34
      · exact absurd h6 h39
    · exfalso
      obtain ⟨c, t, rfl, hc⟩ := dn_ne h4
      simp only [List.head?_cons, Option.some.injEq] at h6
      rcases h6 with rfl | rfl <;> exact absurd hc (by decide)
    · have := (hc2.det hk).2
      simp only [CR.ok.injEq] at this
      subst this
      omega
  | fatal =>
    simp only [tokR, onFail_fatal, valR, reduceCtorEq, false_iff] at h2 ⊢
    refine ⟨by omega, fun h35 => h2.2 (by rw [h35]; simp)⟩
  | fail =>
  simp only [tokR, true_iff] at h2
  refine wp_choice_cons (wp_mono (number_cost b) ?_)
  intro n3 r h3
  cases r with
  | ok b' =>
    simp only [onFail_ok, valR] at h3 ⊢
    have h35 := cname_head (.inl h3.2.2.1)
    have hlv' := lv_pos b'
    refine ⟨h3.1, ?_, h35⟩
    unfold deadLen at hglb; rw [if_neg h35] at hglb
    rcases h with ⟨_, _, h4, _⟩ | ⟨_, h4⟩ | ⟨h4, _⟩
    · exact absurd h4 h3.2.2.1
    · rcases h3.2.2.2 with h5 | ⟨t, h5, h6⟩
      · have hl := dn_len b'
        have hlvd : lv b' = b'.length - (dn b).length + gl (dn b) := by unfold lv; rw [h5]
        rw [h5] at hl
        omega
      · rw [h5, gl_cons (by decide) (by decide)] at h4
        have hl := dn_len b
        rw [h5] at hl
        simp only [List.length_cons] at h4 hl
        omega
    · exact absurd h4 h3.2.2.1
  | fatal => exact h3.elim
  | fail =>
  simp only at h3
  refine wp_choice_cons (wp_mono (array_cost b hv) ?_)
  intro n4 r h4
  cases r with
  | ok b' =>
    simp only [onFail_ok, valR, brR] at h4 ⊢
    have hd : dn b = b := by
      cases b with
      | nil => rfl
      | cons c t => simp only [List.head?_cons, Option.some.injEq] at h4; rw [h4.2.2]; exact dn_cons (by decide)
    have := hE.2 hd (by rw [h4.2.2]; simp) (by rw [h4.2.2]; simp) (by rw [h4.2.2]; simp)
    exact ⟨h4.1, by omega, by rw [h4.2.2]; simp⟩
  | fatal =>
    simp only [onFail_fatal, valR, brR] at h4 ⊢
    have hd : dn b = b := by
      cases b with
      | nil => rfl
      | cons c t => simp only [List.head?_cons, Option.some.injEq] at h4; rw [h4.2]; exact dn_cons (by decide)
    have := hE.2 hd (by rw [h4.2]; simp) (by rw [h4.2]; simp) (by rw [h4.2]; simp)
    exact ⟨by omega, by rw [h4.2]; simp⟩
  | fail =>
  simp only [brR] at h4
  refine wp_choice_cons (wp_mono (hash_cost b hv) ?_)
  intro n5 r h5
  cases r with
  | ok b' =>
    simp only [onFail_ok, valR, brR] at h5 ⊢
    have hd : dn b = b := by
      cases b with
      | nil => rfl
      | cons c t => simp only [List.head?_cons, Option.some.injEq] at h5; rw [h5.2.2]; exact dn_cons (by decide)
    have := hE.2 hd (by rw [h5.2.2]; simp) (by rw [h5.2.2]; simp) (by rw [h5.2.2]; simp)
    exact ⟨h5.1, by omega, by rw [h5.2.2]; simp⟩
  | fatal =>
    simp only [onFail_fatal, valR, brR] at h5 ⊢
    have hd : dn b = b := by
      cases b with
      | nil => rfl
      | cons c t => simp only [List.head?_cons, Option.some.injEq] at h5; rw [h5.2]; exact dn_cons (by decide)
    have := hE.2 hd (by rw [h5.2]; simp) (by rw [h5.2]; simp) (by rw [h5.2]; simp)
    exact ⟨by omega, by rw [h5.2]; simp⟩
  | fail =>
  simp only [brR] at h5
  refine wp_choice_cons (wp_pushError (wp_choice_nil ?_))
  simp only [valR]
  refine ⟨by omega, fun hd h34 h39 h35 => ?_⟩
  have := hE.2 hd h34 h39 h35
  omega

end Verif
