import Verif.Proofs.CostWp
import Verif.Proofs.RunGap
/-
The cost of tokens and gaps.
-/
namespace Verif
open Spec

theorem litRest_ascii (tok b : Bytes) (h : tok.all (fun c => decide (c < 128)) = true) :
    litRest tok b = if tok.isPrefixOf b then some (b.drop tok.length) else none := by
  have := litR_eq b [] tok b h
  have key : ∀ (st : Bytes) (tok b : Bytes), litR st [] tok b =
      match litRest tok b with | some b' => .ok (.bytes (consumed st b')) b' [] | none => .fail := by
    intro st tok
    induction tok with
    | nil => intro b; rfl
    | cons c cs ih =>
      intro b
      rw [litR, litRest]
      split
      · exact ih _
      · rfl
  rw [key] at this
  split
  · rename_i hp
    rw [if_pos hp] at this
    cases hl : litRest tok b with
    | none => rw [hl] at this; cases this
    | some b' =>
      rw [hl] at this
      simp only [Res.ok.injEq] at this
      rw [this.2.1]
  · rename_i hp
    rw [if_neg hp] at this
    cases hl : litRest tok b with
    | none => rfl
    | some b' => rw [hl] at this; cases this

/-- A token of ASCII characters. -/
theorem wp_tok {tok b : Bytes} {P : Nat → CR → Prop} (h : tok.all (fun c => decide (c < 128)) = true)
    (h1 : ∀ b', b = tok ++ b' → P 1 (.ok b')) (h2 : ¬ tok <+: b → P 1 .fail) : wp (.lit tok) b P := by
  apply wp_lit
  rw [litRest_ascii tok b h]
  split
  · rename_i hp
    split at hp
    · rename_i hq
      rw [List.isPrefixOf_iff_prefix] at hq
      obtain ⟨r, rfl⟩ := hq
      simp only [List.drop_left, Option.some.injEq] at hp
      subst hp
      exact h1 _ rfl
    · cases hp
  · rename_i hp
    split at hp
    · cases hp
    · rename_i hq
      rw [List.isPrefixOf_iff_prefix] at hq
      exact h2 hq

/-- A token of one character. -/
theorem wp_chr {c : UInt8} {b : Bytes} {P : Nat → CR → Prop} (hc : c < 128 := by decide)
    (h1 : ∀ b', b = c :: b' → P 1 (.ok b')) (h2 : b.head? ≠ some c → P 1 .fail) : wp (.lit [c]) b P := by
  refine wp_tok (by simpa using hc) (fun b' hb => h1 b' hb) (fun hb => h2 ?_)
  intro hh
  apply hb
  cases b with
  | nil => cases hh
  | cons d t =>
    simp only [List.head?_cons, Option.some.injEq] at hh
    subst hh
    exact ⟨t, rfl⟩

/-! ### Classes -/

section
variable {x : Bytes} {inv : Bool} {chars : List Nat} {ranges : List (Nat × Nat)} {p : UInt8 → Bool}

theorem wp_class {b : Bytes} {P : Nat → CR → Prop} (h : IsClass {} (.cls x inv chars ranges) p)
    (h1 : (∀ c t, b = c :: t → p c = false) → P 1 .fail)
    (h2 : ∀ c y, b.head? = some c → p c = true → y.length < b.length → y.dropWhile p = b.dropWhile p →
      (c < 128 → b = c :: y) → P 1 (.ok y)) : wp (.cls x inv chars ranges) b P := by
  intro n r hc
  cases hc with
  | cls hb hm =>
    cases b with
    | nil => exact absurd rfl hb
    | cons c t =>
      cases hp : p c with
      | false =>
        have := h.no c t [] hp
        rw [run_cls, hm] at this
        simp at this
      | true =>
        obtain ⟨u, y, v, e1, e2, e3, e4⟩ := h.yes c t [] hp
        rw [run_cls, hm] at e4
        simp only [reduceCtorEq, List.isEmpty_cons, Bool.false_eq_true, if_true, if_false, Res.ok.injEq, and_true] at e4
        rw [e4.2]
        refine h2 c y rfl hp ?_ ?_ ?_
        · have := congrArg List.length e1
          cases u with
          | nil => exact absurd rfl e2
          | cons d u => simp at this ⊢; omega
        · rw [e1, dropWhile_append_all y e3]
        · intro hc
          rw [← e4.2, nextB_ascii hc]
  | clsNo hb =>
    refine h1 fun c t hct => ?_
    subst hct
    cases hp : p c with
    | false => rfl
    | true =>
      obtain ⟨u, y, v, e1, e2, e3, e4⟩ := h.yes c t [] hp
      rcases hb with hb | hb
      · cases hb
      · rw [run_cls, hb] at e4
        simp at e4

theorem dropWhile_len (p : UInt8 → Bool) (b : Bytes) : (b.dropWhile p).length ≤ b.length :=
  (List.dropWhile_suffix p).length_le

theorem dropWhile_no {b : Bytes} (h : ∀ c t, b = c :: t → p c = false) : b.dropWhile p = b := by
  cases b with
  | nil => rfl
  | cons c t => simp [List.dropWhile, h c t rfl]

theorem class_star (h : IsClass {} (.cls x inv chars ranges) p) (b : Bytes) :
    wp (.star (.cls x inv chars ranges)) b (fun n r => r = .ok (b.dropWhile p) ∧ n + (b.dropWhile p).length ≤ b.length + 2) := by
  obtain ⟨k, hk⟩ : ∃ k, b.length ≤ k := ⟨_, Nat.le_refl _⟩
  induction k generalizing b with
  | zero =>
    have : b = [] := by simpa using hk
    subst this
    refine wp_star (wp_class h (fun _ => ⟨rfl, by simp⟩) ?_)
    intro c y hh; cases hh
  | succ k ih =>
    refine wp_star (wp_class h (fun hb => ?_) ?_)
    · rw [dropWhile_no hb]; exact ⟨rfl, by omega⟩
    · intro c y hc hp hl hd _
      refine wp_mono (ih y (by omega)) ?_
      rintro n r ⟨rfl, h2⟩
      rw [← hd]
      exact ⟨rfl, by omega⟩

theorem class_plus (h : IsClass {} (.cls x inv chars ranges) p) (b : Bytes) :
    wp (.plus (.cls x inv chars ranges)) b (fun n r =>
      (r = .fail ∧ n = 2 ∧ b.dropWhile p = b ∧ ∀ c t, b = c :: t → p c = false) ∨
      (r = .ok (b.dropWhile p) ∧ n + (b.dropWhile p).length ≤ b.length + 2 ∧ (b.dropWhile p).length < b.length ∧
        ∃ c t, b = c :: t ∧ p c = true)) := by
  refine wp_plus (wp_class h (fun hb => ?_) ?_)
  · exact .inl ⟨rfl, rfl, dropWhile_no hb, hb⟩
  · intro c y hc hp hl hd _
    refine wp_mono (class_star h y) ?_
    rintro n r ⟨rfl, h2⟩
    rw [← hd]
    have := dropWhile_len p y
    refine .inr ⟨rfl, by omega, by omega, ?_⟩
    cases b with
    | nil => cases hc
    | cons d t => simp only [List.head?_cons, Option.some.injEq] at hc; subst hc; exact ⟨d, t, rfl, hp⟩

end

theorem wp_eof {b : Bytes} {P : Nat → CR → Prop} (h1 : b = [] → P 2 (.ok b)) (h2 : b ≠ [] → P 2 .fail) : wp G.eof b P := by
  refine wp_not (wp_any ?_)
  cases b with
  | nil => exact h1 rfl
  | cons c t => exact h2 (by simp)

/-- Whitespace. -/
theorem ws_cost (b : Bytes) : wp G.whitespace b (fun n r =>
    (r = .fail ∧ n = 3 ∧ b.dropWhile isWs = b ∧ b.takeWhile isWs = []) ∨
    (r = .ok (b.dropWhile isWs) ∧ n + (b.dropWhile isWs).length ≤ b.length + 3 ∧ (b.dropWhile isWs).length < b.length)) := by
  refine wp_action (wp_mono (class_plus class_ws b) ?_)
  rintro n r (⟨rfl, rfl, h, h2⟩ | ⟨rfl, h, h', h2⟩)
  · refine .inl ⟨rfl, rfl, h, ?_⟩
    cases b with
    | nil => rfl
    | cons c t => simp [List.takeWhile, h2 c t rfl]
  · exact .inr ⟨rfl, by omega, h'⟩

/-- The malformed comment at which a gap stops. -/
def deadLen (b : Bytes) : Nat := if b.head? = some 35 then b.length else 0

/-- A comment line. -/
theorem line_cost (b : Bytes) : wp G.commentLine b (fun n r =>
    match lineOf b with
    | some (_, b') => r = .ok b' ∧ n + b'.length ≤ b.length + 20
    | none => r = .fail ∧ n ≤ (b.length - (b.dropWhile isWs).length) + deadLen (b.dropWhile isWs) + 20) := by
  refine wp_seq_cons (wp_opt (wp_mono (ws_cost b) ?_))
  intro n r h
  have hl := dropWhile_len isWs b
  have h' : r.opt b = .ok (b.dropWhile isWs) ∧
      n + (b.dropWhile isWs).length ≤ b.length + 3 := by
    rcases h with ⟨rfl, rfl, h, _⟩ | ⟨rfl, h, h'⟩
    · rw [h]; exact ⟨rfl, by omega⟩
    · exact ⟨rfl, by omega⟩
  obtain ⟨h1, h2⟩ := h'
  rw [h1]
  clear h1 h
  unfold lineOf
  generalize hd : b.dropWhile isWs = s at *
  refine wp_seq_cons (wp_chr (c := 35) (by decide) ?_ ?_)
  · rintro t rfl
    simp only
    refine wp_seq_cons (wp_mono (class_star class_body t) ?_)
    rintro m _ ⟨rfl, h3⟩
    have hl2 := dropWhile_len (fun c => c != 13 && c != 10) t
    generalize t.dropWhile (fun c => c != 13 && c != 10) = u at *
    simp only [List.length_cons] at h2 hl
    have hdead : deadLen (35 :: t) = t.length + 1 := rfl
    refine wp_seq_cons (wp_opt (wp_chr (c := 13) (by decide) ?_ ?_))
    · rintro v rfl
      refine wp_seq_cons (wp_choice_cons (wp_chr (c := 10) (by decide) ?_ ?_))
      · rintro w rfl
        refine wp_seq_nil ?_
        simp only [List.length_cons] at h3 hl2 ⊢
        exact ⟨trivial, by omega⟩
      · intro hv
        refine wp_choice_cons (wp_eof ?_ ?_)
        · rintro rfl
          refine wp_seq_nil ?_
          simp only [List.length_cons, List.length_nil] at h3 hl2 ⊢
          exact ⟨trivial, by omega⟩
        · intro hv'
          refine wp_choice_nil ?_
          split
          · rename_i heq
            split at heq
            all_goals first | (cases heq; done) | skip
            all_goals simp_all
          · simp only [List.length_cons] at h3 hl2
            rw [hdead]
            exact ⟨rfl, by simp only [List.length_cons]; omega⟩
    · intro hu
      refine wp_seq_cons (wp_choice_cons (wp_chr (c := 10) (by decide) ?_ ?_))
      · rintro w rfl
        refine wp_seq_nil ?_
        simp only [List.length_cons] at h3 hl2 ⊢
        exact ⟨trivial, by omega⟩
      · intro hv
        refine wp_choice_cons (wp_eof ?_ ?_)
        · rintro rfl
          refine wp_seq_nil ?_
          simp only [List.length_nil] at h3 hl2 ⊢
          exact ⟨trivial, by omega⟩
        · intro hv'
          refine wp_choice_nil ?_
          split
          · rename_i heq
            split at heq
            all_goals first | (cases heq; done) | skip
            all_goals simp_all
          · rw [hdead]
            exact ⟨rfl, by simp only [List.length_cons]; omega⟩
  · intro hs
    split
    · rename_i heq
      split at heq
      · simp at hs
      · cases heq
    · exact ⟨rfl, by omega⟩

/-- What is left after a gap. -/
def gr (b : Bytes) : Bytes := (gapOf b).2

/-- How far the scan of a gap looks. -/
def gl (b : Bytes) : Nat := b.length - (gr b).length + deadLen (gr b) + 1

theorem lines_cost (b : Bytes) : wp (.star G.commentLine) b (fun n r => r = .ok (linesOf b).2 ∧
    n ≤ 21 * (b.length - (linesOf b).2.length) + ((linesOf b).2.length - ((linesOf b).2.dropWhile isWs).length) +
      deadLen ((linesOf b).2.dropWhile isWs) + 21 ∧ (linesOf b).2.length ≤ b.length) := by
  induction b using lines_ind with
  | h0 b h =>
    rw [linesOf_none h]
    refine wp_star (wp_mono (line_cost b) ?_)
    intro n r h1
    rw [h] at h1
    obtain ⟨rfl, h1⟩ := h1
    exact ⟨rfl, by simp only; omega, Nat.le_refl _⟩
  | h1 b l b' h ih =>
    rw [linesOf_some h]
    refine wp_star (wp_mono (line_cost b) ?_)
    intro n r h1
    rw [h] at h1
    obtain ⟨rfl, h1⟩ := h1
    refine wp_mono ih ?_
    rintro m r ⟨rfl, h2, h3⟩
    have := (lineOf_some h).2.2.2
    exact ⟨rfl, by simp only at h2 h3 ⊢; omega, by simp only at h3 ⊢; omega⟩

/-- A comment block. -/
theorem comment_cost (b : Bytes) : wp G.comment b (fun n r =>
    (lineOf b = none ∧ r = .fail ∧ n ≤ (b.length - (b.dropWhile isWs).length) + deadLen (b.dropWhile isWs) + 22) ∨
    (lineOf b ≠ none ∧ r = .ok (linesOf b).2 ∧ n ≤ 21 * (b.length - (linesOf b).2.length) +
      ((linesOf b).2.length - ((linesOf b).2.dropWhile isWs).length) +
      deadLen ((linesOf b).2.dropWhile isWs) + 22 ∧ (linesOf b).2.length < b.length)) := by
  refine wp_action (wp_plus (wp_mono (line_cost b) ?_))
  intro n r h1
  cases h : lineOf b with
  | none =>
    rw [h] at h1
    obtain ⟨rfl, h1⟩ := h1
    exact .inl ⟨rfl, rfl, by omega⟩
  | some p =>
    obtain ⟨l, b'⟩ := p
    rw [h] at h1
    obtain ⟨rfl, h1⟩ := h1
    rw [linesOf_some h]
    refine wp_mono (lines_cost b') ?_
    rintro m r ⟨rfl, h2, h3⟩
    have := (lineOf_some h).2.2.2
    exact .inr ⟨by simp, rfl, by simp only at h2 h3 ⊢; omega, by simp only at h3 ⊢; omega⟩

theorem gr_len (b : Bytes) : (gr b).length ≤ b.length := by
  have := congrArg List.length (gapOf_spec b).1
  simp only [List.length_append] at this
  unfold gr; omega

theorem gap_stop_cost {b : Bytes} (h : Stop b) : wp G.gap b (fun n r => r = .ok b ∧ n ≤ deadLen b + 30) := by
  refine wp_star (wp_choice_cons (wp_mono (comment_cost b) ?_))
  rintro n r (⟨_, rfl, h2⟩ | ⟨h2, _⟩)
  · refine wp_choice_cons (wp_mono (ws_cost b) ?_)
    rintro m r (⟨rfl, rfl, h3, h4⟩ | ⟨rfl, h3, h5⟩)
    · refine wp_choice_nil ?_
      rw [h3] at h2
      exact ⟨rfl, by omega⟩
    · rw [dropWhile_of_takeWhile_nil h.1] at h5; omega
  · exact absurd h.2 h2

/-- Whitespace only. -/
theorem gap_ws_cost {b : Bytes} (h : lineOf b = none) : wp G.gap b (fun n r => r = .ok (b.dropWhile isWs) ∧
    n ≤ 2 * (b.length - (b.dropWhile isWs).length) + 2 * deadLen (b.dropWhile isWs) + 60) := by
  have hs : Stop (b.dropWhile isWs) := ⟨takeWhile_dropWhile _ _, lineOf_dropWhile h⟩
  refine wp_star (wp_choice_cons (wp_mono (comment_cost b) ?_))
  rintro n r (⟨_, rfl, h2⟩ | ⟨h2, _⟩)
  · refine wp_choice_cons (wp_mono (ws_cost b) ?_)
    rintro m r (⟨rfl, rfl, h3, h4⟩ | ⟨rfl, h3, h5⟩)
    · refine wp_choice_nil ?_
      rw [h3] at h2 ⊢
      exact ⟨rfl, by omega⟩
    · refine wp_mono (gap_stop_cost hs) ?_
      rintro k r ⟨rfl, h6⟩
      exact ⟨rfl, by omega⟩
  · exact absurd h h2

/-- A gap costs at most a constant times what it looks at. -/
theorem gap_cost (b : Bytes) : wp G.gap b (fun n r => r = .ok (gr b) ∧ n ≤ 90 * gl b) := by
  have hgl := gr_len b
  cases h : lineOf b with
  | none =>
    refine wp_mono (gap_ws_cost h) ?_
    rintro n r ⟨rfl, h1⟩
    have : gr b = b.dropWhile isWs := by unfold gr gapOf; rw [linesOf_none h]
    unfold gl
    rw [this]
    exact ⟨rfl, by omega⟩
  | some p =>
    have h3 := (linesOf_spec b).2.2.1
    refine wp_star (wp_choice_cons (wp_mono (comment_cost b) ?_))
    rintro n r (⟨h2, _⟩ | ⟨_, rfl, h2, h4⟩)
    · rw [h] at h2; cases h2
    · refine wp_mono (gap_ws_cost h3) ?_
      rintro k r ⟨rfl, h6⟩
      have := dropWhile_len isWs (linesOf b).2
      refine ⟨rfl, ?_⟩
      unfold gl gr
      simp only [gapOf]
      omega

theorem gl_pos (b : Bytes) : 1 ≤ gl b := by unfold gl; omega

theorem deadLen_le (b : Bytes) : deadLen b ≤ b.length := by unfold deadLen; split <;> omega

theorem gl_le (b : Bytes) : gl b ≤ b.length + 1 := by
  have h1 := gr_len b; have h2 := deadLen_le (gr b); unfold gl; omega

theorem gl_of_head {b : Bytes} {c : UInt8} {t : Bytes} (h : gr b = c :: t) (hc : c ≠ 35) :
    gl b = b.length - (gr b).length + 1 := by
  unfold gl deadLen; rw [h]; simp [hc]

end Verif
