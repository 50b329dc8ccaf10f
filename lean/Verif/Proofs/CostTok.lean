import Verif.Proofs.CostLex
import Verif.Proofs.RunTok
/-
The cost of strings, numbers, names, selectors and operators.
-/
namespace Verif
open Spec

/-- A token: linear in what it consumes; constant when it fails; linear in the input when it aborts. -/
def tokR (b : Bytes) (n : Nat) : CR → Prop
  | .ok b' => b'.length < b.length ∧ n ≤ 20 * (b.length - b'.length)
  | .fail => n ≤ 20
  | .fatal => n ≤ 20 * (b.length + 1)

theorem body_cost (q : UInt8) (hq : q < 128) (b : Bytes) : wp (G.quotedBody [92, q] [q]) b (fun n r =>
    ∃ b', r = .ok b' ∧ b'.length ≤ b.length ∧ n + 7 * b'.length ≤ 7 * b.length + 8) := by
  obtain ⟨k, hk⟩ : ∃ k, b.length ≤ k := ⟨_, Nat.le_refl _⟩
  induction k generalizing b with
  | zero =>
    have : b = [] := by simpa using hk
    subst this
    refine wp_star (wp_choice_cons (wp_tok (by simp; exact hq) ?_ fun _ => ?_))
    · intro b' hb; cases hb
    · refine wp_choice_cons (wp_seq_cons (wp_not (wp_chr (c := q) hq ?_ fun _ => ?_)))
      · intro b' hb; cases hb
      · refine wp_seq_cons (wp_any (wp_choice_nil ⟨[], rfl, by simp, by simp⟩))
  | succ k ih =>
    refine wp_star (wp_choice_cons (wp_tok (by simp; exact hq) ?_ fun _ => ?_))
    · rintro b' rfl
      simp at hk
      refine wp_mono (ih b' (by omega)) ?_
      rintro n r ⟨b2, rfl, h1, h2⟩
      exact ⟨b2, rfl, by simp; omega, by simp; omega⟩
    · refine wp_choice_cons (wp_seq_cons (wp_not (wp_chr (c := q) hq ?_ fun _ => ?_)))
      · rintro b' rfl
        exact wp_choice_nil ⟨_, rfl, by simp, by simp; omega⟩
      · refine wp_seq_cons (wp_any ?_)
        cases b with
        | nil => exact wp_choice_nil ⟨_, rfl, by simp, by simp⟩
        | cons c t =>
          have hl : (nextB (c :: t)).length < (c :: t).length := by
            obtain ⟨x, y, h1, h2, h3, _⟩ := rune_step c t
            rw [h3, h1]
            cases x with
            | nil => exact absurd rfl h2
            | cons d x => simp; omega
          refine wp_seq_nil ?_
          simp only [List.length_cons] at hl hk
          refine wp_mono (ih (nextB (c :: t)) (by omega)) ?_
          rintro n r ⟨b2, rfl, h1, h2⟩
          exact ⟨b2, rfl, by simp; omega, by simp; omega⟩

theorem quoted_cost (q : UInt8) (hq : q < 128) (m b : Bytes) :
    wp (.seq [.lit [q], G.quotedBody [92, q] [q], G.close [q] (.fatalError m)]) b (fun n r =>
      match r with
      | .ok b' => b'.length + 2 ≤ b.length ∧ n ≤ 7 * (b.length - b'.length) ∧ b.head? = some q
      | .fail => n ≤ 2 ∧ b.head? ≠ some q
      | .fatal => n ≤ 7 * (b.length + 1) ∧ b.head? = some q) := by
  refine wp_seq_cons (wp_chr (c := q) hq ?_ fun hb => ⟨by omega, hb⟩)
  rintro t rfl
  refine wp_seq_cons (wp_mono (body_cost q hq t) ?_)
  rintro n r ⟨b2, rfl, h1, h2⟩
  refine wp_seq_cons (wp_choice_cons (wp_chr (c := q) hq ?_ fun hb => ?_))
  · rintro b3 rfl
    refine wp_seq_nil ?_
    simp only [List.length_cons] at h1 h2 ⊢
    exact ⟨by omega, by omega, rfl⟩
  · refine wp_choice_cons (wp_fatalError ?_)
    simp only [onFail_fatal, onOk_fatal, List.length_cons]
    exact ⟨by omega, rfl⟩

/-- `stringValue`. -/
theorem string_cost (b : Bytes) : wp G.stringValue b (fun n r => tokR b n r ∧
    (r = .fail ↔ b.head? ≠ some 34 ∧ b.head? ≠ some 39)) := by
  refine wp_action (wp_labeled (wp_choice_cons (wp_action (wp_labeled (wp_action (wp_mono (quoted_cost 34 (by decide) _ b) ?_))))))
  intro n r h
  cases r with
  | ok b' => simp only [onFail_ok, tokR, reduceCtorEq, false_iff] at h ⊢; exact ⟨by omega, by rw [h.2.2]; simp⟩
  | fatal => simp only [onFail_fatal, tokR, reduceCtorEq, false_iff] at h ⊢; exact ⟨by omega, by rw [h.2]; simp⟩
  | fail =>
    simp only at h
    refine wp_choice_cons (wp_action (wp_labeled (wp_action (wp_mono (quoted_cost 39 (by decide) _ b) ?_))))
    intro m r h2
    cases r with
    | ok b' => simp only [onFail_ok, tokR, reduceCtorEq, false_iff] at h2 ⊢; exact ⟨by omega, by rw [h2.2.2]; simp⟩
    | fatal => simp only [onFail_fatal, tokR, reduceCtorEq, false_iff] at h2 ⊢; exact ⟨by omega, by rw [h2.2]; simp⟩
    | fail =>
      refine wp_choice_nil ?_
      simp only [tokR, true_iff] at h2 ⊢
      exact ⟨by omega, h.2, h2.2⟩

/-- `regexp`. -/
theorem regexp_cost (b : Bytes) : wp G.regexp b (fun n r => tokR b n r ∧ (r = .fail ↔ b.head? ≠ some 47)) := by
  refine wp_action (wp_mono (quoted_cost 47 (by decide) _ b) ?_)
  intro n r h
  cases r <;> simp only [tokR, reduceCtorEq, false_iff, true_iff] at h ⊢
  · exact ⟨by omega, by rw [h.2.2]; simp⟩
  · exact ⟨by omega, h.2⟩
  · exact ⟨by omega, by rw [h.2]; simp⟩

/-- What is left after the characters of a name. -/
def dn (b : Bytes) : Bytes := b.dropWhile Spec.isNameChar

/-- `name`. -/
theorem name_cost (b : Bytes) : wp G.name b (fun n r => match r with
    | .ok b' => b'.length < b.length ∧ n ≤ 30 * (b.length - b'.length) ∧ (b' = dn b ∧ dn b ≠ b ∨
        dn b = b ∧ (b.head? = some 34 ∨ b.head? = some 39) ∧ ∃ k, Cost G.stringValue b k (.ok b'))
    | .fail => n ≤ 30 ∧ dn b = b ∧ b.head? ≠ some 34 ∧ b.head? ≠ some 39
    | .fatal => n ≤ 30 * (b.length + 1) ∧ (b.head? = some 34 ∨ b.head? = some 39)) := by
  refine wp_choice_cons (wp_action (wp_mono (class_plus class_name b) ?_))
  rintro n r (⟨rfl, rfl, h, _⟩ | ⟨rfl, h1, h2, _⟩)
  · refine wp_choice_cons (wp_action (wp_labeled ?_))
    intro m r hc
    have h3 := string_cost b m r hc
    cases r with
    | ok b' =>
      simp only [onFail_ok, tokR, reduceCtorEq, false_iff] at h3 ⊢
      refine ⟨h3.1.1, by omega, .inr ⟨h, ?_, _, hc⟩⟩
      have := h3.2
      by_cases hh : b.head? = some 34
      · exact .inl hh
      · exact .inr (Classical.byContradiction fun h4 => this ⟨hh, h4⟩)
    | fatal =>
      simp only [onFail_fatal, tokR, reduceCtorEq, false_iff] at h3 ⊢
      refine ⟨by omega, ?_⟩
      by_cases hh : b.head? = some 34
      · exact .inl hh
      · exact .inr (Classical.byContradiction fun h4 => h3.2 ⟨hh, h4⟩)
    | fail =>
      refine wp_choice_nil ?_
      simp only [tokR, true_iff] at h3 ⊢
      exact ⟨by omega, h, h3.2⟩
  · simp only [onFail_ok]
    exact ⟨h2, by omega, .inl ⟨rfl, fun hh => by unfold dn at hh; rw [hh] at h2; omega⟩⟩

theorem dn_of_dropWhile {p : UInt8 → Bool} (hp : ∀ c, p c = true → Spec.isNameChar c = true) (b : Bytes) :
    dn (b.dropWhile p) = dn b := by
  unfold dn
  induction b with
  | nil => rfl
  | cons c t ih =>
    simp only [List.dropWhile]
    cases h : p c with
    | false => rfl
    | true => simp only [hp c h, ih]

/-- `bareword`. -/
theorem bareword_cost (b : Bytes) : wp G.bareword b (fun n r => match r with
    | .ok b' => b'.length < b.length ∧ n ≤ 20 * (b.length - b'.length) ∧ dn b' = dn b ∧ dn b ≠ b
    | .fail => n ≤ 20
    | .fatal => False) := by
  refine wp_action (wp_seq_cons (wp_class class_wordStart (fun _ => by simp) ?_))
  intro c y hc hp hl _ ha
  have hc128 : c < 128 := (by decide +kernel : ∀ c, isWordStart c = true → c < 128) c hp
  have hb := ha hc128
  subst hb
  have hpn : Spec.isNameChar c = true := (by decide +kernel : ∀ c, isWordStart c = true → Spec.isNameChar c = true) c hp
  refine wp_seq_cons (wp_mono (class_plus class_word y) ?_)
  rintro n r (⟨rfl, rfl, h, _⟩ | ⟨rfl, h1, h2, _⟩)
  · simp
  · refine wp_seq_nil ?_
    have hd : dn (c :: y) = dn y := by simp [dn, List.dropWhile, hpn]
    simp only [List.length_cons] at *
    refine ⟨by omega, by omega, ?_, ?_⟩
    · rw [hd]; exact dn_of_dropWhile (by decide +kernel) y
    · intro hh
      rw [hd] at hh
      have := congrArg List.length hh
      have h3 := dropWhile_len Spec.isNameChar y
      unfold dn at this
      simp at this; omega

/-- `number`. -/
theorem number_cost (b : Bytes) : wp G.number b (fun n r => match r with
    | .ok b' => b'.length < b.length ∧ n ≤ 20 * (b.length - b'.length) ∧ dn b ≠ b ∧
        (dn b' = dn b ∨ ∃ t, dn b = 46 :: t ∧ b'.length ≤ t.length)
    | .fail => n ≤ 20
    | .fatal => False) := by
  have hdig : ∀ c, Spec.isDigit c = true → Spec.isNameChar c = true := by decide +kernel
  -- the digits, from `s` on
  have key : ∀ (s : Bytes) (k : Nat), k ≤ 3 → dn s = dn b → s.length ≤ b.length →
      wp (.seq [.plus (.cls b!"[0-9]" false [] [(48, 57)]),
        .opt (.seq [.lit b!".", .star (.cls b!"[0-9]" false [] [(48, 57)])])]) s (fun n r => match r with
        | .ok b' => b'.length < s.length ∧ n + k + 1 ≤ 20 * (s.length - b'.length) ∧ dn b ≠ b ∧
            (dn b' = dn b ∨ ∃ t, dn b = 46 :: t ∧ b'.length ≤ t.length)
        | .fail => n ≤ 15
        | .fatal => False) := by
    intro s k hk hs hsl
    refine wp_seq_cons (wp_mono (class_plus class_digit s) ?_)
    rintro n r (⟨rfl, rfl, h, _⟩ | ⟨rfl, h1, h2, _⟩)
    · simp
    have hd := dn_of_dropWhile hdig s
    have hne : dn b ≠ b := by
      intro hh
      have hl := dropWhile_len Spec.isNameChar (s.dropWhile Spec.isDigit)
      have : (dn b).length = (dn (s.dropWhile Spec.isDigit)).length := by rw [hd, hs]
      rw [hh] at this
      unfold dn at this; omega
    generalize s.dropWhile Spec.isDigit = u at *
    refine wp_seq_cons (wp_opt (wp_seq_cons (wp_chr (c := 46) (by decide) ?_ fun _ => ?_)))
    · rintro v rfl
      refine wp_seq_cons (wp_mono (class_star class_digit v) ?_)
      rintro m r ⟨rfl, h3⟩
      refine wp_seq_nil (wp_seq_nil ?_)
      have hl := dropWhile_len Spec.isDigit v
      simp only [List.length_cons] at h1 h2
      refine ⟨by omega, by omega, hne, .inr ⟨v, ?_, hl⟩⟩
      rw [← hs, ← hd]
      simp [dn, List.dropWhile, show Spec.isNameChar 46 = false by decide]
    · refine wp_seq_nil ?_
      exact ⟨h2, by omega, hne, .inl (hd.trans hs)⟩
  refine wp_action (wp_seq_cons (wp_opt (wp_chr (c := 45) (by decide) ?_ fun _ => ?_)))
  · rintro s rfl
    refine wp_mono (key s 3 (by omega) (by simp [dn, List.dropWhile, show Spec.isNameChar 45 = true by decide]) (by simp)) ?_
    intro n r h
    cases r with
    | ok b' =>
      simp only [List.length_cons] at h ⊢
      exact ⟨by omega, by omega, h.2.2⟩
    | fail => simp only at h ⊢; omega
    | fatal => exact h
  · refine wp_mono (key b 3 (by omega) rfl (by omega)) ?_
    intro n r h
    cases r with
    | ok b' => exact ⟨h.1, by have := h.2.1; omega, h.2.2⟩
    | fail => simp only at h ⊢; omega
    | fatal => exact h

/-! ### Selectors -/

/-- How far the scan of a selector element looks. -/
def selScan : Bytes → Nat
  | 91 :: t => t.length - (t.dropWhile isSelChar).length
  | _ => 0

theorem selScan_le (b : Bytes) : selScan b ≤ b.length := by
  unfold selScan; split
  · simp only [List.length_cons]; omega
  · omega

theorem selScan_ne {b : Bytes} (h : b.head? ≠ some 91) : selScan b = 0 := by
  unfold selScan; split
  · simp at h
  · rfl

theorem selElem_cost (b : Bytes) : wp G.selectorElement b (fun n r => match r with
    | .ok b' => b'.length < b.length ∧ n ≤ 20 * (b.length - b'.length) ∧ b.head? = some 91
    | .fail => n ≤ 20 + selScan b
    | .fatal => False) := by
  refine wp_action (wp_seq_cons (wp_chr (c := 91) (by decide) ?_ fun _ => by simp; omega))
  rintro t rfl
  refine wp_seq_cons (wp_mono (class_plus class_sel t) ?_)
  rintro n r (⟨rfl, rfl, h, _⟩ | ⟨rfl, h1, h2, _⟩)
  · simp; omega
  have hsc : selScan (91 :: t) = t.length - (t.dropWhile isSelChar).length := rfl
  rw [hsc]
  generalize t.dropWhile isSelChar = u at *
  refine wp_seq_cons (wp_choice_cons (wp_chr (c := 93) (by decide) ?_ fun _ => ?_))
  · rintro v rfl
    refine wp_seq_nil ?_
    simp only [List.length_cons, List.head?_cons] at *
    exact ⟨by omega, by omega, trivial⟩
  · refine wp_choice_cons (wp_pushError (wp_choice_nil ?_))
    simp only [onOk_fail]; omega

theorem selElems_cost (b : Bytes) : wp (.star G.selectorElement) b (fun n r =>
    ∃ b', r = .ok b' ∧ b'.length ≤ b.length ∧ n ≤ 20 * (b.length - b'.length) + 21 + selScan b') := by
  obtain ⟨k, hk⟩ : ∃ k, b.length ≤ k := ⟨_, Nat.le_refl _⟩
  induction k generalizing b with
  | zero =>
    refine wp_star (wp_mono (selElem_cost b) ?_)
    intro n r h
    cases r with
    | ok b' => simp only at h; omega
    | fail => exact ⟨b, rfl, by omega, by simp only at h; omega⟩
    | fatal => exact h.elim
  | succ k ih =>
    refine wp_star (wp_mono (selElem_cost b) ?_)
    intro n r h
    cases r with
    | ok b' =>
      simp only at h ⊢
      refine wp_mono (ih b' (by omega)) ?_
      rintro m r ⟨b2, rfl, h2, h3⟩
      exact ⟨b2, rfl, by omega, by omega⟩
    | fail => exact ⟨b, rfl, by omega, by simp only at h; omega⟩
    | fatal => exact h.elim

/-- `selector`. -/
theorem selector_cost (b : Bytes) : wp G.selector b (fun n r => match r with
    | .ok b' => b'.length < b.length ∧ n ≤ 50 * (b.length - b'.length) + selScan b' ∧ b.head? = some 91
    | .fail => n ≤ 30 + selScan b
    | .fatal => False) := by
  refine wp_action (wp_labeled (wp_plus (wp_mono (selElem_cost b) ?_)))
  intro n r h
  cases r with
  | ok b' =>
    simp only [onOk_ok] at h ⊢
    refine wp_mono (selElems_cost b') ?_
    rintro m r ⟨b2, rfl, h2, h3⟩
    exact ⟨by omega, by omega, h.2.2⟩
  | fail => simp only [onOk_fail] at h ⊢; omega
  | fatal => exact h.elim

end Verif
