import Verif.Proofs.CostWp
import Verif.Proofs.Term
/-
Every expression has a cost, and an interrupted evaluation costs no more than a complete one.
-/
namespace Verif

theorem Cost.pos {e : Ex} {b : Bytes} {n : Nat} {r : CR} (h : Cost e b n r) : 1 ≤ n := by
  induction h <;> omega

theorem Pre.le {e : Ex} {b : Bytes} {n : Nat} (h : Pre e b n) : ∀ {k r}, Cost e b k r → n ≤ k := by
  induction h with
  | here h => intro k r hc; cases hc with | action hc => have := (h.det hc).1; omega
  | action _ ih => intro k r hc; cases hc with | action hc => have := ih hc; omega
  | choiceStop _ ih =>
    intro k r hc
    cases hc with
    | choiceStop _ hc => have := ih hc; omega
    | choiceNext h1 h2 => have := ih h1; have := h2.pos; omega
  | choiceNext h _ ih =>
    intro k r hc
    cases hc with
    | choiceStop hr hc => exact absurd (h.det hc).2 hr
    | choiceNext h1 h2 => have := (h.det h1).1; have := ih h2; omega
  | labeled _ ih => intro k r hc; cases hc with | labeled hc => have := ih hc; omega
  | not _ ih =>
    intro k r hc
    cases hc with
    | notOk hc => have := ih hc; omega
    | notFail hc => have := ih hc; omega
    | notFatal hc => have := ih hc; omega
  | plusStop _ ih =>
    intro k r hc
    cases hc with
    | plusStop _ hc => have := ih hc; omega
    | plusNext h1 h2 => have := ih h1; have := h2.pos; omega
  | plusNext h _ ih =>
    intro k r hc
    cases hc with
    | plusStop hr hc => exact absurd (h.det hc).2 (hr _)
    | plusNext h1 h2 =>
      obtain ⟨h3, h4⟩ := h.det h1
      cases h4
      have := ih h2; omega
  | ref _ ih => intro k r hc; cases hc with | ref hc => have := ih hc; omega
  | seqStop _ ih =>
    intro k r hc
    cases hc with
    | seqStop _ hc => have := ih hc; omega
    | seqNext h1 h2 => have := ih h1; have := h2.pos; omega
  | seqNext h _ ih =>
    intro k r hc
    cases hc with
    | seqStop hr hc => exact absurd (h.det hc).2 (hr _)
    | seqNext h1 h2 =>
      obtain ⟨h3, h4⟩ := h.det h1
      cases h4
      have := ih h2; omega
  | starStop _ ih =>
    intro k r hc
    cases hc with
    | starEnd hc => have := ih hc; omega
    | starFatal hc => have := ih hc; omega
    | starNext h1 h2 => have := ih h1; have := h2.pos; omega
  | starNext h _ ih =>
    intro k r hc
    cases hc with
    | starEnd hc => cases (h.det hc).2
    | starFatal hc => cases (h.det hc).2
    | starNext h1 h2 =>
      obtain ⟨h3, h4⟩ := h.det h1
      cases h4
      have := ih h2; omega
  | opt _ ih =>
    intro k r hc
    cases hc with
    | optOk _ hc => have := ih hc; omega
    | optNo hc => have := ih hc; omega

theorem nextB_lt {b : Bytes} (h : b ≠ []) : (nextB b).length < b.length := by
  have h1 := width_pos_of_ne h
  have h2 : 0 < b.length := List.length_pos_iff.2 h
  unfold nextB
  simp only [List.length_drop]
  omega

theorem litRest_cons {v b b' : Bytes} (h : litRest v b = some b') (hv : v ≠ []) : b'.length < b.length := by
  cases v with
  | nil => exact absurd rfl hv
  | cons c cs =>
    simp only [litRest] at h
    split at h
    · rename_i hd
      have h1 := (litRest_suffix h).length_le
      have hb : b ≠ [] := by
        rintro rfl
        exfalso
        revert hd
        exact (by decide +kernel : ∀ c : UInt8, ¬ (decodeRune []).1 = c.toNat) c
      have := nextB_lt hb
      omega
    · cases h

/-- An expression that is not nullable consumes input. -/
theorem Cost.cons {e : Ex} {b : Bytes} {n : Nat} {r : CR} (h : Cost e b n r) :
    ∀ b', r = .ok b' → e.nullable ruleNullable = false → b'.length < b.length := by
  induction h with
  | action _ ih => intro b' hr hn; exact ih b' hr hn
  | initParser => intro b' _ hn; simp [Ex.nullable] at hn
  | pushError => intro b' hr; cases hr
  | fatalError => intro b' hr; cases hr
  | any hb => intro b' hr _; cases hr; exact nextB_lt hb
  | anyEof => intro b' hr; cases hr
  | cls hb _ => intro b' hr _; cases hr; exact nextB_lt hb
  | clsNo _ => intro b' hr; cases hr
  | choiceNil => intro b' hr; cases hr
  | choiceStop _ _ ih =>
    intro b' hr hn
    simp only [Ex.nullable, nullableAny, Bool.or_eq_false_iff] at hn
    exact ih b' hr hn.1
  | choiceNext _ _ _ ih =>
    intro b' hr hn
    simp only [Ex.nullable, nullableAny, Bool.or_eq_false_iff] at hn ih
    exact ih b' hr hn.2
  | labeled _ ih => intro b' hr hn; exact ih b' hr hn
  | lit h =>
    intro b' hr hn
    cases hr
    refine litRest_cons h ?_
    rintro rfl
    simp [Ex.nullable] at hn
  | litNo _ => intro b' hr; cases hr
  | notOk _ _ => intro b' hr; cases hr
  | notFail _ _ => intro b' _ hn; simp [Ex.nullable] at hn
  | notFatal _ _ => intro b' hr; cases hr
  | plusStop _ _ ih => intro b' hr hn; exact ih b' hr hn
  | plusNext h1 h2 ih1 _ =>
    intro b' hr hn
    subst hr
    have := ih1 _ rfl hn
    have := h2.suffix.length_le
    omega
  | @ref x b n r _ ih =>
    intro b' hr hn
    refine ih b' hr ?_
    rw [Bool.eq_false_iff]
    intro hh
    have := gram_nullable x hh
    simp only [Ex.nullable] at hn
    rw [hn] at this; cases this
  | seqNil => intro b' _ hn; simp [Ex.nullable, nullableAll] at hn
  | seqStop hr' _ _ => intro b' hr; exact absurd hr (hr' _)
  | seqNext h1 h2 ih1 ih2 =>
    intro b' hr hn
    subst hr
    have l1 := h1.suffix.length_le
    have l2 := h2.suffix.length_le
    simp only [Ex.nullable, nullableAll, Bool.and_eq_false_iff] at hn ih2
    rcases hn with hn | hn
    · have := ih1 _ rfl hn; omega
    · have := ih2 _ rfl hn; omega
  | state => intro b' _ hn; simp [Ex.nullable] at hn
  | starEnd _ _ => intro b' _ hn; simp [Ex.nullable] at hn
  | starFatal _ _ => intro b' hr; cases hr
  | starNext _ _ _ _ => intro b' _ hn; simp [Ex.nullable] at hn
  | optOk _ _ _ => intro b' _ hn; simp [Ex.nullable] at hn
  | optNo _ _ => intro b' _ hn; simp [Ex.nullable] at hn

abbrev wfE (e : Ex) : Bool := e.wf ruleNullable ruleNeed 60
abbrev needE (e : Ex) : Nat := e.need ruleNullable ruleNeed

theorem seq_total {N : Nat} (ih : ∀ e b, wfE e = true → 60 * b.length + needE e ≤ N → ∃ n r, Cost e b n r)
    (es : List Ex) (b : Bytes) (hw : wfAll ruleNullable ruleNeed 60 es = true)
    (h : 60 * b.length + needSeq ruleNullable ruleNeed es ≤ N) : ∃ n r, Cost (.seq es) b n r := by
  induction es generalizing b with
  | nil => exact ⟨_, _, .seqNil⟩
  | cons e es ihs =>
    simp only [wfAll, Bool.and_eq_true] at hw
    simp only [needSeq] at h
    have hne : 60 * b.length + needE e ≤ N := by
      split at h
      · have := Nat.le_max_left (e.need ruleNullable ruleNeed) (needSeq ruleNullable ruleNeed es); unfold needE; omega
      · exact h
    obtain ⟨n, r, hc⟩ := ih e b hw.1 hne
    cases r with
    | fail => exact ⟨_, _, .seqStop (by simp) hc⟩
    | fatal => exact ⟨_, _, .seqStop (by simp) hc⟩
    | ok b' =>
      have hl := hc.suffix.length_le
      have hn := wfAll_needSeq hw.2
      have hp := Ex.need_pos (nr := ruleNullable) (c := ruleNeed) e
      obtain ⟨m, r, h2⟩ := ihs b' hw.2 (by
        by_cases hlt : b'.length < b.length
        · omega
        · split at h
          · have := Nat.le_max_right (e.need ruleNullable ruleNeed) (needSeq ruleNullable ruleNeed es); omega
          · rename_i hnn
            exact absurd (hc.cons b' rfl (by simpa using hnn)) hlt)
      exact ⟨_, _, .seqNext hc h2⟩

theorem choice_total {N : Nat} (ih : ∀ e b, wfE e = true → 60 * b.length + needE e ≤ N → ∃ n r, Cost e b n r)
    (es : List Ex) (b : Bytes) (hw : wfAll ruleNullable ruleNeed 60 es = true)
    (h : 60 * b.length + needMax ruleNullable ruleNeed es ≤ N) : ∃ n r, Cost (.choice es) b n r := by
  induction es with
  | nil => exact ⟨_, _, .choiceNil⟩
  | cons e es ihs =>
    simp only [wfAll, Bool.and_eq_true] at hw
    simp only [needMax] at h
    have hm1 := Nat.le_max_left (e.need ruleNullable ruleNeed) (needMax ruleNullable ruleNeed es)
    have hm2 := Nat.le_max_right (e.need ruleNullable ruleNeed) (needMax ruleNullable ruleNeed es)
    obtain ⟨n, r, hc⟩ := ih e b hw.1 (by unfold needE; omega)
    cases r with
    | ok b' => exact ⟨_, _, .choiceStop (by simp) hc⟩
    | fatal => exact ⟨_, _, .choiceStop (by simp) hc⟩
    | fail =>
      obtain ⟨m, r, h2⟩ := ihs hw.2 (by omega)
      exact ⟨_, _, .choiceNext hc h2⟩

theorem star_total {N : Nat} (ih : ∀ e b, wfE e = true → 60 * b.length + needE e ≤ N → ∃ n r, Cost e b n r)
    (e : Ex) (hw : wfE e = true) (hn : e.nullable ruleNullable = false) (b : Bytes)
    (h : 60 * b.length + needE e ≤ N) : ∃ n r, Cost (.star e) b n r := by
  induction hL : b.length using Nat.strongRecOn generalizing b with
  | ind L ihL =>
  subst hL
  obtain ⟨n, r, hc⟩ := ih e b hw h
  cases r with
  | fail => exact ⟨_, _, .starEnd hc⟩
  | fatal => exact ⟨_, _, .starFatal hc⟩
  | ok b' =>
    have hlt := hc.cons b' rfl hn
    obtain ⟨m, r, h2⟩ := ihL b'.length hlt b' (by omega) rfl
    exact ⟨_, _, .starNext hc h2⟩

/-- Every expression has a cost. -/
theorem Cost.total (N : Nat) : ∀ e b, wfE e = true → 60 * b.length + needE e ≤ N → ∃ n r, Cost e b n r := by
  induction N with
  | zero =>
    intro e b _ h
    have := Ex.need_pos (nr := ruleNullable) (c := ruleNeed) e
    unfold needE at h; omega
  | succ N ih =>
    intro e b hw h
    cases e with
    | action a e =>
      simp only [wfE, needE, Ex.wf, Ex.need, Bool.and_eq_true] at hw h
      obtain ⟨n, r, hc⟩ := ih e b hw.1 (by unfold needE; omega)
      exact ⟨_, _, .action hc⟩
    | andCode c =>
      cases c with
      | initParser => exact ⟨_, _, .initParser⟩
      | pushError m => exact ⟨_, _, .pushError⟩
      | fatalError m => exact ⟨_, _, .fatalError⟩
    | any =>
      by_cases hb : b = []
      · subst hb; exact ⟨_, _, .anyEof⟩
      · exact ⟨_, _, .any hb⟩
    | cls x i c g =>
      by_cases hb : b = []
      · exact ⟨_, _, .clsNo (.inl hb)⟩
      · cases hm : clsMatches i c g (decodeRune b).1 with
        | true => exact ⟨_, _, .cls hb hm⟩
        | false => exact ⟨_, _, .clsNo (.inr hm)⟩
    | choice l =>
      simp only [wfE, needE, Ex.wf, Ex.need, Bool.and_eq_true] at hw h
      exact choice_total ih l b hw.1 (by omega)
    | labeled l e =>
      simp only [wfE, needE, Ex.wf, Ex.need, Bool.and_eq_true] at hw h
      obtain ⟨n, r, hc⟩ := ih e b hw.1 (by unfold needE; omega)
      exact ⟨_, _, .labeled hc⟩
    | lit v =>
      cases hv : litRest v b with
      | some b' => exact ⟨_, _, .lit hv⟩
      | none => exact ⟨_, _, .litNo hv⟩
    | not e =>
      simp only [wfE, needE, Ex.wf, Ex.need, Bool.and_eq_true] at hw h
      obtain ⟨n, r, hc⟩ := ih e b hw.1 (by unfold needE; omega)
      cases r with
      | ok b' => exact ⟨_, _, .notOk hc⟩
      | fail => exact ⟨_, _, .notFail hc⟩
      | fatal => exact ⟨_, _, .notFatal hc⟩
    | plus e =>
      simp only [wfE, needE, Ex.wf, Ex.need, Bool.and_eq_true, Bool.not_eq_true'] at hw h
      obtain ⟨n, r, hc⟩ := ih e b hw.1.1 (by unfold needE; omega)
      cases r with
      | ok b' =>
        have hl := hc.suffix.length_le
        obtain ⟨m, r, h2⟩ := star_total ih e hw.1.1 hw.1.2 b' (by unfold needE; omega)
        exact ⟨_, _, .plusNext hc h2⟩
      | fail => exact ⟨_, _, .plusStop (by simp) hc⟩
      | fatal => exact ⟨_, _, .plusStop (by simp) hc⟩
    | ref x =>
      simp only [wfE, needE, Ex.wf, Ex.need] at hw h
      have := gram_need x
      obtain ⟨n, r, hc⟩ := ih (gram x) b (gram_wf x) (by unfold needE; omega)
      exact ⟨_, _, .ref hc⟩
    | seq l =>
      simp only [wfE, needE, Ex.wf, Ex.need, Bool.and_eq_true] at hw h
      exact seq_total ih l b hw.1 (by omega)
    | state c => exact ⟨_, _, .state⟩
    | star e =>
      simp only [wfE, needE, Ex.wf, Ex.need, Bool.and_eq_true, Bool.not_eq_true'] at hw h
      exact star_total ih e hw.1.1 hw.1.2 b (by unfold needE; omega)
    | opt e =>
      simp only [wfE, needE, Ex.wf, Ex.need, Bool.and_eq_true] at hw h
      obtain ⟨n, r, hc⟩ := ih e b hw.1 (by unfold needE; omega)
      cases r with
      | ok b' => exact ⟨_, _, .optOk (by simp) hc⟩
      | fail => exact ⟨_, _, .optNo hc⟩
      | fatal => exact ⟨_, _, .optOk (by simp) hc⟩

theorem Cost.rule_total (x : Rule) (b : Bytes) : ∃ n r, Cost (gram x) b n r :=
  Cost.total (60 * b.length + needE (gram x)) _ _ (gram_wf x) (Nat.le_refl _)

end Verif
