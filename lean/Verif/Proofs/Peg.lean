import Verif.Spec.Treetop
/-
Parsing expression grammars: determinism, and an evaluator.
-/
namespace Verif.Spec.Treetop

variable {R : Type} {G : R → PEx R}

theorem Matches.det {e : PEx R} {s : List Char} {x y : Option (List Char)} (h1 : Matches G e s x)
    (h2 : Matches G e s y) : x = y := by
  induction h1 generalizing y with
  | @lit s t =>
    generalize hq : s ++ t = q at h2
    cases h2 with
    | lit => exact congrArg some (List.append_cancel_left hq)
    | litFail h => exact absurd ⟨t, hq⟩ h
  | @litFail s t h =>
    cases h2 with
    | lit => exact absurd ⟨_, rfl⟩ h
    | litFail => rfl
  | cls h => cases h2 with
    | cls => rfl
    | clsFail h' => rw [h] at h'; cases h'
  | clsFail h => cases h2 with
    | cls h' => rw [h] at h'; cases h'
    | clsFail => rfl
  | clsEnd => cases h2; rfl
  | any => cases h2; rfl
  | anyEnd => cases h2; rfl
  | seq _ _ ih1 ih2 => cases h2 with
    | seq h3 h4 =>
      have := ih1 h3
      simp only [Option.some.injEq] at this
      subst this
      exact ih2 h4
    | seqFail h3 => have := ih1 h3; cases this
  | seqFail _ ih => cases h2 with
    | seq h3 h4 => have := ih h3; cases this
    | seqFail h3 => rfl
  | altFirst _ ih => cases h2 with
    | altFirst h3 => exact ih h3
    | altSecond h3 h4 => have := ih h3; cases this
  | altSecond _ _ ih1 ih2 => cases h2 with
    | altFirst h3 => have := ih1 h3; cases this
    | altSecond h3 h4 => exact ih2 h4
  | starEnd _ ih => cases h2 with
    | starEnd h3 => rfl
    | starMore h3 h4 => have := ih h3; cases this
  | starMore _ _ ih1 ih2 => cases h2 with
    | starEnd h3 => have := ih1 h3; cases this
    | starMore h3 h4 =>
      have := ih1 h3
      simp only [Option.some.injEq] at this
      subst this
      exact ih2 h4
  | plus _ _ ih1 ih2 => cases h2 with
    | plus h3 h4 =>
      have := ih1 h3
      simp only [Option.some.injEq] at this
      subst this
      exact ih2 h4
    | plusFail h3 => have := ih1 h3; cases this
  | plusFail _ ih => cases h2 with
    | plus h3 h4 => have := ih h3; cases this
    | plusFail h3 => rfl
  | opt _ ih => cases h2 with
    | opt h3 => exact ih h3
    | optNone h3 => have := ih h3; cases this
  | optNone _ ih => cases h2 with
    | opt h3 => have := ih h3; cases this
    | optNone h3 => rfl
  | not _ ih => cases h2 with
    | not h3 => rfl
    | notFail h3 => have := ih h3; cases this
  | notFail _ ih => cases h2 with
    | not h3 => have := ih h3; cases this
    | notFail h3 => rfl
  | ref _ ih => cases h2 with
    | ref h3 => exact ih h3

/-- Remove a prefix. -/
def strip : List Char → List Char → Option (List Char)
  | [], t => some t
  | _ :: _, [] => none
  | c :: s, d :: t => if c = d then strip s t else none

theorem strip_some {s t u : List Char} (h : strip s t = some u) : t = s ++ u := by
  induction s generalizing t with
  | nil => simp only [strip, Option.some.injEq] at h; simp [h]
  | cons c s ih =>
    cases t with
    | nil => simp [strip] at h
    | cons d t =>
      simp only [strip] at h
      split at h
      · rename_i hc; rw [hc, ih h]; rfl
      · cases h

theorem strip_none {s t : List Char} (h : strip s t = none) : ¬ s <+: t := by
  induction s generalizing t with
  | nil => simp [strip] at h
  | cons c s ih =>
    cases t with
    | nil => simp
    | cons d t =>
      simp only [strip] at h
      rw [List.cons_prefix_cons]
      split at h
      · exact fun hh => ih h hh.2
      · rename_i hc; exact fun hh => hc hh.1

theorem strip_append (s t : List Char) : strip s (s ++ t) = some t := by
  induction s with
  | nil => rfl
  | cons c s ih => simp [strip, ih]

theorem strip_not {s t : List Char} (h : ¬ s <+: t) : strip s t = none := by
  cases h2 : strip s t with
  | none => rfl
  | some u => exact absurd ⟨u, (strip_some h2).symm⟩ h

/-- An evaluator with a bound on the depth of the derivation. -/
def pev (G : R → PEx R) : Nat → PEx R → List Char → Option (Option (List Char))
  | 0, _, _ => none
  | n + 1, e, s =>
    match e with
    | .lit l => some (strip l s)
    | .cls neg cs rs =>
      match s with
      | [] => some none
      | c :: t => if inClass neg cs rs c then some (some t) else some none
    | .any =>
      match s with
      | [] => some none
      | _ :: t => some (some t)
    | .seq a b =>
      match pev G n a s with
      | some (some t) => pev G n b t
      | r => r
    | .alt a b =>
      match pev G n a s with
      | some none => pev G n b s
      | r => r
    | .star a =>
      match pev G n a s with
      | some none => some (some s)
      | some (some t) => pev G n (.star a) t
      | none => none
    | .plus a =>
      match pev G n a s with
      | some (some t) => pev G n (.star a) t
      | r => r
    | .opt a =>
      match pev G n a s with
      | some none => some (some s)
      | r => r
    | .not a =>
      match pev G n a s with
      | some none => some (some s)
      | some (some _) => some none
      | none => none
    | .ref r => pev G n (G r) s

theorem pev_matches {n : Nat} {e : PEx R} {s : List Char} {r : Option (List Char)}
    (h : pev G n e s = some r) : Matches G e s r := by
  induction n generalizing e s r with
  | zero => cases h
  | succ n ih =>
    cases e with
    | lit l =>
      simp only [pev, Option.some.injEq] at h
      subst h
      cases h2 : strip l s with
      | none => exact .litFail (strip_none h2)
      | some t => rw [strip_some h2]; exact .lit
    | cls neg cs rs =>
      cases s with
      | nil => simp only [pev, Option.some.injEq] at h; subst h; exact .clsEnd
      | cons c t =>
        simp only [pev] at h
        split at h
        · cases h; rename_i hc; exact .cls hc
        · cases h; rename_i hc; exact .clsFail (by simpa using hc)
    | any =>
      cases s with
      | nil => simp only [pev, Option.some.injEq] at h; subst h; exact .anyEnd
      | cons c t => simp only [pev, Option.some.injEq] at h; subst h; exact .any
    | seq a b =>
      simp only [pev] at h
      cases h1 : pev G n a s with
      | none => rw [h1] at h; cases h
      | some x => cases x with
        | none => rw [h1] at h; cases h; exact .seqFail (ih h1)
        | some t => rw [h1] at h; exact .seq (ih h1) (ih h)
    | alt a b =>
      simp only [pev] at h
      cases h1 : pev G n a s with
      | none => rw [h1] at h; cases h
      | some x => cases x with
        | none => rw [h1] at h; exact .altSecond (ih h1) (ih h)
        | some t => rw [h1] at h; cases h; exact .altFirst (ih h1)
    | star a =>
      simp only [pev] at h
      cases h1 : pev G n a s with
      | none => rw [h1] at h; cases h
      | some x => cases x with
        | none => rw [h1] at h; cases h; exact .starEnd (ih h1)
        | some t => rw [h1] at h; exact .starMore (ih h1) (ih h)
    | plus a =>
      simp only [pev] at h
      cases h1 : pev G n a s with
      | none => rw [h1] at h; cases h
      | some x => cases x with
        | none => rw [h1] at h; cases h; exact .plusFail (ih h1)
        | some t => rw [h1] at h; exact .plus (ih h1) (ih h)
    | opt a =>
      simp only [pev] at h
      cases h1 : pev G n a s with
      | none => rw [h1] at h; cases h
      | some x => cases x with
        | none => rw [h1] at h; cases h; exact .optNone (ih h1)
        | some t => rw [h1] at h; cases h; exact .opt (ih h1)
    | not a =>
      simp only [pev] at h
      cases h1 : pev G n a s with
      | none => rw [h1] at h; cases h
      | some x => cases x with
        | none => rw [h1] at h; cases h; exact .not (ih h1)
        | some t => rw [h1] at h; cases h; exact .notFail (ih h1)
    | ref r => exact .ref (ih h)

theorem pev_mono {n m : Nat} (hnm : n ≤ m) {e : PEx R} {s : List Char} {r : Option (List Char)}
    (h : pev G n e s = some r) : pev G m e s = some r := by
  induction n generalizing m e s r with
  | zero => cases h
  | succ n ih =>
    obtain ⟨m, rfl⟩ : ∃ k, m = k + 1 := ⟨m - 1, by omega⟩
    have ih' : ∀ {e : PEx R} {s : List Char} {r : Option (List Char)}, pev G n e s = some r → pev G m e s = some r :=
      fun h => ih (by omega) h
    cases e with
    | lit l => exact h
    | cls neg cs rs => exact h
    | any => exact h
    | ref r => exact ih' h
    | seq a b =>
      simp only [pev] at h ⊢
      cases h1 : pev G n a s with
      | none => rw [h1] at h; cases h
      | some x => cases x with
        | none => rw [h1] at h; rw [ih' h1]; exact h
        | some t => rw [h1] at h; rw [ih' h1]; exact ih' h
    | alt a b =>
      simp only [pev] at h ⊢
      cases h1 : pev G n a s with
      | none => rw [h1] at h; cases h
      | some x => cases x with
        | none => rw [h1] at h; rw [ih' h1]; exact ih' h
        | some t => rw [h1] at h; rw [ih' h1]; exact h
    | star a =>
      simp only [pev] at h ⊢
      cases h1 : pev G n a s with
      | none => rw [h1] at h; cases h
      | some x => cases x with
        | none => rw [h1] at h; rw [ih' h1]; exact h
        | some t => rw [h1] at h; rw [ih' h1]; exact ih' h
    | plus a =>
      simp only [pev] at h ⊢
      cases h1 : pev G n a s with
      | none => rw [h1] at h; cases h
      | some x => cases x with
        | none => rw [h1] at h; rw [ih' h1]; exact h
        | some t => rw [h1] at h; rw [ih' h1]; exact ih' h
    | opt a =>
      simp only [pev] at h ⊢
      cases h1 : pev G n a s with
      | none => rw [h1] at h; cases h
      | some x => cases x with
        | none => rw [h1] at h; rw [ih' h1]; exact h
        | some t => rw [h1] at h; rw [ih' h1]; exact h
    | not a =>
      simp only [pev] at h ⊢
      cases h1 : pev G n a s with
      | none => rw [h1] at h; cases h
      | some x => cases x with
        | none => rw [h1] at h; rw [ih' h1]; exact h
        | some t => rw [h1] at h; rw [ih' h1]; exact h

theorem matches_pev {e : PEx R} {s : List Char} {r : Option (List Char)} (h : Matches G e s r) :
    ∃ n, pev G n e s = some r := by
  have two : ∀ {a b : PEx R} {s t : List Char} {x y : Option (List Char)},
      (∃ n, pev G n a s = some x) → (∃ n, pev G n b t = some y) →
      ∃ n, pev G n a s = some x ∧ pev G n b t = some y := by
    rintro a b s t x y ⟨n, hn⟩ ⟨m, hm⟩
    exact ⟨max n m, pev_mono (Nat.le_max_left ..) hn, pev_mono (Nat.le_max_right ..) hm⟩
  induction h with
  | lit => exact ⟨1, by simp [pev, strip_append]⟩
  | litFail h => exact ⟨1, by simp [pev, strip_not h]⟩
  | cls h => exact ⟨1, by simp [pev, h]⟩
  | clsFail h => exact ⟨1, by simp [pev, h]⟩
  | clsEnd => exact ⟨1, rfl⟩
  | any => exact ⟨1, rfl⟩
  | anyEnd => exact ⟨1, rfl⟩
  | seq _ _ ih1 ih2 => obtain ⟨n, h1, h2⟩ := two ih1 ih2; exact ⟨n + 1, by simp only [pev, h1, h2]⟩
  | seqFail _ ih => obtain ⟨n, h1⟩ := ih; exact ⟨n + 1, by simp only [pev, h1]⟩
  | altFirst _ ih => obtain ⟨n, h1⟩ := ih; exact ⟨n + 1, by simp only [pev, h1]⟩
  | altSecond _ _ ih1 ih2 => obtain ⟨n, h1, h2⟩ := two ih1 ih2; exact ⟨n + 1, by simp only [pev, h1, h2]⟩
  | starEnd _ ih => obtain ⟨n, h1⟩ := ih; exact ⟨n + 1, by simp only [pev, h1]⟩
  | starMore _ _ ih1 ih2 => obtain ⟨n, h1, h2⟩ := two ih1 ih2; exact ⟨n + 1, by simp only [pev, h1, h2]⟩
  | plus _ _ ih1 ih2 => obtain ⟨n, h1, h2⟩ := two ih1 ih2; exact ⟨n + 1, by simp only [pev, h1, h2]⟩
  | plusFail _ ih => obtain ⟨n, h1⟩ := ih; exact ⟨n + 1, by simp only [pev, h1]⟩
  | opt _ ih => obtain ⟨n, h1⟩ := ih; exact ⟨n + 1, by simp only [pev, h1]⟩
  | optNone _ ih => obtain ⟨n, h1⟩ := ih; exact ⟨n + 1, by simp only [pev, h1]⟩
  | not _ ih => obtain ⟨n, h1⟩ := ih; exact ⟨n + 1, by simp only [pev, h1]⟩
  | notFail _ ih => obtain ⟨n, h1⟩ := ih; exact ⟨n + 1, by simp only [pev, h1]⟩
  | ref _ ih => obtain ⟨n, h1⟩ := ih; exact ⟨n + 1, by simp only [pev, h1]⟩

end Verif.Spec.Treetop
