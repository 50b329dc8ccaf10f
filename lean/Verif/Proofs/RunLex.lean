import Verif.Proofs.RunIff
import Verif.Spec.Cst
/-
The tokens of the grammar, as functions on the remaining input.
-/
namespace Verif
open Spec

section
variable {o : Opts}

/-! ### Runes and bytes -/

theorem rune_step (c : UInt8) (t : Bytes) :
    ∃ x y, c :: t = x ++ y ∧ x ≠ [] ∧ nextB (c :: t) = y ∧ c ∈ x ∧
      ((c < 128 ∧ x = [c] ∧ y = t ∧ (decodeRune (c :: t)).1 = c.toNat) ∨
        ((∀ z ∈ x, 128 ≤ z) ∧ 128 ≤ (decodeRune (c :: t)).1)) := by
  by_cases hc : c < 128
  · refine ⟨[c], t, rfl, by simp, ?_, by simp, .inl ⟨hc, rfl, rfl, ?_⟩⟩
    · simp [nextB, decodeRune_ascii hc]
    · simp [decodeRune_ascii hc]
  · have hc' : 128 ≤ c := by simpa [UInt8.not_lt] using hc
    rcases decodeRune_multi c t hc' with h | ⟨p, u, r, h, h2, _, h3, h4, h5⟩
    · refine ⟨[c], t, rfl, by simp, by simp [nextB, h], by simp, .inr ⟨by simpa using hc', ?_⟩⟩
      rw [h]; decide
    · refine ⟨p, u, h, ?_, ?_, ?_, .inr ⟨h3, ?_⟩⟩
      · intro hp; rw [hp] at h2; simp at h2
      · rw [h, nextB, h5]; simp
      · cases p with
        | nil => simp at h2
        | cons d p => simp at h; simp [h.1]
      · rw [h, h5]; exact h4

theorem nextB_ascii {c : UInt8} {t : Bytes} (hc : c < 128) : nextB (c :: t) = t := by
  simp [nextB, decodeRune_ascii hc]

theorem litR_eq (start : Bytes) (fr : Frame) (tok b : Bytes) (h : tok.all (fun c => decide (c < 128)) = true) :
    litR start fr tok b = if tok.isPrefixOf b then
      .ok (.bytes (consumed start (b.drop tok.length))) (b.drop tok.length) fr else .fail := by
  induction tok generalizing b with
  | nil => simp [litR]
  | cons c cs ih =>
    simp only [List.all_cons, Bool.and_eq_true, decide_eq_true_eq] at h
    have hc : c.toNat < 128 := by simpa [UInt8.lt_iff_toNat_lt] using h.1
    cases b with
    | nil =>
      have : (decodeRune []).1 ≠ c.toNat := by simp [decodeRune, runeError]; omega
      rw [litR, if_neg this]; simp
    | cons d t =>
      rw [litR]
      by_cases hd : d < 128
      · rw [decodeRune_ascii hd, nextB_ascii hd]
        by_cases hcd : d = c
        · subst hcd; simp [ih t h.2]
        · have : d.toNat ≠ c.toNat := fun hh => hcd (UInt8.toNat_inj.1 hh)
          have h2 : ¬ c = d := fun hh => hcd hh.symm
          simp [this, h2]
      · obtain ⟨x, y, h1, h2, h3, h4, h5⟩ := rune_step d t
        rcases h5 with h5 | h5
        · exact absurd h5.1 hd
        · have : (decodeRune (d :: t)).1 ≠ c.toNat := by omega
          have h2 : ¬ c = d := by rintro rfl; exact hd h.1
          simp [this, h2]

/-- A literal of ASCII characters. -/
theorem run_tok {tok : Bytes} (h : tok.all (fun c => decide (c < 128)) = true) (b : Bytes) (fr : Frame) :
    run o (.lit tok) b fr = if tok.isPrefixOf b then .ok (.bytes tok) (b.drop tok.length) fr else .fail := by
  rw [run_lit, litR_eq _ _ _ _ h]
  split
  · rename_i hp
    rw [List.isPrefixOf_iff_prefix] at hp
    obtain ⟨r, rfl⟩ := hp
    simp [consumed_append]
  · rfl

theorem tok_ok {tok : Bytes} (h : tok.all (fun c => decide (c < 128)) = true) {b : Bytes} {fr : Frame} {v : Val}
    {b' : Bytes} {fr' : Frame} :
    run o (.lit tok) b fr = .ok v b' fr' ↔ b = tok ++ b' ∧ v = .bytes tok ∧ fr' = fr := by
  rw [run_tok h]
  constructor
  · intro h1
    split at h1
    · rename_i hp
      rw [List.isPrefixOf_iff_prefix] at hp
      obtain ⟨r, rfl⟩ := hp
      simp only [List.drop_left, Res.ok.injEq] at h1
      obtain ⟨rfl, rfl, rfl⟩ := h1
      exact ⟨rfl, rfl, rfl⟩
    · cases h1
  · rintro ⟨rfl, rfl, rfl⟩
    simp

theorem tok_append {tok : Bytes} (h : tok.all (fun c => decide (c < 128)) = true) (b : Bytes) (fr : Frame) :
    run o (.lit tok) (tok ++ b) fr = .ok (.bytes tok) b fr := (tok_ok h).2 ⟨rfl, rfl, rfl⟩

theorem tok_fail {tok : Bytes} (h : tok.all (fun c => decide (c < 128)) = true) {b : Bytes} {fr : Frame} :
    run o (.lit tok) b fr = .fail ↔ ¬ tok <+: b := by
  rw [run_tok h, ← List.isPrefixOf_iff_prefix]
  split <;> simp_all

/-! ### Character classes -/

/-- `e` is a class of characters given by a predicate on bytes. -/
structure IsClass (o : Opts) (e : Ex) (P : UInt8 → Bool) : Prop where
  eof : ∀ fr, run o e [] fr = .fail
  no : ∀ c t fr, P c = false → run o e (c :: t) fr = .fail
  yes : ∀ c t fr, P c = true → ∃ x y v, c :: t = x ++ y ∧ x ≠ [] ∧ x.all P = true ∧ run o e (c :: t) fr = .ok v y fr

theorem isClass_pos (x : Bytes) (chars : List Nat) (ranges : List (Nat × Nat)) (P : UInt8 → Bool)
    (h1 : ∀ c : UInt8, P c = clsMatches false chars ranges c.toNat)
    (h2 : ∀ n, 128 ≤ n → clsMatches false chars ranges n = false) : IsClass o (.cls x false chars ranges) P := by
  refine ⟨fun fr => by rw [run_cls]; simp, ?_, ?_⟩
  · intro c t fr hP
    rw [run_cls]
    obtain ⟨x, y, h3, h4, h5, h6, h7⟩ := rune_step c t
    rcases h7 with ⟨h7, h8, h9, h10⟩ | ⟨h7, h8⟩
    · rw [h10, ← h1, hP]; simp
    · rw [h2 _ h8]; simp
  · intro c t fr hP
    rw [run_cls]
    obtain ⟨x, y, h3, h4, h5, h6, h7⟩ := rune_step c t
    rcases h7 with ⟨h7, h8, h9, h10⟩ | ⟨h7, h8⟩
    · refine ⟨[c], t, .bytes (consumed (c :: t) (nextB (c :: t))), rfl, by simp, by simpa using hP, ?_⟩
      rw [h10, ← h1, hP, nextB_ascii h7]; simp
    · rw [h1, h2] at hP
      · cases hP
      · have := h7 c h6
        rw [UInt8.le_iff_toNat_le] at this; exact this

theorem isClass_inv (x : Bytes) (chars : List Nat) (P : UInt8 → Bool)
    (h1 : ∀ c : UInt8, P c = clsMatches true chars [] c.toNat)
    (h2 : ∀ n, 128 ≤ n → clsMatches true chars [] n = true) : IsClass o (.cls x true chars []) P := by
  refine ⟨fun fr => by rw [run_cls]; simp, ?_, ?_⟩
  · intro c t fr hP
    rw [run_cls]
    obtain ⟨x, y, h3, h4, h5, h6, h7⟩ := rune_step c t
    rcases h7 with ⟨h7, h8, h9, h10⟩ | ⟨h7, h8⟩
    · rw [h10, ← h1, hP]; simp
    · rw [h1, h2] at hP
      · cases hP
      · have := h7 c h6
        rw [UInt8.le_iff_toNat_le] at this; exact this
  · intro c t fr hP
    rw [run_cls]
    obtain ⟨x, y, h3, h4, h5, h6, h7⟩ := rune_step c t
    refine ⟨x, y, .bytes (consumed (c :: t) (nextB (c :: t))), h3, h4, ?_, ?_⟩
    · rcases h7 with ⟨h7, rfl, h9, h10⟩ | ⟨h7, h8⟩
      · simpa using hP
      · rw [List.all_eq_true]
        intro z hz
        rw [h1, h2]
        have := h7 z hz
        rw [UInt8.le_iff_toNat_le] at this; exact this
    · rw [h5]
      have : clsMatches true chars [] (decodeRune (c :: t)).1 = true := by
        rcases h7 with ⟨h7, rfl, h9, h10⟩ | ⟨h7, h8⟩
        · rw [h10, ← h1, hP]
        · exact h2 _ h8
      rw [this]; simp

theorem dropWhile_append_all {P : UInt8 → Bool} {x : Bytes} (y : Bytes) (h : x.all P = true) :
    (x ++ y).dropWhile P = y.dropWhile P := by
  induction x with
  | nil => rfl
  | cons c x ih =>
    simp only [List.all_cons, Bool.and_eq_true] at h
    simp [List.dropWhile, h.1, ih h.2]

theorem takeWhile_append_all {P : UInt8 → Bool} {x : Bytes} (y : Bytes) (h : x.all P = true) :
    (x ++ y).takeWhile P = x ++ y.takeWhile P := by
  induction x with
  | nil => rfl
  | cons c x ih =>
    simp only [List.all_cons, Bool.and_eq_true] at h
    simp [List.takeWhile, h.1, ih h.2]

/-- Repetition of a class. -/
theorem IsClass.star {e : Ex} {P : UInt8 → Bool} (h : IsClass o e P) (b : Bytes) (fr : Frame) :
    ∃ v, run o (.star e) b fr = .ok v (b.dropWhile P) fr := by
  obtain ⟨n, hn⟩ : ∃ n, b.length ≤ n := ⟨_, Nat.le_refl _⟩
  induction n generalizing b with
  | zero =>
    have : b = [] := by simpa using hn
    subst this
    exact ⟨.list [], by rw [run_star, h.eof]; rfl⟩
  | succ n ih =>
    cases b with
    | nil => exact ⟨.list [], by rw [run_star, h.eof]; rfl⟩
    | cons c t =>
      cases hP : P c with
      | false => exact ⟨.list [], by rw [run_star, h.no c t [] hP]; simp [List.dropWhile, hP]⟩
      | true =>
        obtain ⟨x, y, v, h1, h2, h3, h4⟩ := h.yes c t [] hP
        have hl : y.length ≤ n := by
          have := congrArg List.length h1
          simp at this hn
          cases x with
          | nil => exact absurd rfl h2
          | cons d x => simp at this; omega
        obtain ⟨w, hw⟩ := ih y hl
        obtain ⟨_, vs, rfl, _, _⟩ := star_ok.1 hw
        refine ⟨.list (v :: vs), ?_⟩
        rw [run_star, h4]
        simp only [hw, Res.consV]
        rw [h1, dropWhile_append_all y h3]

theorem IsClass.star' {e : Ex} {P : UInt8 → Bool} (h : IsClass o e P) (b : Bytes) :
    ∃ v, ∀ fr, run o (.star e) b fr = .ok v (b.dropWhile P) fr := by
  obtain ⟨v, hv⟩ := h.star b []
  obtain ⟨_, vs, rfl, h1, h2⟩ := star_ok.1 hv
  exact ⟨_, fun fr => star_of_steps fr h1 h2⟩

/-- Repetition of a class, at least once. -/
theorem IsClass.plus_yes {e : Ex} {P : UInt8 → Bool} (h : IsClass o e P) {c : UInt8} (t : Bytes) (fr : Frame)
    (hc : P c = true) : ∃ v, run o (.plus e) (c :: t) fr = .ok v ((c :: t).dropWhile P) fr := by
  obtain ⟨x, y, v, h1, h2, h3, h4⟩ := h.yes c t [] hc
  obtain ⟨w, hw⟩ := h.star (o := o) y fr
  obtain ⟨_, vs, rfl, _, _⟩ := star_ok.1 hw
  refine ⟨.list (v :: vs), ?_⟩
  rw [run_plus, h4]
  simp only [hw, Res.consV]
  rw [h1, dropWhile_append_all y h3]

theorem IsClass.plus_eof {e : Ex} {P : UInt8 → Bool} (h : IsClass o e P) (fr : Frame) :
    run o (.plus e) [] fr = .fail := by rw [run_plus, h.eof]

theorem IsClass.plus_no {e : Ex} {P : UInt8 → Bool} (h : IsClass o e P) {c : UInt8} (t : Bytes) (fr : Frame)
    (hc : P c = false) : run o (.plus e) (c :: t) fr = .fail := by rw [run_plus, h.no c t [] hc]

theorem cls_le {chars : List Nat} {ranges : List (Nat × Nat)} (h1 : chars.all (· < 128) = true)
    (h2 : ranges.all (fun p => p.2 < 128) = true) (n : Nat) (hn : 128 ≤ n) :
    clsMatches false chars ranges n = false := by
  simp only [clsMatches, Bool.bne_false, Bool.or_eq_false_iff]
  constructor
  · rw [Bool.eq_false_iff]
    intro hc
    rw [List.contains_iff_mem] at hc
    have := (List.all_eq_true.1 h1) n hc
    simp at this; omega
  · rw [Bool.eq_false_iff]
    intro hc
    rw [List.any_eq_true] at hc
    obtain ⟨p, hp, hc⟩ := hc
    have := (List.all_eq_true.1 h2) p hp
    simp at this hc; omega

theorem cls_inv_ge {chars : List Nat} (h1 : chars.all (· < 128) = true) (n : Nat) (hn : 128 ≤ n) :
    clsMatches true chars [] n = true := by
  have := cls_le (ranges := []) h1 (by simp) n hn
  simp only [clsMatches] at this ⊢
  simp at this ⊢; exact this

theorem class_ws : IsClass o (.cls b!"[ \\t\\r\\n]" false [32, 9, 13, 10] []) isWs :=
  isClass_pos _ _ _ _ (by decide +kernel) (cls_le (by decide) (by decide))

theorem class_body : IsClass o (.cls b!"[^\\r\\n]" true [13, 10] []) (fun c => c != 13 && c != 10) :=
  isClass_inv _ _ _ (by decide +kernel) (cls_inv_ge (by decide))

theorem class_sel : IsClass o (.cls b!"[^][,]" true [93, 91, 44] []) isSelChar :=
  isClass_inv _ _ _ (by decide +kernel) (cls_inv_ge (by decide))

theorem class_name : IsClass o (.cls b!"[_-A-Za-z0-9]" false [95, 45] [(65, 90), (97, 122), (48, 57)]) isNameChar :=
  isClass_pos _ _ _ _ (by decide +kernel) (cls_le (by decide) (by decide))

theorem class_wordStart : IsClass o (.cls b!"[_A-Za-z]" false [95] [(65, 90), (97, 122)]) isWordStart :=
  isClass_pos _ _ _ _ (by decide +kernel) (cls_le (by decide) (by decide))

theorem class_word : IsClass o (.cls b!"[_A-Za-z0-9]" false [95] [(65, 90), (97, 122), (48, 57)]) isWordChar :=
  isClass_pos _ _ _ _ (by decide +kernel) (cls_le (by decide) (by decide))

theorem class_digit : IsClass o (.cls b!"[0-9]" false [] [(48, 57)]) Spec.isDigit :=
  isClass_pos _ _ _ _ (by decide +kernel) (cls_le (by decide) (by decide))

theorem class_ltgt : IsClass o (.cls b!"[<>]" false [60, 62] []) (fun c => c == 60 || c == 62) :=
  isClass_pos _ _ _ _ (by decide +kernel) (cls_le (by decide) (by decide))

/-! ### End of input, whitespace -/

theorem run_eof (b : Bytes) (fr : Frame) : run o G.eof b fr = if b = [] then .ok .nil b fr else .fail := by
  rw [G.eof, run_not, run_any]
  by_cases h : b = []
  · simp [h]
  · simp [h]

theorem consumed_dropWhile (P : UInt8 → Bool) (b : Bytes) : consumed b (b.dropWhile P) = b.takeWhile P := by
  have := consumed_append (b.takeWhile P) (b.dropWhile P)
  rwa [List.takeWhile_append_dropWhile] at this

theorem run_ws (b : Bytes) (fr : Frame) :
    run o G.whitespace b fr = if (b.takeWhile isWs).isEmpty then .fail else .ok .ws (b.dropWhile isWs) fr := by
  rw [G.whitespace, run_action]
  cases b with
  | nil => rw [class_ws.plus_eof]; simp
  | cons c t =>
    cases hc : isWs c with
    | false => rw [class_ws.plus_no t fr hc]; simp [List.takeWhile, hc]
    | true =>
      obtain ⟨v, hv⟩ := class_ws.plus_yes (o := o) t fr hc
      rw [hv]
      simp [actR, runAct, List.takeWhile, hc]

end

end Verif
