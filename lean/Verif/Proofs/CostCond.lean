import Verif.Proofs.CostVal
/-
The cost of conditions.
-/
namespace Verif
open Spec

theorem array_cost' (b : Bytes) : wp (.ref .array) b (brR 91 b) := array_cost b fun s _ h => value_cost s h
theorem plugin_cost' (b : Bytes) : wp (.ref .plugin) b (plugR b) := plugin_cost b fun s _ h => value_cost s h

theorem gr_suffix (b : Bytes) : gr b <:+ b := ⟨(gapOf b).1.text, (gapOf_spec b).1.symm⟩

/-- An array ends with its bracket. -/
theorem array_closes (b : Bytes) : wp (.ref .array) b (fun _ r => ∀ b', r = .ok b' → ∃ t, b = 91 :: t ∧ 93 :: b' <:+ t) := by
  refine wp_ref (wp_action (wp_seq_cons (wp_chr (c := 91) (by decide) ?_ fun _ b' h => by cases h)))
  rintro s rfl
  refine wp_seq_cons (wp_mono (wp_suffix (P := fun _ _ => True) fun _ _ _ => trivial) ?_)
  rintro n r ⟨_, h⟩
  cases r with
  | ok b1 =>
    have h1 := h b1 rfl
    refine close_cost (by decide) (fun j t _ ht => ?_) (fun j _ _ => ?_)
    · intro b' hb
      cases hb
      exact ⟨s, rfl, ht ▸ (gr_suffix b1).trans h1⟩
    · intro b' hb; cases hb
  | fail => intro b' hb; cases hb
  | fatal => intro b' hb; cases hb

theorem selScan_array {b b' : Bytes} {n : Nat} (h : Cost (.ref .array) b n (.ok b')) : selScan b + b'.length ≤ b.length := by
  obtain ⟨t, rfl, u, rfl⟩ := array_closes b n _ h b' rfl
  have : (u ++ 93 :: b').dropWhile isSelChar = u.dropWhile isSelChar ++ 93 :: b' := dropWhile_append_stop _ (by decide)
  show (u ++ 93 :: b').length - ((u ++ 93 :: b').dropWhile isSelChar).length + b'.length ≤ _
  rw [this]
  simp; omega

/-! ### Plugin headers -/

/-- Name characters, a gap, an opening brace: what a plugin starts with. -/
def Hd (b : Bytes) : Prop := (gr (dn b)).head? = some 123
instance (b : Bytes) : Decidable (Hd b) := by unfold Hd; infer_instance

/-- How far the evaluation of a condition may look: to the end, but not over the brace of a plugin header. -/
def hl (b : Bytes) : Nat := if Hd b then lv b else b.length + 1

theorem hl_le (b : Bytes) : hl b ≤ b.length + 1 := by
  have := lv_le b
  unfold hl; split <;> omega

theorem gl_le_hl (b : Bytes) : gl b ≤ hl b := by
  have := gl_le b
  have := gl_le_lv b
  unfold hl; split <;> omega

theorem Hd.lv {b : Bytes} (h : Hd b) : lv b + (gr (dn b)).length = b.length + 1 := by
  have h1 := gl_nd (b := dn b) (by unfold Hd at h; rw [h]; simp)
  have := dn_len b
  unfold Verif.lv; omega

/-- The input `b'` is what is left of `b`, and if `b` starts with a plugin header then `b'` starts inside it. -/
def Stay (b b' : Bytes) : Prop := b'.length ≤ b.length ∧ (Hd b → gr (dn b') = gr (dn b))

theorem Stay.refl (b : Bytes) : Stay b b := ⟨Nat.le_refl _, fun _ => rfl⟩
theorem Stay.hd {b b' : Bytes} (h : Stay b b') (hb : Hd b) : Hd b' := by unfold Hd; rw [h.2 hb]; exact hb
theorem Stay.trans {b b' b'' : Bytes} (h : Stay b b') (h2 : Stay b' b'') : Stay b b'' :=
  ⟨by have := h.1; have := h2.1; omega, fun hb => (h2.2 (h.hd hb)).trans (h.2 hb)⟩
theorem Stay.hl {b b' : Bytes} (h : Stay b b') : hl b' + b.length ≤ hl b + b'.length := by
  have h0 := h.1
  unfold Verif.hl
  by_cases hb : Hd b
  · have h1 := (h.hd hb).lv
    have h2 := hb.lv
    rw [if_pos hb, if_pos (h.hd hb)]
    rw [h.2 hb] at h1
    omega
  · rw [if_neg hb]
    have := hl_le b'
    unfold Verif.hl at this
    omega

/-- No header starts like this. -/
def noHd (c : UInt8) : Bool := !Spec.isNameChar c && !isWs c && c != 35 && c != 123

theorem noHd_not {c : UInt8} {t : Bytes} (h : noHd c = true) : ¬ Hd (c :: t) := by
  simp only [noHd, Bool.and_eq_true, Bool.not_eq_true', bne_iff_ne, ne_eq] at h
  obtain ⟨⟨⟨h1, h2⟩, h3⟩, h4⟩ := h
  unfold Hd
  rw [dn_cons h1, gr_cons h2 h3]
  simpa using h4

theorem Stay.no {c : UInt8} {b b' : Bytes} (h : b.head? = some c) (hc : noHd c = true) (hl : b'.length ≤ b.length) : Stay b b' := by
  refine ⟨hl, fun hb => ?_⟩
  cases b with
  | nil => cases h
  | cons d t =>
    simp only [List.head?_cons, Option.some.injEq] at h
    subst h
    exact absurd hb (noHd_not hc)

theorem Stay.dn {b b' : Bytes} (h : Verif.dn b' = Verif.dn b) (hl : b'.length ≤ b.length) : Stay b b' := ⟨hl, fun _ => by rw [h]⟩

theorem Stay.gap (b : Bytes) : Stay b (gr b) := by
  refine ⟨gr_len b, fun hb => ?_⟩
  rcases cgap_head b with h | ⟨c, t, rfl, hc⟩
  · rw [h]
  · unfold Hd at hb
    rw [dn_cons (ws_not_name hc)] at hb ⊢
    cases hg : gr (c :: t) with
    | nil => rw [hg] at hb; cases hb
    | cons d u =>
      rw [hg] at hb
      simp only [List.head?_cons, Option.some.injEq] at hb
      subst hb
      rw [dn_cons (by decide), gr_cons (by decide) (by decide)]

/-- Tokens that do not lead out of a header. -/
def tokStay (tok : Bytes) : Bool := tok.all Spec.isNameChar || (match tok with | c :: _ => noHd c | [] => false)

theorem dn_tok {tok t : Bytes} (h : tok.all Spec.isNameChar = true) : dn (tok ++ t) = dn t := by
  induction tok with
  | nil => rfl
  | cons c u ih =>
    simp only [List.all_cons, Bool.and_eq_true] at h
    show (c :: (u ++ t)).dropWhile _ = _
    rw [List.dropWhile_cons_of_pos h.1]
    exact ih h.2

theorem Stay.tok {tok t : Bytes} (h : tokStay tok = true) : Stay (tok ++ t) t := by
  simp only [tokStay, Bool.or_eq_true] at h
  rcases h with h | h
  · exact .dn (dn_tok h).symm (by simp)
  · cases tok with
    | nil => cases h
    | cons c u => exact .no (c := c) rfl h (by simp; omega)

/-- The first character of an operand. -/
def rvStart (c : UInt8) : Bool := Spec.isNameChar c || c == 34 || c == 39 || c == 91 || c == 47

/-- What an operand costs. -/
def rvR (b : Bytes) (n : Nat) : CR → Prop
  | .ok b' => b'.length < b.length ∧ n ≤ 3200 * (b.length - b'.length) + selScan b' ∧ (∃ c t, b = c :: t ∧ rvStart c = true) ∧ Stay b b'
  | .fail => n ≤ 200
  | .fatal => n ≤ 21000 * (b.length + 1) ∧ ∃ c t, b = c :: t ∧ rvStart c = true

theorem head_cons {b : Bytes} {c : UInt8} (h : b.head? = some c) : ∃ t, b = c :: t := by
  cases b with
  | nil => cases h
  | cons d t => simp only [List.head?_cons, Option.some.injEq] at h; exact ⟨t, by rw [h]⟩

theorem rvStart_of_head {b : Bytes} {c : UInt8} (h : b.head? = some c) (hc : rvStart c = true) :
    ∃ c t, b = c :: t ∧ rvStart c = true := by
  obtain ⟨t, rfl⟩ := head_cons h
  exact ⟨c, t, rfl, hc⟩

theorem string_head {b : Bytes} (h : ¬ (b.head? ≠ some 34 ∧ b.head? ≠ some 39)) : b.head? = some 34 ∨ b.head? = some 39 := by
  by_cases hh : b.head? = some 34
  · exact .inl hh
  · exact .inr (Classical.byContradiction fun h4 => h ⟨hh, h4⟩)

theorem string_stay {b b' : Bytes} (h : ¬ (b.head? ≠ some 34 ∧ b.head? ≠ some 39)) (hl : b'.length ≤ b.length) : Stay b b' := by
  rcases string_head h with h | h
  · exact .no h (by decide) hl
  · exact .no h (by decide) hl

theorem string_start {b : Bytes} (h : ¬ (b.head? ≠ some 34 ∧ b.head? ≠ some 39)) : ∃ c t, b = c :: t ∧ rvStart c = true := by
  rcases string_head h with h | h
  · exact rvStart_of_head h (by decide)
  · exact rvStart_of_head h (by decide)

/-- `rvalue`. -/
theorem rvalue_cost (b : Bytes) : wp (.ref .rvalue) b (rvR b) := by
  refine wp_ref (wp_choice_cons (wp_mono (string_cost b) ?_))
  intro n r h
  cases r with
  | ok b' =>
    simp only [tokR, onFail_ok, rvR, reduceCtorEq, false_iff] at h ⊢
    exact ⟨by omega, by omega, string_start h.2, string_stay h.2 (by omega)⟩
  | fatal => simp only [tokR, onFail_fatal, rvR, reduceCtorEq, false_iff] at h ⊢; exact ⟨by omega, string_start h.2⟩
  | fail =>
  simp only [tokR, true_iff] at h
  refine wp_choice_cons (wp_mono (number_cost b) ?_)
  intro n1 r h1
  cases r with
  | ok b' =>
    simp only [onFail_ok, rvR] at h1 ⊢
    obtain ⟨c, t, hb, hc⟩ := dn_ne h1.2.2.1
    refine ⟨by omega, by omega, ⟨c, t, hb, by simp [rvStart, hc]⟩, ?_⟩
    rcases h1.2.2.2 with h | ⟨u, hu, _⟩
    · exact .dn h (by omega)
    · refine ⟨by omega, fun hh => ?_⟩
      unfold Hd at hh
      rw [hu, gr_cons (by decide) (by decide)] at hh
      cases hh
  | fatal => exact h1.elim
  | fail =>
  simp only at h1
  refine wp_choice_cons (wp_mono (selector_cost b) ?_)
  intro n2 r h2
  cases r with
  | ok b' =>
    simp only [onFail_ok, rvR] at h2 ⊢
    exact ⟨by omega, by omega, rvStart_of_head h2.2.2 (by decide), .no h2.2.2 (by decide) (by omega)⟩
  | fatal => exact h2.elim
  | fail =>
  simp only at h2
  refine wp_choice_cons ?_
  intro n3 r hc
  have h3 := array_cost' b n3 r hc
  cases r with
  | ok b' =>
    have h4 := selScan_array hc
    simp only [onFail_ok, rvR, brR] at h3 ⊢
    exact ⟨by omega, by omega, rvStart_of_head h3.2.2 (by decide), .no h3.2.2 (by decide) (by omega)⟩
  | fatal =>
    simp only [onFail_fatal, rvR, brR] at h3 ⊢
    have := selScan_le b
    exact ⟨by omega, rvStart_of_head h3.2 (by decide)⟩
  | fail =>
  simp only [brR] at h3
  have hs := selScan_ne h3.2
  refine wp_choice_cons (wp_mono (regexp_cost b) ?_)
  intro n4 r h4
  cases r with
  | ok b' =>
    simp only [tokR, onFail_ok, rvR, reduceCtorEq, false_iff, Classical.not_not] at h4 ⊢
    exact ⟨by omega, by omega, rvStart_of_head h4.2 (by decide), .no h4.2 (by decide) (by omega)⟩
  | fatal =>
    simp only [tokR, onFail_fatal, rvR, reduceCtorEq, false_iff, Classical.not_not] at h4 ⊢
    exact ⟨by omega, rvStart_of_head h4.2 (by decide)⟩
  | fail =>
  simp only [tokR, true_iff] at h4
  refine wp_choice_cons (wp_pushError (wp_choice_nil ?_))
  simp only [rvR]
  omega

/-! ### Operators -/

/-- An operator that is there or not. -/
def opR (p : Bytes → Bool) (b : Bytes) (n : Nat) : CR → Prop
  | .ok b' => b'.length + 1 ≤ b.length ∧ n ≤ 20 ∧ p b = true ∧ Stay b b'
  | .fail => n ≤ 20
  | .fatal => False

/-- The input starts with `in`. -/
def isIn (b : Bytes) : Bool := b!"in".isPrefixOf b
/-- The input starts with `not `. -/
def isNot (b : Bytes) : Bool := b!"not ".isPrefixOf b
/-- The input starts with a comparison operator. -/
def isCmp (b : Bytes) : Bool := b!"==".isPrefixOf b || b!"!=".isPrefixOf b || b!"<=".isPrefixOf b || b!">=".isPrefixOf b ||
  b!"<".isPrefixOf b || b!">".isPrefixOf b
/-- The input starts with a regexp operator. -/
def isRe (b : Bytes) : Bool := b!"=~".isPrefixOf b || b!"!~".isPrefixOf b
/-- The input starts with a boolean operator. -/
def isBool (b : Bytes) : Bool := b!"and".isPrefixOf b || b!"or".isPrefixOf b || b!"xor".isPrefixOf b || b!"nand".isPrefixOf b

theorem isPrefixOf_append (x y : Bytes) : x.isPrefixOf (x ++ y) = true := by
  rw [List.isPrefixOf_iff_prefix]; exact ⟨y, rfl⟩

/-- One alternative of an operator. -/
theorem wp_alt {tok : Bytes} {es : List Ex} {b : Bytes} {P : Nat → CR → Prop}
    (h : tok.all (fun c => decide (c < 128)) = true) (h0 : tok ≠ [])
    (h1 : ∀ b', b'.length + 1 ≤ b.length → tok.isPrefixOf b = true → (tokStay tok = true → Stay b b') → P 2 (.ok b'))
    (h2 : tok.isPrefixOf b = false → wp (.choice es) b (fun m r => P (1 + m) r)) : wp (.choice (.lit tok :: es)) b P := by
  refine wp_choice_cons (wp_tok h ?_ fun hb => ?_)
  · rintro b' rfl
    refine h1 b' ?_ (isPrefixOf_append _ _) Stay.tok
    cases tok with
    | nil => exact absurd rfl h0
    | cons c t => simp
  · refine h2 ?_
    rw [Bool.eq_false_iff]
    intro hh
    exact hb (List.isPrefixOf_iff_prefix.1 hh)

theorem inOp_cost (b : Bytes) : wp G.inOperator b (fun n r => opR isIn b n r ∧ (r = .fail ↔ isIn b = false)) := by
  refine wp_alt (by decide) (by decide) ?_ fun h => ?_
  · intro b' h1 h2 h3; exact ⟨⟨h1, by omega, h2, h3 (by decide)⟩, by simp [isIn, h2]⟩
  · refine wp_choice_cons (wp_pushError (wp_choice_nil ⟨by simp [opR], by simp [isIn, h]⟩))

theorem cmpOp_cost (b : Bytes) : wp G.compareOperator b (fun n r => opR isCmp b n r ∧ (r = .fail ↔ isCmp b = false)) := by
  refine wp_action ?_
  refine wp_alt (by decide) (by decide) ?_ fun h => ?_
  · intro b' h1 h2 h3; exact ⟨⟨h1, by omega, by simp [isCmp, h2], h3 (by decide)⟩, by simp [isCmp, h2]⟩
  refine wp_alt (by decide) (by decide) ?_ fun h' => ?_
  · intro b' h1 h2 h3; exact ⟨⟨h1, by omega, by simp [isCmp, h2], h3 (by decide)⟩, by simp [isCmp, h2]⟩
  refine wp_alt (by decide) (by decide) ?_ fun h'' => ?_
  · intro b' h1 h2 h3; exact ⟨⟨h1, by omega, by simp [isCmp, h2], h3 (by decide)⟩, by simp [isCmp, h2]⟩
  refine wp_alt (by decide) (by decide) ?_ fun h''' => ?_
  · intro b' h1 h2 h3; exact ⟨⟨h1, by omega, by simp [isCmp, h2], h3 (by decide)⟩, by simp [isCmp, h2]⟩
  refine wp_choice_cons (wp_class class_ltgt ?_ ?_)
  · intro hb
    have h6 : isCmp b = false := by
      cases b with
      | nil => rfl
      | cons c t =>
        have := hb c t rfl
        simp only [Bool.or_eq_false_iff, beq_eq_false_iff_ne] at this
        have e1 : ¬ (60 : UInt8) = c := fun hh => this.1 hh.symm
        have e2 : ¬ (62 : UInt8) = c := fun hh => this.2 hh.symm
        simp only [isCmp, h, h', h'', h''', Bool.false_or]
        simp [List.isPrefixOf, e1, e2]
    exact wp_choice_cons (wp_pushError (wp_choice_nil ⟨by simp [opR], by simp [h6]⟩))
  · intro c y hc hp hl _ _
    have h6 : isCmp b = true := by
      obtain ⟨t, rfl⟩ := head_cons hc
      simp only [Bool.or_eq_true, beq_iff_eq] at hp
      rcases hp with rfl | rfl <;> simp [isCmp, List.isPrefixOf]
    have h7 : noHd c = true := by
      simp only [Bool.or_eq_true, beq_iff_eq] at hp
      rcases hp with rfl | rfl <;> decide
    exact ⟨⟨by omega, by omega, h6, .no hc h7 (by omega)⟩, by simp [h6]⟩

theorem reOp_cost (b : Bytes) : wp G.regexpOperator b (fun n r => opR isRe b n r ∧ (r = .fail ↔ isRe b = false)) := by
  refine wp_action ?_
  refine wp_alt (by decide) (by decide) ?_ fun h => ?_
  · intro b' h1 h2 h3; exact ⟨⟨h1, by omega, by simp [isRe, h2], h3 (by decide)⟩, by simp [isRe, h2]⟩
  refine wp_alt (by decide) (by decide) ?_ fun h' => ?_
  · intro b' h1 h2 h3; exact ⟨⟨h1, by omega, by simp [isRe, h2], h3 (by decide)⟩, by simp [isRe, h2]⟩
  exact wp_choice_cons (wp_pushError (wp_choice_nil ⟨by simp [opR], by simp [isRe, h, h']⟩))

theorem boolOp_cost (b : Bytes) : wp G.booleanOperator b (fun n r => opR isBool b n r ∧ (r = .fail ↔ isBool b = false)) := by
  refine wp_action ?_
  refine wp_alt (by decide) (by decide) ?_ fun h => ?_
  · intro b' h1 h2 h3; exact ⟨⟨h1, by omega, by simp [isBool, h2], h3 (by decide)⟩, by simp [isBool, h2]⟩
  refine wp_alt (by decide) (by decide) ?_ fun h' => ?_
  · intro b' h1 h2 h3; exact ⟨⟨h1, by omega, by simp [isBool, h2], h3 (by decide)⟩, by simp [isBool, h2]⟩
  refine wp_alt (by decide) (by decide) ?_ fun h'' => ?_
  · intro b' h1 h2 h3; exact ⟨⟨h1, by omega, by simp [isBool, h2], h3 (by decide)⟩, by simp [isBool, h2]⟩
  refine wp_alt (by decide) (by decide) ?_ fun h''' => ?_
  · intro b' h1 h2 h3; exact ⟨⟨h1, by omega, by simp [isBool, h2], h3 (by decide)⟩, by simp [isBool, h2]⟩
  exact wp_choice_cons (wp_pushError (wp_choice_nil ⟨by simp [opR], by simp [isBool, h, h', h'', h''']⟩))

theorem stay_not (s : Bytes) : Stay (b!"not " ++ s) s := by
  refine ⟨by simp; omega, fun hb => ?_⟩
  have h1 : dn (b!"not " ++ s) = 32 :: s := by
    show dn (b!"not" ++ 32 :: s) = _
    rw [dn_tok (by decide), dn_cons (by decide)]
  have h2 : gr (32 :: s) = gr s := by
    rw [← gr_dropWs (32 :: s), ← gr_dropWs s, List.dropWhile_cons_of_pos (by decide)]
  unfold Hd at hb
  rw [h1, h2] at hb ⊢
  obtain ⟨t, ht⟩ : ∃ t, gr s = 123 :: t := by
    cases hg : gr s with
    | nil => rw [hg] at hb; cases hb
    | cons c t => rw [hg] at hb; simp only [List.head?_cons, Option.some.injEq] at hb; exact ⟨t, by rw [hb]⟩
  rw [dn_gap]
  rw [ht, dn_cons (by decide)]

theorem hl_pos (b : Bytes) : 1 ≤ hl b := by
  have := gl_pos b
  have := gl_le_hl b
  omega

theorem notInOp_cost (b : Bytes) : wp G.notInOperator b (fun n r => match r with
    | .ok b' => b'.length + 1 ≤ b.length ∧ n ≤ 100 * (b.length - b'.length) ∧ isNot b = true ∧ Stay b b'
    | .fail => n ≤ 100 * hl b ∧ (isNot b = false → n ≤ 20)
    | .fatal => False) := by
  refine wp_choice_cons (wp_seq_cons (wp_tok (by decide) ?_ fun h => ?_))
  · rintro s rfl
    refine wp_gapS fun n hn => ?_
    have hgl := gl_le s
    have hg := gr_len s
    have hi : isNot (b!"not " ++ s) = true := isPrefixOf_append _ _
    have hst := stay_not s
    have hlt := hst.hl
    have hgh := gl_le_hl s
    refine wp_seq_cons (wp_tok (by decide) ?_ fun _ => ?_)
    · intro b' hb
      have h2 := gl_bound hb (by decide)
      have hst2 := hst.trans ((Stay.gap s).trans (hb ▸ Stay.tok (tok := b!"in") (t := b') (by decide)))
      rw [hb] at hg
      refine wp_seq_nil ?_
      simp at h2 hg ⊢
      exact ⟨by omega, by omega, hi, hst2⟩
    · refine wp_choice_cons (wp_pushError (wp_choice_nil ?_))
      simp at hlt ⊢
      exact ⟨by omega, fun h => by rw [show isNot (110 :: 111 :: 116 :: 32 :: s) = true from hi] at h; cases h⟩
  · exact wp_choice_cons (wp_pushError (wp_choice_nil ⟨by have := hl_pos b; omega, fun _ => by omega⟩))

/-! ### Expressions with an operator -/

theorem rvStart_nd {b : Bytes} (h : ∃ c t, b = c :: t ∧ rvStart c = true) : b.head? ≠ some 35 := by
  obtain ⟨c, t, rfl, hc⟩ := h
  simp only [List.head?_cons, ne_eq, Option.some.injEq]
  rintro rfl
  exact absurd hc (by decide)

/-- The right operand of a regexp operator. -/
theorem strRe_cost (b : Bytes) : wp (.choice [G.stringValue, G.regexp]) b (rvR b) := by
  refine wp_choice_cons (wp_mono (string_cost b) ?_)
  intro n r h
  cases r with
  | ok b' =>
    simp only [tokR, onFail_ok, rvR, reduceCtorEq, false_iff] at h ⊢
    exact ⟨by omega, by omega, string_start h.2, string_stay h.2 (by omega)⟩
  | fatal => simp only [tokR, onFail_fatal, rvR, reduceCtorEq, false_iff] at h ⊢; exact ⟨by omega, string_start h.2⟩
  | fail =>
  simp only [tokR, true_iff] at h
  refine wp_choice_cons (wp_mono (regexp_cost b) ?_)
  intro n4 r h4
  cases r with
  | ok b' =>
    simp only [tokR, onFail_ok, rvR, reduceCtorEq, false_iff, Classical.not_not] at h4 ⊢
    exact ⟨by omega, by omega, rvStart_of_head h4.2 (by decide), .no h4.2 (by decide) (by omega)⟩
  | fatal =>
    simp only [tokR, onFail_fatal, rvR, reduceCtorEq, false_iff, Classical.not_not] at h4 ⊢
    exact ⟨by omega, rvStart_of_head h4.2 (by decide)⟩
  | fail =>
  simp only [tokR, true_iff] at h4
  refine wp_choice_nil ?_
  simp only [rvR]
  omega

/-- What an operator costs. -/
def opR' (p : Bytes → Bool) (b : Bytes) (n : Nat) : CR → Prop
  | .ok b' => b'.length + 1 ≤ b.length ∧ n ≤ 101 * (b.length - b'.length) ∧ p b = true ∧ Stay b b'
  | .fail => n ≤ 101 * hl b ∧ (p b = false → n ≤ 30)
  | .fatal => False

theorem opR_opR' {p : Bytes → Bool} {b : Bytes} {n : Nat} {r : CR} (h : opR p b n r) : opR' p b (n + 1) r := by
  cases r with
  | ok b' => simp only [opR, opR'] at h ⊢; exact ⟨by omega, by omega, h.2.2⟩
  | fail => simp only [opR, opR'] at h ⊢; exact ⟨by have := hl_pos b; omega, fun _ => by omega⟩
  | fatal => exact h

/-- What an operator and its right operand cost, after a left operand that leaves `b1`. -/
def binR (p : Bytes → Bool) (b1 : Bytes) (n : Nat) : CR → Prop
  | .ok b' => b'.length + gl b1 ≤ b1.length ∧ n ≤ 4000 * (b1.length - b'.length) + selScan b' ∧ p (gr b1) = true ∧ Stay b1 b'
  | .fail => n ≤ 500 * hl b1 ∧ (p (gr b1) = false → n ≤ 140 * gl b1)
  | .fatal => n ≤ 22000 * (b1.length + 1)

theorem bin_cost {OP R : Ex} {p : Bytes → Bool} (hop : ∀ b, wp OP b (opR' p b)) (hR : ∀ b, wp R b (rvR b))
    (hp : ∀ b, p b = true → b.head? ≠ some 35) (l : Lbl) (b1 : Bytes) :
    wp (.seq [G.gapS, G.warn, OP, G.gapS, G.warn, .labeled l R]) b1 (binR p b1) := by
  refine wp_gapS fun n hn => ?_
  have hgl := gl_le_hl b1
  have hhl := hl_le b1
  have hgp := gl_pos b1
  have hg := gr_len b1
  have hglt := (Stay.gap b1).hl
  refine wp_seq_cons (wp_mono (hop (gr b1)) ?_)
  intro m r h
  cases r with
  | ok b2 =>
    simp only [opR', onOk_ok] at h ⊢
    have hnd := gl_nd (hp _ h.2.2.1)
    have hst := (Stay.gap b1).trans h.2.2.2
    refine wp_gapS fun k hk => ?_
    have hgl2 := gl_le_hl b2
    have hg2 := gr_len b2
    have hlt := hst.hl
    have hlt2 := (Stay.gap b2).hl
    refine wp_seq_cons (wp_labeled (wp_mono (hR (gr b2)) ?_))
    intro j r h2
    cases r with
    | ok b' =>
      simp only [rvR] at h2
      have hnd2 := gl_nd (rvStart_nd h2.2.2.1)
      refine wp_seq_nil ?_
      simp only [binR]
      exact ⟨by omega, by omega, h.2.2.1, hst.trans ((Stay.gap b2).trans h2.2.2.2)⟩
    | fail =>
      simp only [rvR, onOk_fail, binR] at h2 ⊢
      exact ⟨by omega, fun hh => by rw [h.2.2.1] at hh; cases hh⟩
    | fatal =>
      simp only [rvR, onOk_fatal, binR] at h2 ⊢
      have hnd2 := gl_nd (rvStart_nd h2.2)
      omega
  | fail =>
    simp only [opR', onOk_fail, binR] at h ⊢
    exact ⟨by omega, fun hh => by have := h.2 hh; omega⟩
  | fatal => exact h.elim

theorem prefix_head {x : Bytes} {c : UInt8} {b : Bytes} (h : (c :: x).isPrefixOf b = true) : b.head? = some c := by
  rw [List.isPrefixOf_iff_prefix] at h
  obtain ⟨t, rfl⟩ := h
  rfl

theorem isIn_head {b : Bytes} (h : isIn b = true) : b.head? = some 105 := prefix_head h
theorem isNot_head {b : Bytes} (h : isNot b = true) : b.head? = some 110 := prefix_head h
theorem isRe_head {b : Bytes} (h : isRe b = true) : b.head? = some 61 ∨ b.head? = some 33 := by
  simp only [isRe, Bool.or_eq_true] at h
  rcases h with h | h
  · exact .inl (prefix_head h)
  · exact .inr (prefix_head h)
theorem isCmp_head {b : Bytes} (h : isCmp b = true) : b.head? = some 61 ∨ b.head? = some 33 ∨ b.head? = some 60 ∨ b.head? = some 62 := by
  simp only [isCmp, Bool.or_eq_true] at h
  rcases h with ((((h | h) | h) | h) | h) | h
  · exact .inl (prefix_head h)
  · exact .inr (.inl (prefix_head h))
  · exact .inr (.inr (.inl (prefix_head h)))
  · exact .inr (.inr (.inr (prefix_head h)))
  · exact .inr (.inr (.inl (prefix_head h)))
  · exact .inr (.inr (.inr (prefix_head h)))
theorem isBool_head {b : Bytes} (h : isBool b = true) : b.head? = some 97 ∨ b.head? = some 111 ∨ b.head? = some 120 ∨ b.head? = some 110 := by
  simp only [isBool, Bool.or_eq_true] at h
  rcases h with ((h | h) | h) | h
  · exact .inl (prefix_head h)
  · exact .inr (.inl (prefix_head h))
  · exact .inr (.inr (.inl (prefix_head h)))
  · exact .inr (.inr (.inr (prefix_head h)))

theorem in_cost (l : Lbl) (b1 : Bytes) :
    wp (.seq [G.gapS, G.warn, G.inOperator, G.gapS, G.warn, .labeled l (.ref .rvalue)]) b1 (binR isIn b1) :=
  bin_cost (p := isIn) (fun b => wp_mono (inOp_cost b) fun n r h => by
      cases r with
      | ok b' => simp only [opR, opR'] at h ⊢; exact ⟨by omega, by omega, h.1.2.2⟩
      | fail => simp only [opR, opR'] at h ⊢; exact ⟨by have := hl_pos b; omega, fun _ => by omega⟩
      | fatal => exact h.1)
    rvalue_cost (fun b h => by rw [isIn_head h]; simp) l b1

theorem notIn_cost (l : Lbl) (b1 : Bytes) :
    wp (.seq [G.gapS, G.warn, G.notInOperator, G.gapS, G.warn, .labeled l (.ref .rvalue)]) b1 (binR isNot b1) :=
  bin_cost (p := isNot) (fun b => wp_mono (notInOp_cost b) fun n r h => by
      cases r with
      | ok b' => simp only [opR'] at h ⊢; exact ⟨by omega, by omega, h.2.2⟩
      | fail => simp only [opR'] at h ⊢; exact ⟨by omega, fun hh => by have := h.2 hh; omega⟩
      | fatal => exact h)
    rvalue_cost (fun b h => by rw [isNot_head h]; simp) l b1

theorem cmp_cost (l l' : Lbl) (b1 : Bytes) :
    wp (.seq [G.gapS, G.warn, .labeled l G.compareOperator, G.gapS, G.warn, .labeled l' (.ref .rvalue)]) b1 (binR isCmp b1) :=
  bin_cost (p := isCmp) (fun b => wp_labeled (wp_mono (cmpOp_cost b) fun n r h => opR_opR' h.1))
    rvalue_cost (fun b h => by rcases isCmp_head h with h | h | h | h <;> (rw [h]; simp)) l' b1

theorem re_cost (l l' : Lbl) (b1 : Bytes) :
    wp (.seq [G.gapS, G.warn, .labeled l G.regexpOperator, G.gapS, G.warn, .labeled l' (.choice [G.stringValue, G.regexp])]) b1
      (binR isRe b1) :=
  bin_cost (p := isRe) (fun b => wp_labeled (wp_mono (reOp_cost b) fun n r h => opR_opR' h.1))
    strRe_cost (fun b h => by rcases isRe_head h with h | h <;> (rw [h]; simp)) l' b1

theorem re_not_cmp {b : Bytes} (h : isRe b = true) : isCmp b = false := by
  simp only [isRe, Bool.or_eq_true] at h
  rcases h with h | h
  all_goals
    rw [List.isPrefixOf_iff_prefix] at h
    obtain ⟨t, rfl⟩ := h
    rfl

/-! ### What may follow an expression -/

/-- A condition ends here. -/
def isEnd (b : Bytes) : Bool := b.head? == some 41 || b.head? == some 123

/-- A comparison goes on here. -/
def isOp (b : Bytes) : Bool := isIn b || isNot b || isCmp b || isRe b

/-- How far the evaluation of an expression looks behind it. -/
def le (b : Bytes) : Nat := if isOp (gr b) then hl b else gl b + selScan b

theorem gl_le_le (b : Bytes) : gl b ≤ le b := by
  have := gl_le_hl b
  unfold le; split <;> omega

theorem selScan_hd {b : Bytes} (h : Hd b) : selScan b = 0 := by
  apply selScan_ne
  intro hb
  obtain ⟨t, rfl⟩ := head_cons hb
  exact noHd_not (by decide) h

theorem le_hl (b : Bytes) : le b ≤ hl b := by
  have := gl_le_hl b
  unfold le; split
  · omega
  · by_cases h : b.head? = some 91
    · obtain ⟨t, rfl⟩ := head_cons h
      rw [gl_cons (by decide) (by decide)]
      unfold hl
      rw [if_neg (noHd_not (by decide))]
      have := selScan_le (91 :: t)
      simp only [List.length_cons] at this ⊢
      omega
    · rw [selScan_ne h]; omega

theorem le_le (b : Bytes) : le b ≤ b.length + 1 := Nat.le_trans (le_hl b) (hl_le b)

theorem next_head {b : Bytes} (h : (isEnd b || isBool b) = true) :
    ∃ c t, b = c :: t ∧ (c = 41 ∨ c = 123 ∨ c = 97 ∨ c = 111 ∨ c = 120 ∨ c = 110) := by
  simp only [Bool.or_eq_true, isEnd, beq_iff_eq] at h
  rcases h with (h | h) | h
  · obtain ⟨t, rfl⟩ := head_cons h; exact ⟨_, t, rfl, by simp⟩
  · obtain ⟨t, rfl⟩ := head_cons h; exact ⟨_, t, rfl, by simp⟩
  · rcases isBool_head h with h | h | h | h
    all_goals obtain ⟨t, rfl⟩ := head_cons h; exact ⟨_, t, rfl, by simp⟩

theorem head_gr {b : Bytes} {c : UInt8} (h : b.head? = some c) (h1 : isWs c = false) (h2 : c ≠ 35) : (gr b).head? = some c := by
  obtain ⟨t, rfl⟩ := head_cons h
  rw [gr_cons h1 h2]; rfl

theorem selScan_gap {b : Bytes} (h : (gr b).head? ≠ some 91) : selScan b = 0 := by
  apply selScan_ne
  intro hb
  exact h (head_gr hb (by decide) (by decide))

theorem isOp_head {b : Bytes} (h : isOp b = true) : b.head? ≠ some 91 := by
  simp only [isOp, Bool.or_eq_true] at h
  rcases h with ((h | h) | h) | h
  · rw [isIn_head h]; simp
  · rw [isNot_head h]; simp
  · rcases isCmp_head h with h | h | h | h <;> (rw [h]; simp)
  · rcases isRe_head h with h | h <;> (rw [h]; simp)

theorem selScan_le_le (b : Bytes) : selScan b ≤ le b := by
  unfold le
  split
  · rename_i h
    rw [selScan_gap (isOp_head h)]; omega
  · omega

theorem next_no_op {b : Bytes} (h : (isEnd b || isBool b) = true) :
    isIn b = false ∧ isNot b = false ∧ isCmp b = false ∧ isRe b = false := by
  obtain ⟨c, t, rfl, hc⟩ := next_head h
  refine ⟨?_, ?_, ?_, ?_⟩
  · rw [Bool.eq_false_iff]; intro hh
    have := isIn_head hh
    simp only [List.head?_cons, Option.some.injEq] at this
    subst this; revert hc; decide
  · rw [Bool.eq_false_iff]; intro hh
    have h1 := isNot_head hh
    simp only [List.head?_cons, Option.some.injEq] at h1
    subst h1
    simp only [isEnd, List.head?_cons, Bool.or_eq_true, beq_iff_eq, Option.some.injEq] at h
    unfold isNot at hh
    rw [List.isPrefixOf_iff_prefix] at hh
    obtain ⟨u, hu⟩ := hh
    rw [← hu] at h
    rcases h with (h | h) | h
    · revert h; decide
    · revert h; decide
    · revert h; simp [isBool, List.isPrefixOf]
  · rw [Bool.eq_false_iff]; intro hh
    rcases isCmp_head hh with h1 | h1 | h1 | h1
    all_goals
      simp only [List.head?_cons, Option.some.injEq] at h1
      subst h1; revert hc; decide
  · rw [Bool.eq_false_iff]; intro hh
    rcases isRe_head hh with h1 | h1
    all_goals
      simp only [List.head?_cons, Option.some.injEq] at h1
      subst h1; revert hc; decide

theorem le_next {b : Bytes} (h : (isEnd (gr b) || isBool (gr b)) = true) : le b = gl b := by
  obtain ⟨h1, h2, h3, h4⟩ := next_no_op h
  obtain ⟨c, t, h5, h6⟩ := next_head h
  unfold le isOp
  rw [h1, h2, h3, h4, selScan_gap]
  · rfl
  · rw [h5]; simp only [List.head?_cons, ne_eq, Option.some.injEq]; rintro rfl; revert h6; decide

/-- What an expression without parentheses costs. -/
def simpR (b : Bytes) (n : Nat) : CR → Prop
  | .ok b' => b'.length < b.length ∧ n ≤ 17000 * (b.length - b'.length) + 3000 * le b' ∧ (∃ c t, b = c :: t ∧ rvStart c = true) ∧ Stay b b'
  | .fail => n ≤ 1500
  | .fatal => n ≤ 40000 * (b.length + 1) ∧ ∃ c t, b = c :: t ∧ rvStart c = true

/-- The alternatives that start with an operand. -/
def simpleEx : Ex := .choice [.ref .inExpression, .ref .notInExpression, .ref .compareExpression, .ref .regexpExpression,
    .action (.rvalue .rv) (.labeled .rv (.ref .rvalue))]

theorem simple_cost (b : Bytes) : wp simpleEx b (simpR b) := by
  refine wp_choice_cons (wp_ref (wp_action (wp_seq_cons (wp_labeled ?_))))
  intro n1 r hc
  have h1 := rvalue_cost b n1 r hc
  cases r with
  | fatal => simp only [rvR, onOk_fatal, onFail_fatal, simpR] at h1 ⊢; exact ⟨by omega, h1.2⟩
  | fail =>
    simp only [rvR, onOk_fail, onFail_fail] at h1 ⊢
    refine wp_choice_cons (wp_ref (wp_action (wp_seq_cons (wp_labeled (hc.wp ?_)))))
    refine wp_choice_cons (wp_ref (wp_action (wp_seq_cons (wp_labeled (hc.wp ?_)))))
    refine wp_choice_cons (wp_ref (wp_action (wp_seq_cons (wp_labeled (hc.wp ?_)))))
    refine wp_choice_cons (wp_action (wp_labeled (hc.wp ?_)))
    refine wp_choice_nil ?_
    simp only [simpR]
    omega
  | ok b1 =>
  simp only [rvR, onOk_ok] at h1 ⊢
  obtain ⟨h11, h12, h13, hst⟩ := h1
  have hgl := gl_le_hl b1
  have hle := hl_le b1
  have hss := selScan_le b1
  have hsl := selScan_le_le b1
  have hgll := gl_le_le b1
  have hnoSel : ∀ c, (gr b1).head? = some c → c ≠ 91 → selScan b1 = 0 := fun c h hh =>
    selScan_gap (by rw [h]; simpa using hh)
  refine wp_mono (in_cost _ b1) ?_
  intro n2 r h2
  cases r with
  | fatal => simp only [binR, onFail_fatal, simpR] at h2 ⊢; exact ⟨by omega, h13⟩
  | ok b' =>
    simp only [binR, onFail_ok, simpR] at h2 ⊢
    have hs := hnoSel _ (isIn_head h2.2.2.1) (by decide)
    have := selScan_le_le b'
    exact ⟨by omega, by omega, h13, hst.trans h2.2.2.2⟩
  | fail =>
  simp only [binR, onFail_fail] at h2 ⊢
  refine wp_choice_cons (wp_ref (wp_action (wp_seq_cons (wp_labeled (hc.wp ?_)))))
  refine wp_mono (notIn_cost _ b1) ?_
  intro n3 r h3
  cases r with
  | fatal => simp only [binR, onFail_fatal, simpR] at h3 ⊢; exact ⟨by omega, h13⟩
  | ok b' =>
    simp only [binR, onFail_ok, simpR] at h3 ⊢
    have hh := isNot_head h3.2.2.1
    have hs := hnoSel _ hh (by decide)
    have hnd := gl_nd (b := b1) (by rw [hh]; simp)
    have hg := gr_len b1
    have hin : isIn (gr b1) = false := by
      rw [Bool.eq_false_iff]; intro hi
      rw [isIn_head hi] at hh; revert hh; decide
    have h4 := h2.2 hin
    have := selScan_le_le b'
    exact ⟨by omega, by omega, h13, hst.trans h3.2.2.2⟩
  | fail =>
  simp only [binR, onFail_fail] at h3 ⊢
  refine wp_choice_cons (wp_ref (wp_action (wp_seq_cons (wp_labeled (hc.wp ?_)))))
  refine wp_mono (cmp_cost _ _ b1) ?_
  intro n4 r h4
  cases r with
  | fatal => simp only [binR, onFail_fatal, simpR] at h4 ⊢; exact ⟨by omega, h13⟩
  | ok b' =>
    simp only [binR, onFail_ok, simpR] at h4 ⊢
    have hh := isCmp_head h4.2.2.1
    have hs : selScan b1 = 0 := selScan_gap (by rcases hh with h | h | h | h <;> (rw [h]; simp))
    have hin : isIn (gr b1) = false := by
      rw [Bool.eq_false_iff]; intro hi
      rw [isIn_head hi] at hh; revert hh; decide
    have hno : isNot (gr b1) = false := by
      rw [Bool.eq_false_iff]; intro hi
      rw [isNot_head hi] at hh; revert hh; decide
    have := h2.2 hin
    have := h3.2 hno
    have := selScan_le_le b'
    exact ⟨by omega, by omega, h13, hst.trans h4.2.2.2⟩
  | fail =>
  simp only [binR, onFail_fail] at h4 ⊢
  refine wp_choice_cons (wp_ref (wp_action (wp_seq_cons (wp_labeled (hc.wp ?_)))))
  refine wp_mono (re_cost _ _ b1) ?_
  intro n5 r h5
  cases r with
  | fatal => simp only [binR, onFail_fatal, simpR] at h5 ⊢; exact ⟨by omega, h13⟩
  | ok b' =>
    simp only [binR, onFail_ok, simpR] at h5 ⊢
    have hh := isRe_head h5.2.2.1
    have hs : selScan b1 = 0 := selScan_gap (by rcases hh with h | h <;> (rw [h]; simp))
    have hin : isIn (gr b1) = false := by
      rw [Bool.eq_false_iff]; intro hi
      rw [isIn_head hi] at hh; revert hh; decide
    have hno : isNot (gr b1) = false := by
      rw [Bool.eq_false_iff]; intro hi
      rw [isNot_head hi] at hh; revert hh; decide
    have := h2.2 hin
    have := h3.2 hno
    have := h4.2 (re_not_cmp h5.2.2.1)
    have := selScan_le_le b'
    exact ⟨by omega, by omega, h13, hst.trans h5.2.2.2⟩
  | fail =>
  simp only [binR, onFail_fail] at h5 ⊢
  refine wp_choice_cons (wp_action (wp_labeled (hc.wp ?_)))
  simp only [onFail_ok, simpR]
  refine ⟨h11, ?_, h13, hst⟩
  cases hn : isOp (gr b1) with
  | false =>
    have hn' := hn
    simp only [isOp, Bool.or_eq_false_iff] at hn'
    have := h2.2 hn'.1.1.1
    have := h3.2 hn'.1.1.2
    have := h4.2 hn'.1.2
    have := h5.2 hn'.2
    omega
  | true =>
    have : le b1 = hl b1 := by unfold le; rw [hn]; rfl
    omega

end Verif
