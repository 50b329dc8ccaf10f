import Verif.Proofs.AstUtil
/-
Properties C24–C29: package `astutil`, escaping and quoting.
-/
namespace Verif.Props
open Verif Verif.Spec

/-- **C24** `Unescape(Escape(s)) = s` for every byte string. -/
theorem C24_unescape_escape (s : Bytes) : unescape (escape s) = s := unescape_escape s

example : escape b!"a\"b\\\n" = b!"a\\\"b\\\\\\n" ∧ unescape b!"a\\\"b\\\\\\n" = b!"a\"b\\\n" := by
  decide

/-- **C25** the output of `Escape` contains no newline, carriage return or tab. -/
theorem C25_escape_no_control (s : Bytes) : ∀ b ∈ escape s, b ≠ 10 ∧ b ≠ 13 ∧ b ≠ 9 :=
  escape_noControl s

/-- **C25** every quote character in the output of `Escape` is preceded by a backslash. -/
theorem C25_escape_quotes_escaped (s : Bytes) :
    QuotesEscaped 34 (escape s) ∧ QuotesEscaped 39 (escape s) :=
  ⟨escape_quotesEscaped 34 (.inl rfl) s, escape_quotesEscaped 39 (.inr rfl) s⟩

/-- **C25** putting quotes of type `q` around `Escape(s)` gives one complete literal of
the configuration language exactly when `s` does not end in a backslash. -/
theorem C25_escape_is_string_body (q : UInt8) (hq : q = 34 ∨ q = 39) (s : Bytes) :
    StringBody q (escape s) ↔ s.getLast? ≠ some 92 := by
  constructor
  · intro h he; exact h.2 ((escape_getLast s).mpr he)
  · intro h; exact ⟨escape_quotesEscaped q hq s, fun he => h ((escape_getLast s).mp he)⟩

/-- **C25**, the violation: `"` + `Escape("\")` + `"` is not a complete literal (the
grammar does not know the escape sequence `\\`, so the second backslash escapes the
closing quote). -/
theorem C25_violated_trailing_backslash : ¬ StringBody 34 (escape b!"a\\") := by
  rw [C25_escape_is_string_body 34 (.inl rfl)]; decide

example : StringBody 34 (escape b!"say \"hi\"\n") :=
  (C25_escape_is_string_body 34 (.inl rfl) _).mpr (by decide)

/-- **C26** `Quote` never alters the value: a successful result is the value between two
quote characters, or the value itself for barewords. -/
theorem C26_quote_shape (v w : Bytes) (t : Sat) (h : quote v t = .ok w) :
    (t = .doubleQuoted ∧ w = [34] ++ v ++ [34]) ∨ (t = .singleQuoted ∧ w = [39] ++ v ++ [39]) ∨
    (t = .bareword ∧ w = v) := by
  cases t <;> simp only [quote] at h
  · simp at h
  · split at h <;> simp at h; left; exact ⟨rfl, h.symm⟩
  · split at h <;> simp at h; right; left; exact ⟨rfl, h.symm⟩
  · split at h <;> simp at h; right; right; exact ⟨rfl, h.symm⟩

/-- **C26** `Quote` fails for a quoted type exactly when some quote character at index 2
or later is not preceded by a backslash. -/
theorem C26_quote_fails_iff (v : Bytes) (t : Sat) (q : UInt8)
    (ht : (t = .doubleQuoted ∧ q = 34) ∨ (t = .singleQuoted ∧ q = 39)) :
    quote v t = .err ↔ ∃ l r, v = l ++ q :: r ∧ 2 ≤ l.length ∧ ¬ ∃ l', l = l' ++ [92] := by
  have key : quote v t = .err ↔ hasQuoteLoop q 0 0 v = true := by
    rcases ht with ⟨rfl, rfl⟩ | ⟨rfl, rfl⟩ <;> simp only [quote] <;> split <;> simp_all
  rw [key]
  have hz := hasQuoteLoop_zero q v
  constructor
  · intro h
    apply Classical.byContradiction
    intro hn
    have : hasQuoteLoop q 0 0 v = false := by
      apply hz.mpr
      intro l r hv h2
      apply Classical.byContradiction
      intro h3
      exact hn ⟨l, r, hv, h2, h3⟩
    simp [this] at h
  · rintro ⟨l, r, hv, h2, h3⟩
    by_cases hf : hasQuoteLoop q 0 0 v = true
    · exact hf
    · exact absurd (hz.mp (by simpa using hf) l r hv h2) h3

/-- **C26** A successful `Quote` with a quoted type yields one complete literal exactly if the first two bytes
of the value are not unescaped quotes and the value does not end in a backslash. -/
theorem C26_quote_is_string_body (v w : Bytes) (t : Sat) (q : UInt8)
    (ht : (t = .doubleQuoted ∧ q = 34) ∨ (t = .singleQuoted ∧ q = 39)) (h : quote v t = .ok w) :
    w = [q] ++ v ++ [q] ∧
    (StringBody q v ↔ v.head? ≠ some q ∧ (∀ x y, v = x :: q :: y → x = 92) ∧ v.getLast? ≠ some 92) := by
  refine ⟨?_, ?_, ?_⟩
  · rcases C26_quote_shape v w t h with ⟨rfl, rfl⟩ | ⟨rfl, rfl⟩ | ⟨rfl, rfl⟩ <;>
      rcases ht with ⟨ht, rfl⟩ | ⟨ht, rfl⟩ <;> simp_all
  · rintro ⟨hb, hl⟩
    refine ⟨fun h0 => ?_, fun x y hv => ?_, hl⟩
    · cases v with
      | nil => cases h0
      | cons a v =>
        simp only [List.head?_cons, Option.some.injEq] at h0
        subst h0
        obtain ⟨l', hl'⟩ := hb [] v rfl
        simp at hl'
    · obtain ⟨l', hl'⟩ := hb [x] y hv
      cases l' with
      | nil => simpa using hl'
      | cons c l' => simp at hl'
  · rintro ⟨h0, h1, hl⟩
    refine ⟨?_, hl⟩
    intro l r hv
    have hne : quote v t ≠ .err := by rw [h]; simp
    have := mt (C26_quote_fails_iff v t q ht).mpr hne
    match l, hv with
    | [], hv => rw [hv] at h0; simp at h0
    | [x], hv => exact ⟨[], by simp [h1 x r (by simpa using hv)]⟩
    | x :: y :: l, hv =>
      apply Classical.byContradiction
      intro hn
      exact this ⟨x :: y :: l, r, hv, by simp, hn⟩

/-- **C26**, the violation: `Quote` accepts a value starting with a quote character, and
the result is not one literal. -/
theorem C26_violated_leading_quote :
    quote b!"\"x" .doubleQuoted = .ok b!"\"\"x\"" ∧ ¬ StringBody 34 b!"\"x" := by
  refine ⟨by decide, fun h => ?_⟩
  obtain ⟨l', hl'⟩ := h.1 [] b!"x" rfl
  simp at hl'

/-- **C26**, the violation at index 1. -/
theorem C26_violated_quote_at_one :
    quote b!"x\"y" .doubleQuoted = .ok b!"\"x\"y\"" ∧ ¬ StringBody 34 b!"x\"y" := by
  refine ⟨by decide, fun h => ?_⟩
  obtain ⟨l', hl'⟩ := h.1 b!"x" b!"y" rfl
  cases l' with
  | nil => simp at hl'
  | cons c l' => simp at hl'

example : ∃ w, quote b!"ab\\\"c" .doubleQuoted = .ok w ∧ StringBody 34 b!"ab\\\"c" :=
  ⟨_, rfl, (C26_quote_is_string_body b!"ab\\\"c" _ .doubleQuoted 34 (.inl ⟨rfl, rfl⟩) rfl).2.2
    ⟨by decide, by intro x y h; simp at h, by decide⟩⟩

/-- A bareword of the language: `[A-Za-z_][A-Za-z0-9_]+`. -/
def IsBareword (v : Bytes) : Prop :=
  2 ≤ v.length ∧
  (∀ b ∈ v, (65 ≤ b ∧ b ≤ 90) ∨ (97 ≤ b ∧ b ≤ 122) ∨ b = 95 ∨ (48 ≤ b ∧ b ≤ 57)) ∧
  (∀ b t, v = b :: t → ¬ (48 ≤ b ∧ b ≤ 57))

theorem isBwByte_iff : ∀ b : UInt8, isBwByte b = true ↔
    ((65 ≤ b ∧ b ≤ 90) ∨ (97 ≤ b ∧ b ≤ 122) ∨ b = 95 ∨ (48 ≤ b ∧ b ≤ 57)) := by decide +kernel

theorem isBwStart_iff : ∀ b : UInt8, isBwByte b = true →
    (isBwStart b = true ↔ ¬ (48 ≤ b ∧ b ≤ 57)) := by decide +kernel

theorem barewordMatch_spec (v : Bytes) : barewordMatch v = true ↔ IsBareword v := by
  rw [barewordMatch_iff]
  constructor
  · rintro ⟨h1, h2, h3⟩
    refine ⟨h1, fun b hb => (isBwByte_iff b).mp (h2 b hb), ?_⟩
    rintro b t rfl
    exact (isBwStart_iff b (h2 b (by simp))).mp (h3 b t rfl)
  · rintro ⟨h1, h2, h3⟩
    refine ⟨h1, fun b hb => (isBwByte_iff b).mpr (h2 b hb), ?_⟩
    rintro b t rfl
    exact (isBwStart_iff b ((isBwByte_iff b).mpr (h2 b (by simp)))).mpr (h3 b t rfl)

/-- **C26** `Quote(v, Bareword)` succeeds exactly on barewords. -/
theorem C26_quote_bareword (v : Bytes) :
    (quote v .bareword = .ok v ↔ IsBareword v) ∧ (quote v .bareword = .err ↔ ¬ IsBareword v) := by
  rw [← barewordMatch_spec]
  simp only [quote]
  split <;> simp_all

/-- **C27** `QuoteWithEscape(v, q)` is one complete literal exactly when `v` does not end
in a backslash and does not have a quote at index 1 after a byte that is neither the
quote nor a backslash. -/
theorem C27_quoteWithEscape (v : Bytes) (t : Sat) (q : UInt8)
    (ht : (t = .doubleQuoted ∧ q = 34) ∨ (t = .singleQuoted ∧ q = 39)) :
    ∃ body, quoteWithEscape v t = some ([q] ++ body ++ [q]) ∧
      (StringBody q body ↔
        (v.getLast? ≠ some 92 ∧ ¬ ∃ x r, v = x :: q :: r ∧ x ≠ q ∧ x ≠ 92)) := by
  have hq : q ≠ 92 := by rcases ht with ⟨_, rfl⟩ | ⟨_, rfl⟩ <;> decide
  refine ⟨escapeQuotes v q, ?_, ?_⟩
  · rcases ht with ⟨rfl, rfl⟩ | ⟨rfl, rfl⟩ <;> rfl
  · unfold StringBody
    rw [escapeQuotes_quotesEscaped q hq, escapeQuotes_eq q hq, eqGo_getLast]
    exact And.comm

/-- **C27**, the violation: `QuoteWithEscape("x\"y", DoubleQuoted)` leaves the quote
unescaped. -/
theorem C27_violated_quote_at_one :
    quoteWithEscape b!"x\"y" .doubleQuoted = some b!"\"x\"y\"" := by decide

/-- **C27**, the violation: a trailing backslash escapes the closing quote. -/
theorem C27_violated_trailing_backslash :
    quoteWithEscape b!"xyz\\" .doubleQuoted = some b!"\"xyz\\\"" := by decide

example : quoteWithEscape b!"\"say \"hi\"" .doubleQuoted = some b!"\"\\\"say \\\"hi\\\"\"" := by decide

/-- **C28** the result for `Bareword` consists of letters, digits and underscores, does
not start with a digit, and has one character per rune of the value; it is a bareword
exactly when the value has at least two runes. -/
theorem C28_escapeBareword (v : Bytes) :
    ∃ w, quoteWithEscape v .bareword = some w ∧ w.length = (runeChunks v).length ∧
      (∀ b ∈ w, (65 ≤ b ∧ b ≤ 90) ∨ (97 ≤ b ∧ b ≤ 122) ∨ b = 95 ∨ (48 ≤ b ∧ b ≤ 57)) ∧
      (∀ b t, w = b :: t → ¬ (48 ≤ b ∧ b ≤ 57)) ∧
      (IsBareword w ↔ 2 ≤ (runeChunks v).length) := by
  have hall := escapeBareword_all v
  have hhd : ∀ b t, escapeBareword v = b :: t → ¬ (48 ≤ b ∧ b ≤ 57) := fun b t h =>
    (isBwStart_iff b (hall b (by rw [h]; simp))).mp (escapeBareword_head v b t h)
  have hall' := fun b hb => (isBwByte_iff b).mp (hall b hb)
  refine ⟨escapeBareword v, rfl, escapeBareword_length v, hall', hhd, ?_⟩
  rw [← escapeBareword_length]
  exact ⟨fun h => h.1, fun h => ⟨h, hall', hhd⟩⟩

/-- **C28** values that consist of bareword characters and do not start with a digit (in
particular all barewords) are returned unchanged; hence escaping twice is escaping
once. -/
theorem C28_escapeBareword_idempotent (v : Bytes) :
    (IsBareword v → quoteWithEscape v .bareword = some v) ∧
    escapeBareword (escapeBareword v) = escapeBareword v := by
  constructor
  · intro h
    have := (barewordMatch_iff v).mp ((barewordMatch_spec v).mpr h)
    simp [quoteWithEscape, escapeBareword_fixed v this.2.1 this.2.2]
  · exact escapeBareword_fixed _ (escapeBareword_all v) (escapeBareword_head v)

/-- **C28**, the violation: a one-character value does not become a bareword. -/
theorem C28_violated_short : quoteWithEscape b!"1" .bareword = some b!"_" ∧ ¬ IsBareword b!"_" := by
  refine ⟨by decide, fun h => ?_⟩
  exact absurd h.1 (by decide)

example : quoteWithEscape b!"1-ä" .bareword = some b!"___" := by decide

/-- **C29** `QuoteWithEscape` only inserts backslashes in front of quote characters. -/
theorem C29_only_inserts (v : Bytes) (q : UInt8) (hq : q ≠ 92) :
    InsertsBackslashes q v (escapeQuotes v q) := by
  rw [escapeQuotes_eq q hq]; exact eqGo_inserts q v 0 0

/-- **C29** escaping quotes twice is escaping once. -/
theorem C29_idempotent (v : Bytes) (q : UInt8) (hq : q ≠ 92) :
    escapeQuotes (escapeQuotes v q) q = escapeQuotes v q := by
  rw [escapeQuotes_eq q hq, escapeQuotes_eq q hq]; exact eqGo_idem q hq v 0 0

/-- **C29** a value whose quotes are all escaped is left alone. -/
theorem C29_escaped_unchanged (v : Bytes) (q : UInt8) (hq : q ≠ 92) (h : QuotesEscaped q v) :
    escapeQuotes v q = v := by
  have key : ∀ (v : Bytes) i prev, (i = 0 ∨ 0 < i) →
      (∀ l r, v = l ++ q :: r → (l = [] ∧ 0 < i ∧ prev = 92) ∨ ∃ l', l = l' ++ [92]) →
      eqGo q i prev v = v := by
    intro v
    induction v with
    | nil => intros; rfl
    | cons b t ih =>
      intro i prev _ hv
      rw [eqGo, if_neg]
      · rw [ih (i + 1) b (.inr (by omega))]
        intro l r ht
        rcases hv (b :: l) r (by simp [ht]) with ⟨h0, _⟩ | ⟨l', hl'⟩
        · simp at h0
        · cases l' with
          | nil => simp at hl'; left; exact ⟨hl'.2, by omega, hl'.1⟩
          | cons c l' => simp at hl'; right; exact ⟨l', hl'.2⟩
      · rintro ⟨rfl, hc⟩
        rcases hv [] t rfl with ⟨_, hi, hp⟩ | ⟨l', hl'⟩
        · rcases hc with h0 | ⟨_, h0⟩
          · omega
          · exact h0 hp
        · simp at hl'
  rw [escapeQuotes_eq q hq]
  exact key v 0 0 (.inl rfl) (fun l r hv => .inr (h l r hv))

example : QuotesEscaped 34 (escape b!"a\"b\"c") ∧ escapeQuotes (escape b!"a\"b\"c") 34 = escape b!"a\"b\"c" :=
  ⟨(C25_escape_quotes_escaped _).1,
    C29_escaped_unchanged _ 34 (by decide) (C25_escape_quotes_escaped _).1⟩

/-! ### C50 -/

theorem escaped_escByte (b : UInt8) :
    (match escapeTable.find? (fun e => e.2 = b) with
      | some (l, _) => [92, l]
      | none => [b]) = escByte b := by
  revert b; decide +kernel

/-- **C50** `Escape` writes exactly the characters of the table as escape sequences and
leaves every other byte alone, valid UTF-8 or not. -/
theorem C50_escape (s : Bytes) : escape s = escaped s := by
  rw [escape_eq, escaped]
  exact congrArg (fun f => s.flatMap f) (funext fun b => (escaped_escByte b).symm)

theorem unescaped_high (p u : Bytes) (h : ∀ x ∈ p, (0x80 : UInt8) ≤ x) :
    unescaped (p ++ u) = p ++ unescaped u := by
  induction p with
  | nil => rfl
  | cons x p ih =>
    have hx : x ≠ 92 := by
      have := h x (List.mem_cons_self ..)
      rintro rfl; revert this; decide
    have ih' := ih fun y hy => h y (List.mem_cons_of_mem _ hy)
    cases hp : p ++ u with
    | nil =>
      have h1 : p = [] := (List.append_eq_nil_iff.mp hp).1
      have h2 : u = [] := (List.append_eq_nil_iff.mp hp).2
      subst h1 h2; simp [unescaped]
    | cons c s =>
      rw [List.cons_append, hp, unescaped, if_neg hx, ← hp, ih']
      rfl

theorem unescapeRepl_single (c : UInt8) : unescapeRepl [c] =
    (match escapeTable.find? (fun e => e.1 = c) with
      | some (_, d) => [d]
      | none => [92, c]) := by
  revert c; decide +kernel

theorem unescapeTable_high (c : UInt8) (h : 0x80 ≤ c) :
    escapeTable.find? (fun e => e.1 = c) = none := by
  revert c; decide +kernel

theorem unescaped_cons_ne (b : UInt8) (t : Bytes) (h : b ≠ 92) :
    unescaped (b :: t) = b :: unescaped t := by
  cases t with
  | nil => rfl
  | cons c s => rw [unescaped, if_neg h]

theorem unescapeAux_eq (n : Nat) : ∀ s : Bytes, s.length ≤ n → unescapeAux n s = unescaped s := by
  induction n with
  | zero => intro s h; cases s with
    | nil => rfl
    | cons b t => simp at h
  | succ n ih =>
    intro s h
    match s with
    | [] => rfl
    | [b] =>
      by_cases hb : b = 92
      · subst hb; rfl
      · simp only [unescapeAux, if_neg hb]; rw [ih [] (by simp)]; rfl
    | b :: c :: u =>
      simp only [List.length_cons] at h
      by_cases hb : b = 92
      · subst hb
        by_cases hc : c = 10
        · subst hc
          simp only [unescapeAux, if_true]
          rw [ih _ (by simp; omega), unescaped_cons_ne 10 u (by decide), unescaped, if_pos rfl]
          rfl
        · simp only [unescapeAux, if_true, if_neg hc]
          rw [unescaped, if_pos rfl]
          rcases decodeRune_width c u with hw | ⟨p, v, e, h2, hp, hw⟩
          · rw [hw]
            simp only [List.take_succ_cons, List.take_zero, List.drop_succ_cons, List.drop_zero]
            rw [ih u (by omega), unescapeRepl_single]
            rfl
          · rw [hw, e, List.take_left, List.drop_left]
            have hv : v.length ≤ n := by
              have := congrArg List.length e
              simp at this; omega
            rw [ih v hv]
            match p, h2 with
            | c' :: p', _ =>
              rw [List.cons_append, List.cons.injEq] at e
              obtain ⟨rfl, rfl⟩ := e
              have hc8 := hp c (List.mem_cons_self ..)
              rw [unescapeTable_high c hc8, unescaped_high p' v fun x hx => hp x (List.mem_cons_of_mem _ hx)]
              have hr : unescapeRepl (c :: p') = 92 :: c :: p' := by
                have := unescapeRepl_single c
                rw [unescapeTable_high c hc8] at this
                simp only [unescapeRepl] at this ⊢
                split <;> rename_i h1
                · rw [if_pos h1] at this; simp at this
                · rw [if_neg h1] at this
                  split <;> rename_i h1
                  · rw [if_pos h1] at this; simp at this
                  · rw [if_neg h1] at this
                    split <;> rename_i h1
                    · rw [if_pos h1] at this; simp at this
                    · rw [if_neg h1] at this
                      split <;> rename_i h1
                      · rw [if_pos h1] at this; simp at this
                      · rfl
              rw [hr]; simp
      · simp only [unescapeAux, if_neg hb]
        rw [ih _ (by simp; omega), unescaped_cons_ne b _ hb]

/-- **C50** `Unescape` replaces exactly the known sequences, reading from the left, and
leaves every other byte alone, valid UTF-8 or not. -/
theorem C50_unescape (s : Bytes) : unescape s = unescaped s :=
  unescapeAux_eq _ s (Nat.le_refl _)

/-- A backslash in front of an unknown character stays, and `\\\\n` is a backslash and an
`n`, not a newline. -/
example : unescape b!"\\d\\\\n\\n\\" = b!"\\d\\n\n\\" := by
  rw [C50_unescape]; decide

end Verif.Props
