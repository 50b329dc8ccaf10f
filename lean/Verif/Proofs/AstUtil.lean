import Verif.Model.AstUtil
import Verif.Proofs.Bytes
import Verif.Spec.Token
/-
Lemmas about `Escape`, `Unescape`, `Quote`, `QuoteWithEscape`.
-/
namespace Verif
open Spec

/-! ### Escape -/

/-- Byte-wise form of `Escape`. -/
def escByte (b : UInt8) : Bytes := escapeRepl [b]

theorem escByte_high {b : UInt8} (h : 0x80 ≤ b) : escByte b = [b] := by
  have : b ≠ 34 ∧ b ≠ 39 ∧ b ≠ 92 ∧ b ≠ 10 ∧ b ≠ 13 ∧ b ≠ 9 := by
    refine ⟨?_, ?_, ?_, ?_, ?_, ?_⟩ <;> (rintro rfl; exact absurd h (by decide))
  simp [escByte, escapeRepl, this]

theorem flatMap_escByte_high (c : Bytes) (h : ∀ x ∈ c, (0x80 : UInt8) ≤ x) :
    c.flatMap escByte = c := by
  induction c with
  | nil => rfl
  | cons b t ih =>
    simp only [List.flatMap_cons]
    rw [escByte_high (h b (by simp)), ih (fun x hx => h x (by simp [hx]))]
    rfl

theorem escapeRepl_chunk (c : Bytes) (h : (∃ b, c = [b]) ∨ (∀ x ∈ c, (0x80 : UInt8) ≤ x)) :
    escapeRepl c = c.flatMap escByte := by
  rcases h with ⟨b, rfl⟩ | h
  · simp [escByte]
  · rw [flatMap_escByte_high c h]
    unfold escapeRepl
    have key : ∀ k : UInt8, k < 0x80 → c ≠ [k] := by
      rintro k hk rfl
      have := h k (by simp)
      exact absurd hk (by simpa [UInt8.not_lt] using this)
    simp [key 34 (by decide), key 39 (by decide), key 92 (by decide), key 10 (by decide),
      key 13 (by decide), key 9 (by decide)]

theorem escape_eq (s : Bytes) : escape s = s.flatMap escByte := by
  have h : ∀ l : List Bytes, (∀ c ∈ l, (∃ b, c = [b]) ∨ (∀ x ∈ c, (0x80 : UInt8) ≤ x)) →
      l.flatMap escapeRepl = l.flatten.flatMap escByte := by
    intro l
    induction l with
    | nil => simp
    | cons c l ih =>
      intro hl
      simp only [List.flatMap_cons, List.flatten_cons, List.flatMap_append]
      rw [escapeRepl_chunk c (hl c (by simp)), ih (fun c hc => hl c (by simp [hc]))]
  rw [escape, h _ (runeChunks_chunk s), runeChunks_flatten]

/-- The seven shapes of `escByte`. -/
theorem escByte_cases (b : UInt8) :
    (escByte b = [92, b] ∧ (b = 34 ∨ b = 39 ∨ b = 92)) ∨ (b = 10 ∧ escByte b = [92, 110]) ∨
    (b = 13 ∧ escByte b = [92, 114]) ∨ (b = 9 ∧ escByte b = [92, 116]) ∨
    (escByte b = [b] ∧ b ≠ 34 ∧ b ≠ 39 ∧ b ≠ 92 ∧ b ≠ 10 ∧ b ≠ 13 ∧ b ≠ 9) := by
  unfold escByte escapeRepl
  by_cases h1 : b = 34 ∨ b = 39 ∨ b = 92
  · left; simp [h1]
  · by_cases h2 : b = 10
    · subst h2; right; left; exact ⟨rfl, by decide⟩
    · by_cases h3 : b = 13
      · subst h3; right; right; left; exact ⟨rfl, by decide⟩
      · by_cases h4 : b = 9
        · subst h4; right; right; right; left; exact ⟨rfl, by decide⟩
        · simp only [not_or] at h1
          simp [h1, h2, h3, h4]

theorem unescapeAux_escape (s : Bytes) (n : Nat) (hn : (s.flatMap escByte).length ≤ n) :
    unescapeAux n (s.flatMap escByte) = s := by
  induction s generalizing n with
  | nil => cases n <;> simp [unescapeAux]
  | cons b t ih =>
    simp only [List.flatMap_cons, List.length_append] at hn ⊢
    generalize hT : t.flatMap escByte = T at hn ih ⊢
    have step : ∀ (c r : UInt8), c < 0x80 → c ≠ 10 → unescapeRepl [c] = [r] →
        escByte b = [92, c] → b = r → unescapeAux n (escByte b ++ T) = b :: t := by
      intro c r hc hc10 hr he hb
      rw [he] at hn ⊢
      cases n with
      | zero => simp at hn
      | succ n =>
        simp only [List.cons_append, List.nil_append, unescapeAux, if_true, if_neg hc10]
        rw [decodeRune_ascii hc]
        simp only [List.take_succ_cons, List.take_zero, List.drop_succ_cons, List.drop_zero]
        rw [hr, ih n (by simp at hn; omega), hb]
        rfl
    rcases escByte_cases b with ⟨he, h | h | h⟩ | ⟨h, he⟩ | ⟨h, he⟩ | ⟨h, he⟩ | ⟨he, h⟩
    · exact step b b (by subst h; decide) (by subst h; decide) (by subst h; decide) he rfl
    · exact step b b (by subst h; decide) (by subst h; decide) (by subst h; decide) he rfl
    · exact step b b (by subst h; decide) (by subst h; decide) (by subst h; decide) he rfl
    · exact step 110 10 (by decide) (by decide) (by decide) he h
    · exact step 114 13 (by decide) (by decide) (by decide) he h
    · exact step 116 9 (by decide) (by decide) (by decide) he h
    · rw [he] at hn ⊢
      cases n with
      | zero => simp at hn
      | succ n =>
        simp only [List.cons_append, List.nil_append, unescapeAux, if_neg h.2.2.1]
        rw [ih n (by simp at hn; omega)]

theorem unescape_escape (s : Bytes) : unescape (escape s) = s := by
  rw [unescape, escape_eq]
  exact unescapeAux_escape s _ (Nat.le_refl _)

theorem QuotesEscaped.append {q : UInt8} {a b : Bytes} (ha : QuotesEscaped q a)
    (hb : QuotesEscaped q b) : QuotesEscaped q (a ++ b) := by
  intro l r h
  rcases List.append_eq_append_iff.mp h with ⟨x, h1, h2⟩ | ⟨x, h1, h2⟩
  · obtain ⟨l', hl'⟩ := hb x r h2
    exact ⟨a ++ l', by rw [h1, hl']; simp⟩
  · cases x with
    | nil =>
      simp at h1 h2
      obtain ⟨l', hl'⟩ := hb [] r (by simpa using h2.symm)
      simp at hl'
    | cons c x =>
      simp at h2
      exact ha l x (by rw [h1, ← h2.1])

theorem quotesEscaped_nil (q : UInt8) : QuotesEscaped q [] := by
  intro l r h; simp at h

theorem quotesEscaped_single {q b : UInt8} (h : b ≠ q) : QuotesEscaped q [b] := by
  intro l r e
  cases l with
  | nil => simp at e; exact absurd e.1 h
  | cons c l => simp at e

theorem quotesEscaped_pair {q b : UInt8} (h : q ≠ 92) : QuotesEscaped q [92, b] := by
  intro l r e
  match l with
  | [] => simp at e; exact absurd e.1.symm h
  | [c] => simp at e; exact ⟨[], by simp [e.1]⟩
  | c :: d :: l => simp at e

theorem escape_quotesEscaped (q : UInt8) (hq : q = 34 ∨ q = 39) (s : Bytes) :
    QuotesEscaped q (escape s) := by
  have hq92 : q ≠ 92 := by rcases hq with rfl | rfl <;> decide
  rw [escape_eq]
  induction s with
  | nil => exact quotesEscaped_nil q
  | cons b t ih =>
    rw [List.flatMap_cons]
    refine QuotesEscaped.append ?_ ih
    rcases escByte_cases b with ⟨he, _⟩ | ⟨_, he⟩ | ⟨_, he⟩ | ⟨_, he⟩ | ⟨he, h⟩ <;> rw [he]
    · exact quotesEscaped_pair hq92
    · exact quotesEscaped_pair hq92
    · exact quotesEscaped_pair hq92
    · exact quotesEscaped_pair hq92
    · exact quotesEscaped_single (by
        rcases hq with rfl | rfl
        · exact h.1
        · exact h.2.1)

theorem escape_noControl (s : Bytes) : ∀ b ∈ escape s, b ≠ 10 ∧ b ≠ 13 ∧ b ≠ 9 := by
  rw [escape_eq]
  intro b hb
  rw [List.mem_flatMap] at hb
  obtain ⟨a, _, hb⟩ := hb
  rcases escByte_cases a with ⟨he, h | h | h⟩ | ⟨_, he⟩ | ⟨_, he⟩ | ⟨_, he⟩ | ⟨he, h⟩ <;>
    rw [he] at hb <;> simp at hb
  all_goals first
    | (rcases hb with rfl | rfl <;> first | decide | (subst h; decide))
    | (subst hb; exact h.2.2.2)

theorem escape_append (a b : Bytes) : escape (a ++ b) = escape a ++ escape b := by
  simp [escape_eq]

theorem getLast?_append_singleton {α : Type} (l : List α) (a : α) :
    (l ++ [a]).getLast? = some a := by simp

theorem escape_getLast (s : Bytes) : (escape s).getLast? = some 92 ↔ s.getLast? = some 92 := by
  rcases List.eq_nil_or_concat s with rfl | ⟨t, b, rfl⟩
  · simp [escape_eq]
  · rw [List.concat_eq_append, escape_append]
    rw [escape_eq [b]]
    simp only [List.flatMap_cons, List.flatMap_nil, List.append_nil]
    rcases escByte_cases b with ⟨he, h | h | h⟩ | ⟨h, he⟩ | ⟨h, he⟩ | ⟨h, he⟩ | ⟨he, h⟩ <;>
      rw [he] <;> simp [h]

/-! ### escapeQuotes -/

/-- Structural form of the loop of `escapeQuotes`. -/
def eqGo (q : UInt8) : Nat → UInt8 → Bytes → Bytes
  | _, _, [] => []
  | i, prev, b :: t =>
    if b = q ∧ (i = 0 ∨ (i > 1 ∧ prev ≠ 92)) then 92 :: b :: eqGo q (i + 2) b t
    else b :: eqGo q (i + 1) b t

theorem getD_append_length (pre : Bytes) (b : UInt8) (t : Bytes) (d : UInt8) :
    (pre ++ b :: t).getD pre.length d = b := by simp [List.getD]

theorem getD_append_pred (pre : Bytes) (x : UInt8) (t : Bytes) (d : UInt8) :
    ((pre ++ [x]) ++ t).getD ((pre ++ [x]).length - 1) d = x := by simp [List.getD]

theorem escapeQuotesLoop_eq (q : UInt8) (hq : q ≠ 92) (t : Bytes) :
    ∀ (n : Nat) (pre : Bytes) (prev : UInt8),
      (pre = [] ∨ ∃ p, pre = p ++ [prev]) → 2 * t.length + 1 ≤ n →
      escapeQuotesLoop q n (pre ++ t) pre.length = pre ++ eqGo q pre.length prev t := by
  induction t with
  | nil =>
    intro n pre prev _ hn
    cases n with
    | zero => omega
    | succ n => simp [escapeQuotesLoop, eqGo]
  | cons b t ih =>
    intro n pre prev hpre hn
    have hlen : pre.length < (pre ++ b :: t).length := by simp
    have hprev : pre.length > 1 → (pre ++ b :: t).getD (pre.length - 1) 0 = prev := by
      intro h1
      rcases hpre with rfl | ⟨p, rfl⟩
      · simp at h1
      · exact getD_append_pred p prev (b :: t) 0
    have hcond : (((pre ++ b :: t).getD pre.length 0 = q ∧
        (pre.length = 0 ∨ (pre.length > 1 ∧ (pre ++ b :: t).getD (pre.length - 1) 0 ≠ 92))) ↔
        (b = q ∧ (pre.length = 0 ∨ (pre.length > 1 ∧ prev ≠ 92)))) := by
      rw [getD_append_length]
      constructor
      · rintro ⟨h1, h2 | ⟨h2, h3⟩⟩
        · exact ⟨h1, .inl h2⟩
        · exact ⟨h1, .inr ⟨h2, by rwa [hprev h2] at h3⟩⟩
      · rintro ⟨h1, h2 | ⟨h2, h3⟩⟩
        · exact ⟨h1, .inl h2⟩
        · exact ⟨h1, .inr ⟨h2, by rwa [hprev h2]⟩⟩
    match n, hn with
    | n + 1, hn =>
      rw [escapeQuotesLoop, if_pos hlen]
      by_cases h : b = q ∧ (pre.length = 0 ∨ (pre.length > 1 ∧ prev ≠ 92))
      · rw [if_pos (hcond.mpr h), eqGo, if_pos h]
        have e1 : (pre ++ b :: t).take pre.length ++ [92] ++ (pre ++ b :: t).drop pre.length
            = (pre ++ [92]) ++ b :: t := by simp
        rw [e1]
        match n, hn with
        | n + 1, hn =>
          have hl2 : pre.length + 1 < ((pre ++ [92]) ++ b :: t).length := by simp
          rw [escapeQuotesLoop, if_pos hl2]
          have hno : ¬ ((((pre ++ [92]) ++ b :: t).getD (pre.length + 1) 0 = q) ∧
              (pre.length + 1 = 0 ∨ (pre.length + 1 > 1 ∧
                ((pre ++ [92]) ++ b :: t).getD (pre.length + 1 - 1) 0 ≠ 92))) := by
            rintro ⟨_, h0 | ⟨_, h3⟩⟩
            · omega
            · apply h3
              have := getD_append_pred pre 92 (b :: t) 0
              simpa using this
          rw [if_neg hno]
          have e2 : (pre ++ [92]) ++ b :: t = (pre ++ [92, b]) ++ t := by simp
          have e3 : pre.length + 1 + 1 = (pre ++ [92, b]).length := by simp
          rw [e2, e3, ih n (pre ++ [92, b]) b (.inr ⟨pre ++ [92], by simp⟩) (by simp at hn; omega)]
          simp
      · rw [if_neg (fun hh => h (hcond.mp hh)), eqGo, if_neg h]
        have e2 : pre ++ b :: t = (pre ++ [b]) ++ t := by simp
        have e3 : pre.length + 1 = (pre ++ [b]).length := by simp
        rw [e2, e3, ih n (pre ++ [b]) b (.inr ⟨pre, rfl⟩) (by simp at hn; omega)]
        simp

theorem escapeQuotes_eq (q : UInt8) (hq : q ≠ 92) (v : Bytes) :
    escapeQuotes v q = eqGo q 0 0 v := by
  have := escapeQuotesLoop_eq q hq v (2 * v.length + 1) [] 0 (.inl rfl) (Nat.le_refl _)
  simpa [escapeQuotes] using this

theorem eqGo_inserts (q : UInt8) (v : Bytes) : ∀ i prev, InsertsBackslashes q v (eqGo q i prev v) := by
  induction v with
  | nil => intro i prev; exact .nil
  | cons b t ih =>
    intro i prev
    rw [eqGo]
    split
    · next h => rw [h.1]; exact .ins (ih _ _)
    · exact .same b (ih _ _)

theorem eqGo_idem (q : UInt8) (hq : q ≠ 92) (v : Bytes) :
    ∀ i prev, eqGo q i prev (eqGo q i prev v) = eqGo q i prev v := by
  induction v with
  | nil => intro i prev; rfl
  | cons b t ih =>
    intro i prev
    by_cases h : b = q ∧ (i = 0 ∨ (i > 1 ∧ prev ≠ 92))
    · rw [eqGo, if_pos h]
      rw [eqGo, if_neg (fun hh => hq hh.1.symm), eqGo, if_neg]
      · rw [ih]
      · rintro ⟨_, h0 | ⟨_, h3⟩⟩
        · omega
        · exact h3 rfl
    · rw [eqGo, if_neg h, eqGo, if_neg h, ih]

/-- For `i > 1` the output has all quotes escaped, provided the previous byte counts. -/
theorem eqGo_quotes (q : UInt8) (hq : q ≠ 92) (v : Bytes) :
    ∀ i prev, 1 < i → ∀ l r, eqGo q i prev v = l ++ q :: r →
      (l = [] ∧ prev = 92) ∨ ∃ l', l = l' ++ [92] := by
  induction v with
  | nil => intro i prev _ l r h; simp [eqGo] at h
  | cons b t ih =>
    intro i prev hi l r h
    rw [eqGo] at h
    split at h
    · rename_i hc
      match l with
      | [] => simp at h; exact absurd h.1.symm hq
      | [c] => simp at h; right; exact ⟨[], by simp [h.1]⟩
      | c :: d :: l =>
        simp at h
        right
        rcases ih (i + 2) b (by omega) l r h.2.2 with ⟨_, hb⟩ | ⟨l', hl'⟩
        · exact absurd (hc.1.symm.trans hb) hq
        · exact ⟨c :: d :: l', by simp [hl']⟩
    · next hc =>
      match l with
      | [] =>
        left
        simp at h
        refine ⟨rfl, ?_⟩
        by_cases hp : prev = 92
        · exact hp
        · exact absurd ⟨h.1, .inr ⟨hi, hp⟩⟩ hc
      | c :: l =>
        simp at h
        right
        rcases ih (i + 1) b (by omega) l r h.2 with ⟨hl, hb⟩ | ⟨l', hl'⟩
        · exact ⟨[], by simp [hl, ← h.1, hb]⟩
        · exact ⟨c :: l', by simp [hl']⟩

theorem eqGo_getLast (q : UInt8) (v : Bytes) : ∀ i prev, (eqGo q i prev v).getLast? = v.getLast? := by
  induction v with
  | nil => intro i prev; rfl
  | cons b t ih =>
    intro i prev
    rw [eqGo]
    split
    · rw [List.getLast?_cons_cons, List.getLast?_cons, List.getLast?_cons, ih]
    · rw [List.getLast?_cons, List.getLast?_cons, ih]

/-- Exactly when `escapeQuotes` leaves an unescaped quote behind: at index 1 after a
byte that is neither the quote nor a backslash. -/
theorem escapeQuotes_quotesEscaped (q : UInt8) (hq : q ≠ 92) (v : Bytes) :
    QuotesEscaped q (escapeQuotes v q) ↔
      ¬ ∃ x t, v = x :: q :: t ∧ x ≠ q ∧ x ≠ 92 := by
  rw [escapeQuotes_eq q hq]
  constructor
  · rintro h ⟨x, t, rfl, hx, hx2⟩
    have e : eqGo q 0 0 (x :: q :: t) = [x] ++ q :: eqGo q 2 q t := by
      simp [eqGo, hx]
    obtain ⟨l', hl'⟩ := h [x] _ e
    cases l' with
    | nil => simp at hl'; exact hx2 hl'
    | cons c l' => simp at hl'
  · intro h l r e
    match v, h, e with
    | [], _, e => simp [eqGo] at e
    | b :: t, h, e =>
      by_cases hb : b = q
      · subst hb
        have e0 : eqGo b 0 0 (b :: t) = 92 :: b :: eqGo b 2 b t := by simp [eqGo]
        rw [e0] at e
        match l, e with
        | [], e => simp at e; exact absurd e.1.symm hq
        | [c], e => simp at e; exact ⟨[], by simp [e.1]⟩
        | c :: d :: l, e =>
          simp at e
          rcases eqGo_quotes b hq t 2 b (by omega) l r e.2.2 with ⟨_, hb⟩ | ⟨l', hl'⟩
          · exact absurd hb hq
          · exact ⟨c :: d :: l', by simp [hl']⟩
      · have e0 : eqGo q 0 0 (b :: t) = b :: eqGo q 1 b t := by simp [eqGo, hb]
        rw [e0] at e
        match l, e with
        | [], e => simp at e; exact absurd e.1 hb
        | c :: l, e =>
          simp only [List.cons_append, List.cons.injEq] at e
          obtain ⟨rfl, e⟩ := e
          match t, e with
          | [], e => simp [eqGo] at e
          | d :: t, e =>
            have e1 : eqGo q 1 b (d :: t) = d :: eqGo q 2 d t := by simp [eqGo]
            rw [e1] at e
            match l, e with
            | [], e =>
              simp at e
              by_cases hb2 : b = 92
              · exact ⟨[], by simp [hb2]⟩
              · exact absurd ⟨b, t, by rw [e.1], hb, hb2⟩ h
            | c' :: l, e =>
              simp at e
              rcases eqGo_quotes q hq t 2 d (by omega) l r e.2 with ⟨hl, hd⟩ | ⟨l', hl'⟩
              · exact ⟨[b], by simp [hl, ← e.1, hd]⟩
              · exact ⟨b :: c' :: l', by simp [hl']⟩

/-! ### Quote -/

theorem hasQuoteLoop_false (q : UInt8) (v : Bytes) : ∀ i prev, 1 < i →
    hasQuoteLoop q i prev v = false →
    ∀ l r, v = l ++ q :: r → (l = [] ∧ prev = 92) ∨ ∃ l', l = l' ++ [92] := by
  induction v with
  | nil => intro i prev _ _ l r h; simp at h
  | cons b t ih =>
    intro i prev hi hf l r h
    rw [hasQuoteLoop] at hf
    split at hf
    · simp at hf
    · next hc =>
      match l, h with
      | [], h =>
        simp at h
        left
        refine ⟨rfl, ?_⟩
        by_cases hp : prev = 92
        · exact hp
        · exact absurd ⟨h.1, hi, hp⟩ hc
      | c :: l, h =>
        simp at h
        right
        rcases ih (i + 1) b (by omega) hf l r h.2 with ⟨hl, hb⟩ | ⟨l', hl'⟩
        · exact ⟨[], by simp [hl, ← h.1, hb]⟩
        · exact ⟨c :: l', by simp [hl']⟩

theorem hasQuoteLoop_true (q : UInt8) (v : Bytes) : ∀ i prev, 1 < i →
    hasQuoteLoop q i prev v = true →
    ∃ l r, v = l ++ q :: r ∧ ¬ ((l = [] ∧ prev = 92) ∨ ∃ l', l = l' ++ [92]) := by
  induction v with
  | nil => intro i prev _ h; simp [hasQuoteLoop] at h
  | cons b t ih =>
    intro i prev hi h
    rw [hasQuoteLoop] at h
    split at h
    · next hc =>
      refine ⟨[], t, by simp [hc.1], ?_⟩
      rintro (⟨_, hp⟩ | ⟨l', hl'⟩)
      · exact hc.2.2 hp
      · simp at hl'
    · obtain ⟨l, r, hv, hn⟩ := ih (i + 1) b (by omega) h
      refine ⟨b :: l, r, by simp [hv], ?_⟩
      rintro (⟨h0, _⟩ | ⟨l', hl'⟩)
      · simp at h0
      · apply hn
        cases l' with
        | nil => simp at hl'; left; exact ⟨hl'.2, hl'.1⟩
        | cons c l' => simp at hl'; right; exact ⟨l', hl'.2⟩

/-- What `Quote` really checks: quotes at index 0 and 1 are not looked at. -/
theorem hasQuoteLoop_zero (q : UInt8) (v : Bytes) :
    hasQuoteLoop q 0 0 v = false ↔
      ∀ l r, v = l ++ q :: r → 2 ≤ l.length → ∃ l', l = l' ++ [92] := by
  match v with
  | [] => simp [hasQuoteLoop]
  | [a] =>
    simp only [hasQuoteLoop]
    constructor
    · intro _ l r h h2
      match l, h, h2 with
      | [], _, h2 => simp at h2
      | [_], _, h2 => simp at h2
      | _ :: _ :: _, h, _ => simp at h
    · intro _; simp
  | a :: b :: t =>
    have e : hasQuoteLoop q 0 0 (a :: b :: t) = hasQuoteLoop q 2 b t := by simp [hasQuoteLoop]
    rw [e]
    constructor
    · intro hf l r h h2
      match l, h, h2 with
      | [], _, h2 => simp at h2
      | [_], _, h2 => simp at h2
      | c :: d :: l, h, _ =>
        simp at h
        rcases hasQuoteLoop_false q t 2 b (by omega) hf l r h.2.2 with ⟨hl, hb⟩ | ⟨l', hl'⟩
        · exact ⟨[c], by simp [hl, ← h.2.1, hb]⟩
        · exact ⟨c :: d :: l', by simp [hl']⟩
    · intro h
      by_cases hf : hasQuoteLoop q 2 b t = true
      · exfalso
        obtain ⟨l, r, hv, hn⟩ := hasQuoteLoop_true q t 2 b (by omega) hf
        obtain ⟨l', hl'⟩ := h (a :: b :: l) r (by simp [hv]) (by simp)
        apply hn
        match l', hl' with
        | [], hl' => simp at hl'
        | [_], hl' => simp at hl'; left; exact ⟨hl'.2.2, hl'.2.1⟩
        | _ :: _ :: l', hl' => simp at hl'; right; exact ⟨l', hl'.2.2⟩
      · simpa using hf

/-! ### Barewords -/

theorem runeChunksAux_ascii (n : Nat) (s : Bytes) (h : ∀ b ∈ s, b < 0x80) (hn : s.length ≤ n) :
    runeChunksAux n s = s.map fun b => [b] := by
  induction n generalizing s with
  | zero => cases s <;> simp_all [runeChunksAux]
  | succ n ih =>
    cases s with
    | nil => simp [runeChunksAux]
    | cons b t =>
      simp only [runeChunksAux, decodeRune_ascii (h b (by simp)), List.take_succ_cons,
        List.take_zero, List.drop_succ_cons, List.drop_zero, List.map_cons]
      rw [ih t (fun x hx => h x (by simp [hx])) (by simp at hn; omega)]

theorem runeChunks_cons_ascii (b : UInt8) (t : Bytes) (h : b < 0x80) :
    runeChunks (b :: t) = [b] :: runeChunks t := by
  simp [runeChunks, runeChunksAux, decodeRune_ascii h]

theorem isBwByte_lt {b : UInt8} (h : isBwByte b = true) : b < 0x80 := by
  have : ∀ b : UInt8, isBwByte b = true → b < 0x80 := by decide +kernel
  exact this b h

theorem isDigit_lt {b : UInt8} (h : isDigit b = true) : b < 0x80 := by
  have : ∀ b : UInt8, isDigit b = true → b < 0x80 := by decide +kernel
  exact this b h

theorem barewordMap_bw (r : Nat) : isBwByte (barewordMap r) = true := by
  unfold barewordMap
  split
  · next h =>
    have : r < 256 := by omega
    have key : ∀ r : Fin 256, ((48 ≤ r.val ∧ r.val ≤ 57) ∨ (65 ≤ r.val ∧ r.val ≤ 90) ∨
        (97 ≤ r.val ∧ r.val ≤ 122)) → isBwByte (UInt8.ofNat r.val) = true := by decide +kernel
    exact key ⟨r, this⟩ h
  · decide

theorem barewordMap_of_bw {b : UInt8} (h : isBwByte b = true) : barewordMap b.toNat = b := by
  have : ∀ b : UInt8, isBwByte b = true → barewordMap b.toNat = b := by decide +kernel
  exact this b h

theorem barewordMap_head {b : UInt8} (hd : isDigit b = false) (t : Bytes) :
    isBwStart (barewordMap (decodeRune (b :: t)).1) = true := by
  by_cases hb : b < 0x80
  · rw [decodeRune_ascii hb]
    have : ∀ b : UInt8, isDigit b = false → isBwStart (barewordMap b.toNat) = true := by
      decide +kernel
    exact this b hd
  · -- a non-ASCII rune is never in the kept ranges
    have hge : ∀ r : Nat, 0x80 ≤ r → isBwStart (barewordMap r) = true := by
      intro r hr
      have : barewordMap r = 95 := by
        unfold barewordMap; rw [if_neg]; omega
      rw [this]; decide
    apply hge
    rcases decodeRune_multi b t (by simpa [UInt8.not_lt] using hb) with h | ⟨p, u, r, h, _, _, _, hr, hd⟩
    · rw [h]; simp [runeError]
    · rw [h, hd u]; exact hr

theorem escapeBareword_all (v : Bytes) : ∀ b ∈ escapeBareword v, isBwByte b = true := by
  cases v with
  | nil => simp [escapeBareword]
  | cons b t =>
    intro x hx
    simp only [escapeBareword, List.mem_map] at hx
    obtain ⟨c, _, rfl⟩ := hx
    exact barewordMap_bw _

theorem escapeBareword_head (v : Bytes) (b : UInt8) (t : Bytes) (h : escapeBareword v = b :: t) :
    isBwStart b = true := by
  cases v with
  | nil => simp [escapeBareword] at h
  | cons a u =>
    have hd : isDigit (if isDigit a = true then 95 else a) = false := by
      split
      · decide
      · next h => simpa using h
    simp only [escapeBareword, runeChunks, List.length_cons, runeChunksAux, List.map_cons,
      List.cons.injEq] at h
    rw [decodeRune_take] at h
    rw [← h.1]
    exact barewordMap_head hd _

theorem escapeBareword_length (v : Bytes) : (escapeBareword v).length = (runeChunks v).length := by
  cases v with
  | nil => rfl
  | cons b t =>
    simp only [escapeBareword, List.length_map]
    by_cases h : isDigit b = true
    · rw [if_pos h, runeChunks_cons_ascii _ _ (by decide), runeChunks_cons_ascii _ _ (isDigit_lt h)]
      rfl
    · rw [if_neg h]

theorem escapeBareword_fixed (v : Bytes) (h : ∀ b ∈ v, isBwByte b = true)
    (h0 : ∀ b t, v = b :: t → isBwStart b = true) : escapeBareword v = v := by
  cases v with
  | nil => rfl
  | cons b t =>
    have hb : isDigit b = false := by
      have key : ∀ b : UInt8, isBwStart b = true → isDigit b = false := by decide +kernel
      exact key b (h0 b t rfl)
    simp only [escapeBareword, hb]
    rw [if_neg (by simp), runeChunks,
      runeChunksAux_ascii _ _ (fun x hx => isBwByte_lt (h x hx)) (Nat.le_refl _)]
    rw [List.map_map]
    conv => rhs; rw [← List.map_id (b :: t)]
    apply List.map_congr_left
    intro x hx
    simp only [Function.comp_apply, id_eq]
    rw [decodeRune_ascii (isBwByte_lt (h x hx))]
    exact barewordMap_of_bw (h x hx)

theorem barewordMatch_iff (v : Bytes) : barewordMatch v = true ↔
    2 ≤ v.length ∧ (∀ b ∈ v, isBwByte b = true) ∧ (∀ b t, v = b :: t → isBwStart b = true) := by
  match v with
  | [] => simp [barewordMatch]
  | [a] => simp [barewordMatch]
  | a :: b :: t =>
    simp only [barewordMatch, Bool.and_eq_true, List.all_eq_true, List.length_cons]
    constructor
    · rintro ⟨⟨h1, h2⟩, h3⟩
      refine ⟨by omega, ?_, ?_⟩
      · intro x hx
        simp only [List.mem_cons] at hx
        rcases hx with rfl | rfl | hx
        · simp [isBwByte, h1]
        · exact h2
        · exact h3 x hx
      · rintro x y h; simp at h; rw [← h.1]; exact h1
    · rintro ⟨_, h2, h3⟩
      exact ⟨⟨h3 a _ rfl, h2 b (by simp)⟩, fun x hx => h2 x (by simp [hx])⟩

end Verif
