import Verif.Proofs.RunGap
/-
Tokens: strings, names, numbers, field references, regular expressions, operators.
-/
namespace Verif
open Spec

/-! ### Quoted text -/

/-- Read up to the closing quote; the flag says that the previous byte was a backslash. -/
def bodyOf (q : UInt8) : Bool → Bytes → Option (Bytes × Bytes)
  | _, [] => none
  | esc, c :: t =>
    if c = q ∧ esc = false then some ([], t)
    else (bodyOf q (c == 92) t).map fun p => (c :: p.1, p.2)

/-- Text without an unescaped quote and without a trailing backslash. -/
def bodyOk (q : UInt8) : Bool → Bytes → Bool
  | esc, [] => !esc
  | esc, c :: t => (c != q || esc) && bodyOk q (c == 92) t

theorem bodyOf_iff {q : UInt8} {esc : Bool} {b body rest : Bytes} :
    bodyOf q esc b = some (body, rest) ↔ b = body ++ q :: rest ∧ bodyOk q esc body = true := by
  induction b generalizing esc body with
  | nil => simp [bodyOf]
  | cons c t ih =>
    rw [bodyOf]
    by_cases hc : c = q ∧ esc = false
    · rw [if_pos hc]
      obtain ⟨rfl, rfl⟩ := hc
      constructor
      · intro h
        simp only [Option.some.injEq, Prod.mk.injEq] at h
        obtain ⟨rfl, rfl⟩ := h
        exact ⟨rfl, rfl⟩
      · rintro ⟨h1, h2⟩
        cases body with
        | nil => simp at h1; simp [h1]
        | cons d body =>
          simp only [List.cons_append, List.cons.injEq] at h1
          simp [bodyOk, h1.1] at h2
    · rw [if_neg hc]
      simp only [Option.map_eq_some_iff, Prod.mk.injEq, Prod.exists]
      constructor
      · rintro ⟨x, y, h, rfl, rfl⟩
        obtain ⟨rfl, h2⟩ := ih.1 h
        refine ⟨rfl, ?_⟩
        simp only [bodyOk, h2, Bool.and_true]
        cases esc <;> simp_all
      · rintro ⟨h1, h2⟩
        cases body with
        | nil =>
          simp only [List.nil_append, List.cons.injEq] at h1
          simp only [bodyOk, Bool.not_eq_true'] at h2
          exact absurd ⟨h1.1, h2⟩ hc
        | cons d body =>
          simp only [List.cons_append, List.cons.injEq] at h1
          obtain ⟨rfl, rfl⟩ := h1
          simp only [bodyOk, Bool.and_eq_true] at h2
          exact ⟨body, rest, ih.2 ⟨rfl, h2.2⟩, rfl, rfl⟩

theorem bodyOk_iff (q : UInt8) (esc : Bool) (s : Bytes) : bodyOk q esc s = true ↔
    (∀ l r, s = l ++ q :: r → (l = [] ∧ esc = true) ∨ ∃ l', l = l' ++ [92]) ∧
      ((s = [] → esc = false) ∧ s.getLast? ≠ some 92) := by
  induction s generalizing esc with
  | nil => simp [bodyOk]
  | cons c t ih =>
    simp only [bodyOk, Bool.and_eq_true, ih]
    constructor
    · rintro ⟨h1, h2, h3, h4⟩
      refine ⟨?_, by simp, ?_⟩
      · intro l r h
        cases l with
        | nil =>
          simp only [List.nil_append, List.cons.injEq] at h
          left
          simpa [h.1] using h1
        | cons d l =>
          simp only [List.cons_append, List.cons.injEq] at h
          obtain ⟨rfl, h⟩ := h
          rcases h2 l r h with ⟨rfl, h5⟩ | ⟨l', rfl⟩
          · exact .inr ⟨[], by simpa using h5⟩
          · exact .inr ⟨c :: l', rfl⟩
      · cases t with
        | nil =>
          have := h3 rfl
          simpa using this
        | cons d t => simpa using h4
    · rintro ⟨h1, _, h2⟩
      refine ⟨?_, ?_, ?_, ?_⟩
      · by_cases hc : c = q
        · rcases h1 [] t (by simp [hc]) with ⟨_, h⟩ | ⟨l', h⟩
          · simp [h]
          · simp at h
        · simp [hc]
      · intro l r h
        rcases h1 (c :: l) r (by simp [h]) with ⟨h3, _⟩ | ⟨l', h3⟩
        · cases h3
        · cases l' with
          | nil => simp at h3; exact .inl ⟨h3.2, by simp [h3.1]⟩
          | cons d l' => simp at h3; exact .inr ⟨l', h3.2⟩
      · rintro rfl
        simpa using h2
      · cases t with
        | nil => simp
        | cons d t => simpa using h2

theorem stringBody_iff (q : UInt8) (s : Bytes) : StringBody q s ↔ bodyOk q false s = true := by
  rw [bodyOk_iff]
  simp [StringBody, QuotesEscaped]

section
variable {o : Opts}

theorem bodyOf_skip {q : UInt8} {x y : Bytes} (hq : q < 128) (h : ∀ z ∈ x, 128 ≤ z) (esc : Bool) (hx : x ≠ []) :
    bodyOf q esc (x ++ y) = (bodyOf q false y).map fun p => (x ++ p.1, p.2) := by
  induction x generalizing esc with
  | nil => exact absurd rfl hx
  | cons c x ih =>
    have hc := h c (by simp)
    have h1 : c ≠ q := by rintro rfl; rw [UInt8.le_iff_toNat_le] at hc; rw [UInt8.lt_iff_toNat_lt] at hq; omega
    have h2 : (c == 92) = false := by
      rw [beq_eq_false_iff_ne]; rintro rfl; revert hc; decide
    rw [List.cons_append, bodyOf, if_neg (by simp [h1]), h2]
    by_cases hx : x = []
    · subst hx; simp
    · rw [ih (fun z hz => h z (by simp [hz])) false hx]
      simp [Option.map_map, Function.comp_def]

theorem bodyOf_noquote {q : UInt8} {t : Bytes} (h : ∀ r, t ≠ q :: r) : bodyOf q true t = bodyOf q false t := by
  cases t with
  | nil => rfl
  | cons c t =>
    have : c ≠ q := by rintro rfl; exact h t rfl
    simp [bodyOf, this]

/-- Where the body of a quoted text ends. -/
theorem run_quotedBody {q : UInt8} (hq : q < 128) (h92 : q ≠ 92) (b : Bytes) :
    ∃ v, ∀ fr, run o (G.quotedBody [92, q] [q]) b fr =
      .ok v (match bodyOf q false b with | some p => q :: p.2 | none => []) fr := by
  have t1 : ([92, q] : Bytes).all (fun c => decide (c < 128)) = true := by simp [hq]
  have t2 : ([q] : Bytes).all (fun c => decide (c < 128)) = true := by simp [hq]
  suffices hs : ∃ vs, Steps o (.choice [.lit [92, q], .seq [.not (.lit [q]), .any]]) b vs
      (match bodyOf q false b with | some p => q :: p.2 | none => []) ∧
      Fails o (.choice [.lit [92, q], .seq [.not (.lit [q]), .any]])
        (match bodyOf q false b with | some p => q :: p.2 | none => []) by
    obtain ⟨vs, h1, h2⟩ := hs
    exact ⟨_, fun fr => star_of_steps fr h1 h2⟩
  have f0 : Fails o (.choice [.lit [92, q], .seq [.not (.lit [q]), .any]]) [] := by
    simp [Fails, run_choice, choiceR, run_seq, seqR, run_tok t1, run_tok t2, run_not, run_any]
  obtain ⟨n, hn⟩ : ∃ n, b.length ≤ n := ⟨_, Nat.le_refl _⟩
  induction n generalizing b with
  | zero =>
    have : b = [] := by simpa using hn
    subst this
    exact ⟨[], .nil _, f0⟩
  | succ n ih =>
    cases b with
    | nil => exact ⟨[], .nil _, f0⟩
    | cons c t =>
      by_cases hcq : c = q
      · subst hcq
        refine ⟨[], ?_, ?_⟩
        · simp only [bodyOf]; exact .nil _
        · have : ¬ (92 : UInt8) = c := fun h => h92 h.symm
          simp [bodyOf, Fails, run_choice, choiceR, run_seq, seqR, run_tok t1, run_tok t2, run_not, this]
      · by_cases hesc : c = 92 ∧ ∃ r, t = q :: r
        · obtain ⟨rfl, r, rfl⟩ := hesc
          obtain ⟨vs, i1, i2⟩ := ih r (by simp at hn; omega)
          have hb : (match bodyOf q false (92 :: q :: r) with | some p => q :: p.2 | none => []) =
              (match bodyOf q false r with | some p => q :: p.2 | none => []) := by
            rw [bodyOf, if_neg (by simp [hcq]), bodyOf, if_neg (by simp)]
            have : (q == 92) = false := by simpa using h92
            rw [this]
            cases bodyOf q false r <;> rfl
          rw [hb]
          refine ⟨.bytes [92, q] :: vs, .cons ⟨[], ?_⟩ i1, i2⟩
          rw [run_choice, choiceR, run_tok t1]
          simp
        · obtain ⟨x, y, e1, e2, e3, e4, e5⟩ := rune_step c t
          have hy : y.length ≤ n := by
            have := congrArg List.length e1
            cases x with
            | nil => exact absurd rfl e2
            | cons d x => simp at this hn; omega
          obtain ⟨vs, i1, i2⟩ := ih y hy
          have hb : (match bodyOf q false (c :: t) with | some p => q :: p.2 | none => []) =
              (match bodyOf q false y with | some p => q :: p.2 | none => []) := by
            rcases e5 with ⟨f1, f2, f3, f4⟩ | ⟨f1, f2⟩
            · subst f3
              rw [bodyOf, if_neg (by simp [hcq])]
              by_cases h92c : c = 92
              · subst h92c
                rw [show ((92 : UInt8) == 92) = true from rfl,
                  bodyOf_noquote (fun r hr => hesc ⟨rfl, r, hr⟩)]
                cases bodyOf q false y <;> rfl
              · rw [show (c == 92) = false by simpa using h92c]
                cases bodyOf q false y <;> rfl
            · rw [e1, bodyOf_skip hq f1 false e2]
              cases bodyOf q false y <;> rfl
          rw [hb]
          refine ⟨.list [.nil, .bytes (consumed (c :: t) y)] :: vs, .cons ⟨[], ?_⟩ i1, i2⟩
          have g1 : List.isPrefixOf [92, q] (c :: t) = false := by
            rw [Bool.eq_false_iff]
            intro hp
            rw [List.isPrefixOf_iff_prefix] at hp
            obtain ⟨r, hr⟩ := hp
            simp at hr
            exact hesc ⟨hr.1.symm, r, hr.2.symm⟩
          have g2 : List.isPrefixOf [q] (c :: t) = false := by
            have : ¬ q = c := fun h => hcq h.symm
            simp [List.isPrefixOf, this]
          rw [run_choice]
          simp only [choiceR, run_tok t1, g1, run_seq, seqR, run_not, run_tok t2, g2, run_any, e3,
            reduceCtorEq, if_false, Bool.false_eq_true]
          rfl

/-- A quoted text. -/
def quotedEx (q : UInt8) (m : Bytes) : Ex :=
  .seq [.lit [q], G.quotedBody [92, q] [q], G.close [q] (.fatalError m)]

theorem run_quoted {q : UInt8} (hq : q < 128) (h92 : q ≠ 92) (m b : Bytes) :
    ∃ v, ∀ fr, run o (quotedEx q m) b fr =
      match b with
      | [] => .fail
      | c :: t => if c = q then
          match bodyOf q false t with
          | some p => .ok v p.2 fr
          | none => .abort
        else .fail := by
  have t2 : ([q] : Bytes).all (fun c => decide (c < 128)) = true := by simp [hq]
  cases b with
  | nil => exact ⟨.nil, fun fr => by simp [quotedEx, run_seq, seqR, run_tok t2]⟩
  | cons c t =>
    by_cases hc : c = q
    · subst hc
      obtain ⟨v, hv⟩ := run_quotedBody (o := o) hq h92 t
      cases hb : bodyOf c false t with
      | none =>
        refine ⟨.nil, fun fr => ?_⟩
        simp [quotedEx, run_seq, seqR, run_tok t2, hv, hb, G.close, run_choice, choiceR, run_fatalError]
      | some p =>
        refine ⟨.list [.bytes [c], v, .bytes [c]], fun fr => ?_⟩
        simp [quotedEx, run_seq, seqR, run_tok t2, hv, hb, G.close, run_choice, choiceR]
    · refine ⟨.nil, fun fr => ?_⟩
      have : ¬ q = c := fun h => hc h.symm
      simp [quotedEx, run_seq, seqR, run_tok t2, hc, this]

theorem quoted_ok {q : UInt8} (hq : q < 128) (h92 : q ≠ 92) {m b b' : Bytes} {fr fr' : Frame} :
    (∃ v, run o (quotedEx q m) b fr = .ok v b' fr') ↔
      fr' = fr ∧ ∃ body, StringBody q body ∧ b = q :: body ++ q :: b' := by
  obtain ⟨v, hv⟩ := run_quoted (o := o) hq h92 m b
  rw [hv]
  cases b with
  | nil => simp
  | cons c t =>
    by_cases hc : c = q
    · subst hc
      simp only [if_true]
      cases hb : bodyOf c false t with
      | none =>
        simp only [reduceCtorEq, exists_false, false_iff, not_and, not_exists]
        rintro - body h1 h2
        simp only [List.cons_append, List.cons.injEq, true_and] at h2
        rw [bodyOf_iff.2 ⟨h2, (stringBody_iff _ _).1 h1⟩] at hb
        cases hb
      | some p =>
        obtain ⟨x, y⟩ := p
        simp only [Res.ok.injEq]
        constructor
        · rintro ⟨w, h1, rfl, rfl⟩
          obtain ⟨h2, h3⟩ := bodyOf_iff.1 hb
          exact ⟨rfl, x, (stringBody_iff _ _).2 h3, by simp [h2]⟩
        · rintro ⟨rfl, body, h1, h2⟩
          simp only [List.cons_append, List.cons.injEq, true_and] at h2
          rw [bodyOf_iff.2 ⟨h2, (stringBody_iff _ _).1 h1⟩] at hb
          simp only [Option.some.injEq, Prod.mk.injEq] at hb
          exact ⟨_, rfl, hb.2.symm, rfl⟩
    · simp [hc]

theorem quoted_fail {q : UInt8} (hq : q < 128) (h92 : q ≠ 92) {m b : Bytes} {fr : Frame} :
    run o (quotedEx q m) b fr = .fail ↔ b.head? ≠ some q := by
  obtain ⟨v, hv⟩ := run_quoted (o := o) hq h92 m b
  rw [hv]
  cases b with
  | nil => simp
  | cons c t =>
    by_cases hc : c = q
    · subst hc
      simp only [if_true]
      cases bodyOf c false t <;> simp
    · simp [hc]

theorem enclosed_quoted (q : UInt8) (body : Bytes) : enclosed (q :: body ++ [q]) = body := by
  simp [enclosed]

theorem consumed_quoted (q : UInt8) (body b' : Bytes) : consumed (q :: body ++ q :: b') b' = q :: body ++ [q] := by
  have := consumed_append (q :: body ++ [q]) b'
  simpa using this

/-! ### String values -/

theorem runs_quotedString {q : UInt8} (hq : q < 128) (h92 : q ≠ 92) {m b b' : Bytes} {v : Val} {sat : Sat}
    (hs : sat ≠ .bareword) :
    Runs o (.action (.string sat) (.labeled .str (.action .enclosedValue (quotedEx q m)))) b v b' ↔
      ∃ body, StringBody q body ∧ b = q :: body ++ q :: b' ∧ v = .attr (.str ⟨Pos.zero, [], body, sat, []⟩) := by
  unfold Runs
  constructor
  · rintro ⟨f, h⟩
    obtain ⟨v1, h1, h2⟩ := action_ok.1 h
    obtain ⟨⟨f1, h3⟩, rfl⟩ := labeled_ok.1 h1
    obtain ⟨v2, h4, h5⟩ := action_ok.1 h3
    obtain ⟨_, body, h6, h7⟩ := (quoted_ok hq h92).1 ⟨_, h4⟩
    refine ⟨body, h6, h7, ?_⟩
    simp only [runAct, hs, if_false, h7, consumed_quoted, enclosed_quoted] at h2
    injection h2 with h2
    exact h2.symm
  · rintro ⟨body, h1, rfl, rfl⟩
    obtain ⟨v2, h4⟩ := (quoted_ok (o := o) (m := m) (fr := []) hq h92).2 ⟨rfl, body, h1, rfl⟩
    refine ⟨[(.str, .str body)], action_ok.2 ⟨.str body, labeled_ok.2 ⟨⟨[], ?_⟩, rfl⟩, ?_⟩⟩
    · refine action_ok.2 ⟨v2, h4, ?_⟩
      simp only [runAct, consumed_quoted, enclosed_quoted]
    · simp only [runAct, hs, if_false, consumed_quoted, enclosed_quoted]

theorem fails_quotedString {q : UInt8} (hq : q < 128) (h92 : q ≠ 92) {m b : Bytes} {sat : Sat} :
    Fails o (.action (.string sat) (.labeled .str (.action .enclosedValue (quotedEx q m)))) b ↔
      b.head? ≠ some q := by
  unfold Fails
  rw [action_fail, labeled_fail]
  unfold Fails
  rw [action_fail, quoted_fail hq h92]

/-- A quoted string. -/
theorem runs_stringValue {b b' : Bytes} {v : Val} :
    Runs o G.stringValue b v b' ↔ ∃ s : StrLit, s.Quoted ∧ b = s.text ++ b' ∧ v = .attr (.str s.ast) := by
  have h34 : (34 : UInt8) < 128 := by decide
  have h39 : (39 : UInt8) < 128 := by decide
  have d := @runs_quotedString o 34 h34 (by decide) b!"expect closing double quotes (\")" b b' v .doubleQuoted (by decide)
  have s := @runs_quotedString o 39 h39 (by decide) b!"expect closing single quote (')" b b' v .singleQuoted (by decide)
  have fd := @fails_quotedString o 34 h34 (by decide) b!"expect closing double quotes (\")" b .doubleQuoted
  have key : Runs o G.stringValue b v b' ↔ ∃ f, choiceR (run o)
      [.action (.string .doubleQuoted) (.labeled .str (.action .enclosedValue (quotedEx 34 b!"expect closing double quotes (\")"))),
       .action (.string .singleQuoted) (.labeled .str (.action .enclosedValue (quotedEx 39 b!"expect closing single quote (')")))]
      b [] = .ok v b' f := by
    unfold Runs
    constructor
    · rintro ⟨f, h⟩
      obtain ⟨v1, h1, h2⟩ := action_ok.1 h
      obtain ⟨⟨f1, h3⟩, rfl⟩ := labeled_ok.1 h1
      simp only [runAct, Frame.get, if_true] at h2
      injection h2 with h2
      subst h2
      exact ⟨f1, by rw [← run_choice]; exact h3⟩
    · rintro ⟨f, h⟩
      refine ⟨[(.str, v)], action_ok.2 ⟨v, labeled_ok.2 ⟨⟨f, ?_⟩, rfl⟩, by simp [runAct, Frame.get]⟩⟩
      rw [run_choice]; exact h
  rw [key]
  simp only [choiceR_cons_ok, choiceR_nil_ok, d, s, fd]
  constructor
  · rintro ⟨f, ⟨⟨body, h1, h2, h3⟩, _⟩ | ⟨_, ⟨⟨body, h1, h2, h3⟩, _⟩ | ⟨_, hh⟩⟩⟩
    · exact ⟨⟨.doubleQuoted, body⟩, .inl ⟨rfl, h1⟩, by simp [h2, StrLit.text, StrLit.quote], h3⟩
    · exact ⟨⟨.singleQuoted, body⟩, .inr ⟨rfl, h1⟩, by simp [h2, StrLit.text, StrLit.quote], h3⟩
    · exact absurd hh (by simp)
  · rintro ⟨⟨sat, body⟩, h1, h2, h3⟩
    rcases h1 with ⟨h0, h1⟩ | ⟨h0, h1⟩
    · simp only at h0 h1; subst h0
      exact ⟨[], .inl ⟨⟨body, h1, by simp [h2, StrLit.text, StrLit.quote], h3⟩, rfl⟩⟩
    · simp only at h0 h1; subst h0
      refine ⟨[], .inr ⟨?_, .inl ⟨⟨body, h1, by simp [h2, StrLit.text, StrLit.quote], h3⟩, rfl⟩⟩⟩
      rw [h2]; simp [StrLit.text, StrLit.quote]

theorem fails_stringValue {b : Bytes} :
    Fails o G.stringValue b ↔ b.head? ≠ some 34 ∧ b.head? ≠ some 39 := by
  have h34 : (34 : UInt8) < 128 := by decide
  have h39 : (39 : UInt8) < 128 := by decide
  have fd := @fails_quotedString o 34 h34 (by decide) b!"expect closing double quotes (\")" b .doubleQuoted
  have fs := @fails_quotedString o 39 h39 (by decide) b!"expect closing single quote (')" b .singleQuoted
  have key : Fails o G.stringValue b ↔ choiceR (run o)
      [.action (.string .doubleQuoted) (.labeled .str (.action .enclosedValue (quotedEx 34 b!"expect closing double quotes (\")"))),
       .action (.string .singleQuoted) (.labeled .str (.action .enclosedValue (quotedEx 39 b!"expect closing single quote (')")))]
      b [] = .fail := by
    unfold Fails
    rw [G.stringValue, action_fail, labeled_fail]
    unfold Fails
    rw [run_choice]
    rfl
  rw [key]
  simp only [choiceR_cons_fail, choiceR_nil_fail, fd, fs, and_true]

/-! ### Regular expressions -/

theorem runs_regexp {b b' : Bytes} {v : Val} :
    Runs o G.regexp b v b' ↔ ∃ body, StringBody 47 body ∧ b = 47 :: body ++ 47 :: b' ∧ v = .regexp ⟨Pos.zero, body⟩ := by
  have e : G.regexp = .action .regexp (quotedEx 47 b!"expect closing slash (/) for regexp") := rfl
  unfold Runs
  rw [e]
  constructor
  · rintro ⟨f, h⟩
    obtain ⟨v1, h1, h2⟩ := action_ok.1 h
    obtain ⟨_, body, h6, h7⟩ := (quoted_ok (by decide) (by decide)).1 ⟨_, h1⟩
    refine ⟨body, h6, h7, ?_⟩
    simp only [runAct, h7, consumed_quoted, enclosed_quoted] at h2
    injection h2 with h2
    exact h2.symm
  · rintro ⟨body, h1, rfl, rfl⟩
    obtain ⟨v2, h4⟩ := (quoted_ok (o := o) (m := b!"expect closing slash (/) for regexp") (fr := [])
      (q := 47) (by decide) (by decide)).2 ⟨rfl, body, h1, rfl⟩
    exact ⟨[], action_ok.2 ⟨v2, h4, by simp only [runAct, consumed_quoted, enclosed_quoted]⟩⟩

theorem fails_regexp {b : Bytes} : Fails o G.regexp b ↔ b.head? ≠ some 47 := by
  have e : G.regexp = .action .regexp (quotedEx 47 b!"expect closing slash (/) for regexp") := rfl
  unfold Fails
  rw [e, action_fail, quoted_fail (by decide) (by decide)]

/-! ### Names and barewords -/

theorem span_unique {P : UInt8 → Bool} {x y b : Bytes} (h : x.all P = true) (hy : y.takeWhile P = []) (hb : b = x ++ y) :
    b.takeWhile P = x ∧ b.dropWhile P = y := by
  subst hb
  rw [takeWhile_append_all _ h, dropWhile_append_all _ h, hy, dropWhile_of_takeWhile_nil hy]
  simp

theorem plus_class_ok {e : Ex} {P : UInt8 → Bool} (h : IsClass o e P) {b b' : Bytes} {fr fr' : Frame} :
    (∃ v, run o (.plus e) b fr = .ok v b' fr') ↔
      fr' = fr ∧ ∃ x, x ≠ [] ∧ x.all P = true ∧ b = x ++ b' ∧ b'.takeWhile P = [] := by
  cases b with
  | nil =>
    rw [h.plus_eof]
    simp only [reduceCtorEq, exists_false, false_iff, not_and]
    rintro - ⟨x, h1, h2, h3, h4⟩
    cases x
    · exact h1 rfl
    · simp at h3
  | cons c t =>
    cases hc : P c with
    | false =>
      rw [h.plus_no t fr hc]
      simp only [reduceCtorEq, exists_false, false_iff, not_and]
      rintro - ⟨x, h1, h2, h3, h4⟩
      cases x with
      | nil => exact h1 rfl
      | cons d x =>
        simp only [List.cons_append, List.cons.injEq] at h3
        simp [← h3.1, hc] at h2
    | true =>
      obtain ⟨v, hv⟩ := h.plus_yes t fr hc
      rw [hv]
      constructor
      · rintro ⟨w, hw⟩
        simp only [Res.ok.injEq] at hw
        obtain ⟨rfl, rfl, rfl⟩ := hw
        refine ⟨rfl, (c :: t).takeWhile P, by simp [List.takeWhile, hc], takeWhile_all _ _,
          List.takeWhile_append_dropWhile.symm, takeWhile_dropWhile _ _⟩
      · rintro ⟨rfl, x, h1, h2, h3, h4⟩
        rw [(span_unique h2 h4 h3).2]
        exact ⟨v, rfl⟩

theorem plus_class_fail {e : Ex} {P : UInt8 → Bool} (h : IsClass o e P) {b : Bytes} {fr : Frame} :
    run o (.plus e) b fr = .fail ↔ b.takeWhile P = [] := by
  cases b with
  | nil => rw [h.plus_eof]; simp
  | cons c t =>
    cases hc : P c with
    | false => rw [h.plus_no t fr hc]; simp [List.takeWhile, hc]
    | true =>
      obtain ⟨v, hv⟩ := h.plus_yes t fr hc
      rw [hv]; simp [List.takeWhile, hc]

/-- A name. -/
theorem runs_name {b b' : Bytes} {v : Val} :
    Runs o G.name b v b' ↔ ∃ s : StrLit, s.Name ∧ b = s.text ++ b' ∧ v = .attr (.str s.ast) ∧
      (s.sat = .bareword → b'.takeWhile isNameChar = []) := by
  have hplus := @plus_class_ok o _ _ class_name b b' [] 
  have hfail := @plus_class_fail o _ _ class_name b []
  constructor
  · rintro ⟨f, h⟩
    rw [G.name, run_choice] at h
    simp only [choiceR_cons_ok, choiceR_nil_ok, and_false, or_false] at h
    rcases h with ⟨⟨f1, h⟩, _⟩ | ⟨_, ⟨f1, h⟩, _⟩
    · obtain ⟨v1, h1, h2⟩ := action_ok.1 h
      obtain ⟨_, x, k1, k2, k3, k4⟩ := (hplus (fr' := f1)).1 ⟨v1, h1⟩
      refine ⟨⟨.bareword, x⟩, .inl ⟨rfl, k1, k2⟩, by simpa [StrLit.text, StrLit.quote] using k3, ?_, fun _ => k4⟩
      simp only [runAct, if_true, k3, consumed_append] at h2
      injection h2 with h2
      exact h2.symm
    · obtain ⟨v1, h1, h2⟩ := action_ok.1 h
      obtain ⟨h3, rfl⟩ := labeled_ok.1 h1
      simp only [runAct, Frame.get, if_true] at h2
      injection h2 with h2
      subst h2
      obtain ⟨s, k1, k2, k3⟩ := runs_stringValue.1 h3
      refine ⟨s, .inr k1, k2, k3, fun hs => ?_⟩
      rcases k1 with ⟨k1, _⟩ | ⟨k1, _⟩ <;> rw [hs] at k1 <;> cases k1
  · rintro ⟨⟨sat, x⟩, h1, h2, h3, h4⟩
    unfold Runs
    rw [G.name, run_choice]
    simp only [choiceR_cons_ok, choiceR_nil_ok, and_false, or_false]
    rcases h1 with ⟨k1, k2, k3⟩ | h1
    · simp only at k1 k2 k3 h4; subst k1
      have h2 : b = x ++ b' := by simpa [StrLit.text, StrLit.quote] using h2
      obtain ⟨v1, hv⟩ := (hplus (fr' := [])).2 ⟨rfl, x, k2, k3, h2, h4 rfl⟩
      refine ⟨[], .inl ⟨⟨[], action_ok.2 ⟨v1, hv, ?_⟩⟩, rfl⟩⟩
      simp only [runAct, if_true, h2, consumed_append, h3]
      rfl
    · refine ⟨[], .inr ⟨?_, ⟨_, action_ok.2 ⟨v, labeled_ok.2 ⟨runs_stringValue.2 ⟨_, h1, h2, h3⟩, rfl⟩, ?_⟩⟩, rfl⟩⟩
      · unfold Fails
        rw [action_fail, hfail, h2]
        rcases h1 with ⟨k1, _⟩ | ⟨k1, _⟩ <;> simp only at k1 <;> subst k1 <;> rfl
      · simp [runAct, Frame.get]

theorem fails_name {b : Bytes} : Fails o G.name b ↔
    b.takeWhile isNameChar = [] ∧ b.head? ≠ some 34 ∧ b.head? ≠ some 39 := by
  unfold Fails
  rw [G.name, run_choice]
  simp only [choiceR_cons_fail, choiceR_nil_fail, and_true]
  unfold Fails
  rw [action_fail, plus_class_fail class_name, action_fail, labeled_fail, fails_stringValue]

/-- A bareword value. -/
def BareOk (x : Bytes) : Prop := ∃ c r, x = c :: r ∧ isWordStart c = true ∧ r ≠ [] ∧ r.all isWordChar = true

theorem cls_one {e : Ex} {P : UInt8 → Bool} (h : IsClass o e P) (hP : ∀ c, P c = true → c < 128) (hne : e.isRep = false)
    {b b' : Bytes} {fr fr' : Frame}
    (hcls : ∀ c t, P c = true → c < 128 → ∃ v, ∀ fr, run o e (c :: t) fr = .ok v t fr) :
    (∃ v, run o e b fr = .ok v b' fr') ↔ fr' = fr ∧ ∃ c, P c = true ∧ b = c :: b' := by
  cases b with
  | nil => rw [h.eof]; simp
  | cons c t =>
    cases hc : P c with
    | false =>
      rw [h.no c t fr hc]
      simp only [reduceCtorEq, exists_false, false_iff, not_and]
      rintro - ⟨d, h1, h2⟩
      simp only [List.cons.injEq] at h2
      rw [← h2.1, hc] at h1; cases h1
    | true =>
      obtain ⟨v, hv⟩ := hcls c t hc (hP c hc)
      rw [hv]
      simp only [Res.ok.injEq]
      constructor
      · rintro ⟨_, _, rfl, rfl⟩; exact ⟨rfl, c, hc, rfl⟩
      · rintro ⟨rfl, d, h1, h2⟩
        simp only [List.cons.injEq] at h2
        exact ⟨v, rfl, h2.2, rfl⟩

theorem cls_ascii {x : Bytes} {chars : List Nat} {ranges : List (Nat × Nat)} {P : UInt8 → Bool}
    (h1 : ∀ c : UInt8, P c = clsMatches false chars ranges c.toNat) (c : UInt8) (t : Bytes)
    (h : P c = true) (hc : c < 128) : ∃ v, ∀ fr, run o (.cls x false chars ranges) (c :: t) fr = .ok v t fr := by
  refine ⟨.bytes (consumed (c :: t) t), fun fr => ?_⟩
  rw [run_cls, decodeRune_ascii hc, nextB_ascii hc]
  have := h1 c
  rw [h] at this
  simp [← this]

theorem bareword_seq {b b' : Bytes} {fr fr' : Frame} :
    (∃ v, run o (.seq [.cls b!"[_A-Za-z]" false [95] [(65, 90), (97, 122)],
      .plus (.cls b!"[_A-Za-z0-9]" false [95] [(65, 90), (97, 122), (48, 57)])]) b fr = .ok v b' fr') ↔
      fr' = fr ∧ ∃ x, BareOk x ∧ b = x ++ b' ∧ b'.takeWhile isWordChar = [] := by
  have h1 : ∀ b b' fr', _ := fun b b' fr' => cls_one (o := o) (b := b) (b' := b') (fr := fr) (fr' := fr')
    class_wordStart (by decide +kernel) rfl (fun c t => cls_ascii (by decide +kernel) c t)
  constructor
  · rintro ⟨v, h⟩
    rw [run_seq] at h
    obtain ⟨v1, b1, fr1, h2, h3⟩ := seqR_cons_ok.1 h
    obtain ⟨rfl, c, h4, rfl⟩ := (h1 _ _ _).1 ⟨v1, h2⟩
    obtain ⟨v2, b2, fr2, h5, h6⟩ := seqR_cons_ok.1 h3
    obtain ⟨rfl, x, k1, k2, rfl, k4⟩ := (plus_class_ok class_word).1 ⟨v2, h5⟩
    obtain ⟨_, rfl, rfl⟩ := seqR_nil_ok.1 h6
    exact ⟨rfl, c :: x, ⟨c, x, rfl, h4, k1, k2⟩, rfl, k4⟩
  · rintro ⟨rfl, x, ⟨c, r, rfl, h4, k1, k2⟩, rfl, k4⟩
    obtain ⟨v1, h2⟩ := (h1 (c :: r ++ b') (r ++ b') fr').2 ⟨rfl, c, h4, rfl⟩
    obtain ⟨v2, h3⟩ := (plus_class_ok (o := o) (fr := fr') class_word).2 ⟨rfl, r, k1, k2, rfl, k4⟩
    exact ⟨_, by rw [run_seq]; exact seqR_cons_ok.2 ⟨_, _, _, h2, seqR_cons_ok.2 ⟨_, _, _, h3, seqR_nil_ok.2 ⟨rfl, rfl, rfl⟩⟩⟩⟩

theorem runs_bareword {b b' : Bytes} {v : Val} :
    Runs o G.bareword b v b' ↔ ∃ x, BareOk x ∧ b = x ++ b' ∧ b'.takeWhile isWordChar = [] ∧
      v = .attr (.str (StrLit.ast ⟨.bareword, x⟩)) := by
  unfold Runs
  constructor
  · rintro ⟨f, h⟩
    obtain ⟨v1, h1, h2⟩ := action_ok.1 h
    obtain ⟨_, x, k1, k2, k3⟩ := bareword_seq.1 ⟨v1, h1⟩
    refine ⟨x, k1, k2, k3, ?_⟩
    simp only [runAct, if_true, k2, consumed_append] at h2
    injection h2 with h2
    exact h2.symm
  · rintro ⟨x, h1, rfl, h3, rfl⟩
    obtain ⟨v, hv⟩ := (bareword_seq (o := o) (fr := [])).2 ⟨rfl, x, h1, rfl, h3⟩
    exact ⟨[], action_ok.2 ⟨v, hv, by simp only [runAct, if_true, consumed_append]; rfl⟩⟩

theorem fails_bareword {b : Bytes} : Fails o G.bareword b ↔
    ¬ ∃ c d t, b = c :: d :: t ∧ isWordStart c = true ∧ isWordChar d = true := by
  unfold Fails
  rw [G.bareword, action_fail, run_seq]
  have h1 : ∀ b b' fr', _ := fun b b' fr' => cls_one (o := o) (b := b) (b' := b') (fr := []) (fr' := fr')
    class_wordStart (by decide +kernel) rfl (fun c t => cls_ascii (by decide +kernel) c t)
  constructor
  · rintro h ⟨c, d, t, rfl, h2, h3⟩
    obtain ⟨v, hv⟩ := (h1 (c :: d :: t) (d :: t) []).2 ⟨rfl, c, h2, rfl⟩
    rcases seqR_cons_fail.1 h with h4 | ⟨v1, b1, fr1, h4, h5⟩
    · rw [hv] at h4; cases h4
    · rw [hv] at h4
      simp only [Res.ok.injEq] at h4
      obtain ⟨rfl, rfl, rfl⟩ := h4
      rcases seqR_cons_fail.1 h5 with h6 | ⟨v1, b1, fr1, h6, h7⟩
      · rw [plus_class_fail class_word] at h6; simp [List.takeWhile, h3] at h6
      · exact seqR_nil_fail.1 h7
  · intro h
    rw [seqR_cons_fail]
    cases b with
    | nil => exact .inl (class_wordStart.eof _)
    | cons c t =>
      cases hc : isWordStart c with
      | false => exact .inl (class_wordStart.no _ _ _ hc)
      | true =>
        obtain ⟨v, hv⟩ := (h1 (c :: t) t []).2 ⟨rfl, c, hc, rfl⟩
        refine .inr ⟨_, _, _, hv, seqR_cons_fail.2 (.inl ?_)⟩
        rw [plus_class_fail class_word]
        cases t with
        | nil => rfl
        | cons d t =>
          cases hd : isWordChar d with
          | false => simp [List.takeWhile, hd]
          | true => exact absurd ⟨c, d, t, rfl, hc, hd⟩ h

/-! ### Numbers -/

/-- The bytes that continue a number. -/
def isNumChar (c : UInt8) : Bool := Spec.isDigit c || c == 46

/-- Split off a fraction. -/
def fracOf : Bytes → Bytes × Bytes
  | 46 :: t => (46 :: t.takeWhile Spec.isDigit, t.dropWhile Spec.isDigit)
  | b => ([], b)

/-- Split off a sign. -/
def signOf : Bytes → Bytes × Bytes
  | 45 :: t => ([45], t)
  | b => ([], b)

theorem signOf_append (b : Bytes) : (signOf b).1 ++ (signOf b).2 = b := by
  unfold signOf; split <;> rfl

theorem fracOf_append (b : Bytes) : (fracOf b).1 ++ (fracOf b).2 = b := by
  unfold fracOf; split
  · simp
  · rfl

theorem run_sign (b : Bytes) : ∃ v, ∀ fr, run o (.opt (.lit b!"-")) b fr = .ok v (signOf b).2 fr := by
  have t : (b!"-").all (fun c => decide (c < 128)) = true := by decide
  simp only [run_opt, run_tok t]
  cases b with
  | nil => exact ⟨.nil, fun fr => rfl⟩
  | cons c s =>
    by_cases hc : c = 45
    · subst hc; exact ⟨.bytes b!"-", fun fr => rfl⟩
    · have : ¬ (45 : UInt8) = c := fun h => hc h.symm
      refine ⟨.nil, fun fr => ?_⟩
      have : (signOf (c :: s)).2 = c :: s := by
        unfold signOf; split
        · rename_i h; simp only [List.cons.injEq] at h; exact absurd h.1 hc
        · rfl
      simp [*]

theorem run_frac (b : Bytes) : ∃ v, ∀ fr,
    run o (.opt (.seq [.lit b!".", .star (.cls b!"[0-9]" false [] [(48, 57)])])) b fr = .ok v (fracOf b).2 fr := by
  have t : (b!".").all (fun c => decide (c < 128)) = true := by decide
  simp only [run_opt, run_seq, seqR, run_tok t]
  cases b with
  | nil => exact ⟨.nil, fun fr => rfl⟩
  | cons c s =>
    by_cases hc : c = 46
    · subst hc
      obtain ⟨v, hv⟩ := class_digit.star' (o := o) s
      exact ⟨.list [.bytes b!".", v], fun fr => by simp [hv, fracOf]⟩
    · have h : ¬ (46 : UInt8) = c := fun h => hc h.symm
      refine ⟨.nil, fun fr => ?_⟩
      have : (fracOf (c :: s)).2 = c :: s := by
        unfold fracOf; split
        · rename_i h; simp only [List.cons.injEq] at h; exact absurd h.1 hc
        · rfl
      simp [*]

/-- The parts of a number at the start of the input. -/
theorem number_seq (b : Bytes) :
    let s := signOf b
    let f := fracOf (s.2.dropWhile Spec.isDigit)
    ∃ v, ∀ fr, run o (.seq [.opt (.lit b!"-"), .plus (.cls b!"[0-9]" false [] [(48, 57)]),
      .opt (.seq [.lit b!".", .star (.cls b!"[0-9]" false [] [(48, 57)])])]) b fr =
      if (s.2.takeWhile Spec.isDigit).isEmpty then .fail else .ok v f.2 fr := by
  intro s f
  obtain ⟨v1, h1⟩ := run_sign (o := o) b
  obtain ⟨v3, h3⟩ := run_frac (o := o) (s.2.dropWhile Spec.isDigit)
  by_cases hd : s.2.takeWhile Spec.isDigit = []
  · refine ⟨.nil, fun fr => ?_⟩
    have h2 := (plus_class_fail (o := o) (fr := fr) class_digit).2 hd
    simp only [run_seq, seqR, h1]
    rw [show (signOf b).2 = s.2 from rfl, h2, hd]
    rfl
  · have h2 := fun fr => (plus_class_ok (o := o) (fr := fr) (b := s.2) class_digit).2
      ⟨rfl, s.2.takeWhile Spec.isDigit, hd, takeWhile_all _ _, List.takeWhile_append_dropWhile.symm, takeWhile_dropWhile _ _⟩
    obtain ⟨v2, h2'⟩ := h2 []
    obtain ⟨_, vs, hne, rfl, hst, hf⟩ := plus_ok.1 h2'
    refine ⟨.list [v1, .list vs, v3], fun fr => ?_⟩
    have h4 : run o (.plus (.cls b!"[0-9]" false [] [(48, 57)])) s.2 fr = .ok (.list vs) (s.2.dropWhile Spec.isDigit) fr :=
      plus_ok.2 ⟨rfl, vs, hne, rfl, hst, hf⟩
    have h5 : (s.2.takeWhile Spec.isDigit).isEmpty = false := by simpa using hd
    rw [run_seq]
    simp only [seqR, h1]
    rw [show (signOf b).2 = s.2 from rfl, h4]
    simp only [h3, h5]
    rfl

theorem number_sound {b b' : Bytes} {v : Val} (h : Runs o G.number b v b') :
    ∃ t, NumOk t ∧ b = t ++ b' ∧ v = .attr (.num (numAst t)) := by
  obtain ⟨f, h⟩ := h
  obtain ⟨v1, h1, h2⟩ := action_ok.1 h
  obtain ⟨w, hw⟩ := number_seq (o := o) b
  rw [hw] at h1
  split at h1
  · cases h1
  · rename_i hd
    simp only [Res.ok.injEq] at h1
    obtain ⟨_, h3, _⟩ := h1
    have e1 := signOf_append b
    have e2 := List.takeWhile_append_dropWhile (p := Spec.isDigit) (l := (signOf b).2)
    have e3 := fracOf_append ((signOf b).2.dropWhile Spec.isDigit)
    let t := (signOf b).1 ++ (signOf b).2.takeWhile Spec.isDigit ++ (fracOf ((signOf b).2.dropWhile Spec.isDigit)).1
    have hb : b = t ++ b' := by
      conv => lhs; rw [← e1, ← e2, ← e3]
      simp [t, h3]
    have htok : NumTok t := by
      refine ⟨_, _, _, rfl, ?_, by simpa using hd, takeWhile_all _ _, ?_⟩
      · unfold signOf; split <;> simp
      · unfold fracOf; split
        · exact .inr ⟨_, rfl, takeWhile_all _ _⟩
        · exact .inl rfl
    refine ⟨t, ⟨htok, ?_⟩, hb, ?_⟩
    · rw [hb, consumed_append] at h2
      simp only [runAct] at h2
      split at h2
      · rename_i hp; simp [hp]
      · cases h2
    · rw [hb, consumed_append] at h2
      simp only [runAct] at h2
      split at h2
      · rename_i hp
        injection h2 with h2
        rw [← h2, numAst, hp]; rfl
      · cases h2

theorem num_parts {t b : Bytes} (h : NumTok t) (hb : b.takeWhile isNumChar = []) :
    ((signOf (t ++ b)).2.takeWhile Spec.isDigit).isEmpty = false ∧
      (fracOf ((signOf (t ++ b)).2.dropWhile Spec.isDigit)).2 = b := by
  obtain ⟨s, d, f, rfl, hs, hd, hd', hf⟩ := h
  have hbd : ∀ c u, b = c :: u → Spec.isDigit c = false ∧ c ≠ 46 := by
    rintro c u rfl
    cases hc : isNumChar c with
    | true => simp [List.takeWhile, hc] at hb
    | false => simpa [isNumChar] using hc
  have hnd : ∀ c, Spec.isDigit c = true → c ≠ 45 := by decide +kernel
  have h1 : (signOf (s ++ d ++ f ++ b)).2 = d ++ (f ++ b) := by
    cases d with
    | nil => exact absurd rfl hd
    | cons c d =>
      simp only [List.all_cons, Bool.and_eq_true] at hd'
      have := hnd c hd'.1
      rcases hs with rfl | rfl
      · unfold signOf; split
        · rename_i h; simp at h; exact absurd h.1 this
        · simp
      · simp [signOf]
  rw [h1]
  have h2 : (f ++ b).takeWhile Spec.isDigit = [] := by
    rcases hf with rfl | ⟨f', rfl, _⟩
    · cases b with
      | nil => rfl
      | cons c u => simp [List.takeWhile, (hbd c u rfl).1]
    · rfl
  have h3 := span_unique hd' h2 rfl
  rw [h3.1, h3.2]
  refine ⟨by simpa using hd, ?_⟩
  rcases hf with rfl | ⟨f', rfl, hf'⟩
  · unfold fracOf; split
    · rename_i h; simp at h; exact absurd rfl (hbd _ _ h).2
    · rfl
  · have h4 : b.takeWhile Spec.isDigit = [] := by
      cases b with
      | nil => rfl
      | cons c u => simp [List.takeWhile, (hbd c u rfl).1]
    simp only [List.cons_append, fracOf]
    rw [(span_unique hf' h4 rfl).2]

theorem number_complete {t b : Bytes} (h : NumOk t) (hb : b.takeWhile isNumChar = []) :
    Runs o G.number (t ++ b) (.attr (.num (numAst t))) b := by
  obtain ⟨h1, h2⟩ := num_parts h.1 hb
  obtain ⟨w, hw⟩ := number_seq (o := o) (t ++ b)
  refine ⟨[], action_ok.2 ⟨w, ?_, ?_⟩⟩
  · rw [hw, h1, h2]; rfl
  · simp only [runAct, consumed_append]
    cases hp : parseFloat t with
    | none => have := h.2; rw [hp] at this; cases this
    | some f => simp [numAst, hp]

theorem fails_number {b : Bytes} : Fails o G.number b ↔ (signOf b).2.takeWhile Spec.isDigit = [] := by
  unfold Fails
  rw [G.number, action_fail]
  obtain ⟨w, hw⟩ := number_seq (o := o) b
  rw [hw]
  split
  · rename_i h; simpa using h
  · rename_i h; simpa using h

/-! ### Field references -/

theorem selElem_ok {b b' : Bytes} {v : Val} {fr fr' : Frame} :
    run o G.selectorElement b fr = .ok v b' fr' ↔ fr' = fr ∧
      ∃ n, n ≠ [] ∧ n.all isSelChar = true ∧ b = 91 :: n ++ 93 :: b' ∧ v = .selElem ⟨Pos.zero, n⟩ := by
  have t1 : (b!"[").all (fun c => decide (c < 128)) = true := by decide
  have t2 : (b!"]").all (fun c => decide (c < 128)) = true := by decide
  rw [G.selectorElement, action_ok]
  simp only [run_seq, seqR_cons_ok, seqR_nil_ok, tok_ok t1, G.close, run_choice, choiceR_cons_ok, choiceR_nil_ok,
    and_false, or_false]
  constructor
  · rintro ⟨v1, ⟨v2, b2, fr2, ⟨rfl, rfl, rfl⟩, v3, b3, fr3, h1, v4, b4, fr4, h2, h3⟩, h4⟩
    obtain ⟨rfl, n, k1, k2, rfl, k4⟩ := (plus_class_ok class_sel).1 ⟨v3, h1⟩
    obtain ⟨rfl, rfl, rfl⟩ := h3
    rcases h2 with ⟨⟨f, h2⟩, rfl⟩ | ⟨_, ⟨f, h2⟩, _⟩
    · obtain ⟨rfl, _, _⟩ := (tok_ok t2).1 h2
      refine ⟨rfl, n, k1, k2, by simp, ?_⟩
      have : consumed (b!"[" ++ (n ++ (b!"]" ++ b'))) b' = 91 :: n ++ [93] := by
        have := consumed_append (91 :: n ++ [93]) b'
        simpa using this
      simp only [runAct] at h4
      rw [this] at h4
      simp only [enclosed] at h4
      injection h4 with h4
      rw [← h4]
      simp
    · rw [run_pushError] at h2; cases h2
  · rintro ⟨rfl, n, h1, h2, rfl, rfl⟩
    have h93 : isSelChar 93 = false := by decide
    obtain ⟨v3, h3⟩ := (plus_class_ok (o := o) (fr := fr') (b := n ++ 93 :: b') class_sel).2
      ⟨rfl, n, h1, h2, rfl, by simp [List.takeWhile, h93]⟩
    refine ⟨_, ⟨_, n ++ 93 :: b', fr', ⟨rfl, rfl, rfl⟩, v3, _, _, h3, .bytes b!"]", b', fr',
      .inl ⟨⟨[], tok_append t2 _ _⟩, rfl⟩, rfl, rfl, rfl⟩, ?_⟩
    have : consumed (91 :: n ++ 93 :: b') b' = 91 :: n ++ [93] := by
      have := consumed_append (91 :: n ++ [93]) b'
      simpa using this
    simp only [runAct]
    rw [this]
    simp [enclosed]

theorem fails_selElem {b : Bytes} : Fails o G.selectorElement b ↔ ¬ SelLike b := by
  have t1 : (b!"[").all (fun c => decide (c < 128)) = true := by decide
  have t2 : (b!"]").all (fun c => decide (c < 128)) = true := by decide
  constructor
  · rintro h ⟨n, r, h1, h2, h3⟩
    have := (selElem_ok (o := o) (fr := []) (fr' := []) (b := b) (b' := r)).2 ⟨rfl, n, h2, h3, h1, rfl⟩
    unfold Fails at h
    rw [h] at this; cases this
  · intro h
    unfold Fails
    rw [G.selectorElement, action_fail]
    simp only [run_seq, seqR_cons_fail, seqR_nil_fail, tok_ok t1, tok_fail t1, G.close, run_choice, choiceR_cons_fail,
      choiceR_nil_fail, and_true]
    by_cases hp : b!"[" <+: b
    · obtain ⟨r, rfl⟩ := hp
      right
      refine ⟨_, r, [], ⟨rfl, rfl, rfl⟩, ?_⟩
      by_cases hs : r.takeWhile isSelChar = []
      · exact .inl ((plus_class_fail class_sel).2 hs)
      · right
        obtain ⟨v, hv⟩ := (plus_class_ok (o := o) (fr := []) (b := r) class_sel).2
          ⟨rfl, r.takeWhile isSelChar, hs, takeWhile_all _ _, List.takeWhile_append_dropWhile.symm, takeWhile_dropWhile _ _⟩
        refine ⟨v, _, _, hv, .inl ⟨?_, run_pushError _ _ _⟩⟩
        unfold Fails
        rw [tok_fail t2]
        rintro ⟨u, hu⟩
        refine h ⟨r.takeWhile isSelChar, u, ?_, hs, takeWhile_all _ _⟩
        have := List.takeWhile_append_dropWhile (p := isSelChar) (l := r)
        rw [← hu] at this
        conv => lhs; rw [← this]
        simp
    · exact .inl hp

theorem sel_steps {b b' : Bytes} {vs : List Val} :
    Steps o G.selectorElement b vs b' ↔ ∃ names : List Bytes, (∀ n ∈ names, n ≠ [] ∧ n.all isSelChar = true) ∧
      b = selText names ++ b' ∧ vs = names.map fun n => .selElem ⟨Pos.zero, n⟩ := by
  constructor
  · intro h
    induction h with
    | nil => exact ⟨[], by simp, by simp [selText], rfl⟩
    | cons h1 _ ih =>
      obtain ⟨f, h1⟩ := h1
      obtain ⟨_, n, k1, k2, rfl, rfl⟩ := selElem_ok.1 h1
      obtain ⟨ns, i1, rfl, rfl⟩ := ih
      refine ⟨n :: ns, ?_, by simp [selText], rfl⟩
      intro m hm
      simp only [List.mem_cons] at hm
      rcases hm with rfl | hm
      · exact ⟨k1, k2⟩
      · exact i1 m hm
  · rintro ⟨names, h1, rfl, rfl⟩
    induction names with
    | nil => simp [selText]; exact .nil _
    | cons n ns ih =>
      have := h1 n (by simp)
      refine .cons ⟨[], selElem_ok.2 ⟨rfl, n, this.1, this.2, ?_, rfl⟩⟩ (ih (fun m hm => h1 m (by simp [hm])))
      simp [selText]

theorem collectSel (names : List Bytes) :
    collectSelElems (names.map fun n => Val.selElem ⟨Pos.zero, n⟩) = some (names.map fun n => ⟨Pos.zero, n⟩) := by
  induction names with
  | nil => rfl
  | cons n ns ih => simp [collectSelElems, ih]

/-- A field reference. -/
theorem runs_selector {b b' : Bytes} {v : Val} :
    Runs o G.selector b v b' ↔ ∃ names, SelOk names ∧ b = selText names ++ b' ∧ ¬ SelLike b' ∧
      v = .selector (selAst names) := by
  constructor
  · rintro ⟨f, h⟩
    obtain ⟨v1, h1, h2⟩ := action_ok.1 h
    obtain ⟨⟨f1, h3⟩, rfl⟩ := labeled_ok.1 h1
    obtain ⟨rfl, vs, hne, rfl, h4, h5⟩ := plus_ok.1 h3
    obtain ⟨names, k1, k2, rfl⟩ := sel_steps.1 h4
    refine ⟨names, ⟨fun hh => hne (by simp [hh]), k1⟩, k2, fails_selElem.1 h5, ?_⟩
    simp only [runAct, Frame.get, if_true, toIfaceSlice, collectSel] at h2
    injection h2 with h2
    exact h2.symm
  · rintro ⟨names, h1, h2, h3, rfl⟩
    refine ⟨[(.ses, .list (names.map fun n => Val.selElem ⟨Pos.zero, n⟩))], action_ok.2 ⟨_, labeled_ok.2 ⟨⟨[], plus_ok.2
      ⟨rfl, names.map fun n => .selElem ⟨Pos.zero, n⟩, ?_, rfl, sel_steps.2 ⟨names, h1.2, h2, rfl⟩,
        fails_selElem.2 h3⟩⟩, rfl⟩, ?_⟩⟩
    · have := h1.1; simpa using this
    · simp only [runAct, Frame.get, if_true, toIfaceSlice, collectSel, selAst]

theorem fails_selector {b : Bytes} : Fails o G.selector b ↔ ¬ SelLike b := by
  unfold Fails
  rw [G.selector, action_fail, labeled_fail]
  constructor
  · intro h hs
    unfold Fails at h
    rw [run_plus] at h
    obtain ⟨n, r, h1, h2, h3⟩ := hs
    have := (selElem_ok (o := o) (fr := []) (fr' := []) (b := b) (b' := r)).2 ⟨rfl, n, h2, h3, h1, rfl⟩
    rw [this] at h
    simp only at h
    have := star_never_fail (o := o) (e := G.selectorElement) (b := r) (fr := [])
    cases hx : run o G.selectorElement.star r [] with
    | ok v b1 f1 =>
      obtain ⟨_, vs, rfl, _⟩ := star_ok.1 hx
      rw [hx] at h; cases h
    | fail => exact this hx
    | abort => rw [hx] at h; cases h
    | timeout => rw [hx] at h; cases h
  · intro h
    exact plus_fail (fails_selElem.2 h)

/-! ### Closing tokens and operators -/

theorem close_ok {tok : Bytes} (h : tok.all (fun c => decide (c < 128)) = true) {c : Code} (hc : c ≠ .initParser)
    {b b' : Bytes} {v : Val} {fr fr' : Frame} :
    run o (G.close tok c) b fr = .ok v b' fr' ↔ b = tok ++ b' ∧ v = .bytes tok ∧ fr' = fr := by
  rw [G.close, run_choice]
  simp only [choiceR_cons_ok, choiceR_nil_ok, and_false, or_false]
  constructor
  · rintro (⟨⟨f, h1⟩, rfl⟩ | ⟨_, ⟨f, h1⟩, _⟩)
    · obtain ⟨h2, h3, _⟩ := (tok_ok h).1 h1
      exact ⟨h2, h3, rfl⟩
    · cases c with
      | initParser => exact absurd rfl hc
      | pushError m => rw [run_pushError] at h1; cases h1
      | fatalError m => rw [run_fatalError] at h1; cases h1
  · rintro ⟨rfl, rfl, rfl⟩
    exact .inl ⟨⟨[], tok_append h _ _⟩, rfl⟩

theorem close_push_fail {tok : Bytes} (h : tok.all (fun c => decide (c < 128)) = true) {m : Bytes}
    {b : Bytes} {fr : Frame} :
    run o (G.close tok (.pushError m)) b fr = .fail ↔ ¬ tok <+: b := by
  rw [G.close, run_choice]
  simp only [choiceR_cons_fail, choiceR_nil_fail, and_true]
  unfold Fails
  rw [tok_fail h, run_pushError]
  simp

theorem close_fatal_fail {tok : Bytes} {m : Bytes} {b : Bytes} {fr : Frame} :
    run o (G.close tok (.fatalError m)) b fr ≠ .fail := by
  rw [G.close, run_choice]
  simp only [ne_eq, choiceR_cons_fail, choiceR_nil_fail, and_true]
  unfold Fails
  rw [run_fatalError]
  simp

theorem runs_boolOp {b b' : Bytes} {v : Val} :
    Runs o G.booleanOperator b v b' ↔ ∃ op, (op ≠ .undefined ∧ op ≠ .noOp) ∧ b = boolText op ++ b' ∧
      v = .boolOp ⟨op, Pos.zero⟩ := by
  have t1 : (b!"and").all (fun c => decide (c < 128)) = true := by decide
  have t2 : (b!"or").all (fun c => decide (c < 128)) = true := by decide
  have t3 : (b!"xor").all (fun c => decide (c < 128)) = true := by decide
  have t4 : (b!"nand").all (fun c => decide (c < 128)) = true := by decide
  unfold Runs
  simp only [G.booleanOperator, action_ok, run_choice, choiceR_cons_ok, choiceR_nil_ok, and_false, or_false, Runs, Fails,
    tok_ok t1, tok_ok t2, tok_ok t3, tok_ok t4, tok_fail t1, tok_fail t2, tok_fail t3, tok_fail t4, run_pushError,
    reduceCtorEq, exists_false, false_and, and_false, or_false]
  constructor
  · rintro ⟨f, v1, h, h2⟩
    rcases h with ⟨⟨f1, rfl, rfl, rfl⟩, rfl⟩ | ⟨_, ⟨⟨f1, rfl, rfl, rfl⟩, rfl⟩ | ⟨_, ⟨⟨f1, rfl, rfl, rfl⟩, rfl⟩ |
      ⟨_, ⟨⟨f1, rfl, rfl, rfl⟩, rfl⟩⟩⟩⟩ <;>
    rw [consumed_append] at h2 <;> simp only [runAct] at h2 <;> injection h2 with h2
    · exact ⟨.and, by decide, rfl, h2.symm⟩
    · exact ⟨.or, by decide, rfl, h2.symm⟩
    · exact ⟨.xor, by decide, rfl, h2.symm⟩
    · exact ⟨.nand, by decide, rfl, h2.symm⟩
  · rintro ⟨op, h1, rfl, rfl⟩
    refine ⟨[], .bytes (boolText op), ?_, ?_⟩
    · cases op
      · exact absurd rfl h1.1
      · exact absurd rfl h1.2
      · exact .inl ⟨⟨[], rfl, rfl, rfl⟩, rfl⟩
      · exact .inr ⟨by simp [boolText], .inl ⟨⟨[], rfl, rfl, rfl⟩, rfl⟩⟩
      · exact .inr ⟨by simp [boolText], .inr ⟨by simp [boolText], .inl ⟨⟨[], rfl, rfl, rfl⟩, rfl⟩⟩⟩
      · exact .inr ⟨by simp [boolText], .inr ⟨by simp [boolText], .inr ⟨by simp [boolText], ⟨⟨[], rfl, rfl, rfl⟩, rfl⟩⟩⟩⟩
    · simp only [runAct, consumed_append]
      cases op <;> first | rfl | exact absurd rfl h1.1 | exact absurd rfl h1.2

theorem fails_boolOp {b : Bytes} : Fails o G.booleanOperator b ↔
    ¬ b!"and" <+: b ∧ ¬ b!"or" <+: b ∧ ¬ b!"xor" <+: b ∧ ¬ b!"nand" <+: b := by
  have t1 : (b!"and").all (fun c => decide (c < 128)) = true := by decide
  have t2 : (b!"or").all (fun c => decide (c < 128)) = true := by decide
  have t3 : (b!"xor").all (fun c => decide (c < 128)) = true := by decide
  have t4 : (b!"nand").all (fun c => decide (c < 128)) = true := by decide
  unfold Fails
  simp only [G.booleanOperator, action_fail, run_choice, choiceR_cons_fail, choiceR_nil_fail, Fails,
    tok_fail t1, tok_fail t2, tok_fail t3, tok_fail t4, run_pushError, and_true]

theorem runs_cmpOp {b b' : Bytes} {v : Val} :
    Runs o G.compareOperator b v b' ↔ ∃ op, op ≠ .undefined ∧ b = cmpText op ++ b' ∧
      ((op = .lt ∨ op = .gt) → b'.head? ≠ some 61) ∧ v = .cmpOp ⟨op, Pos.zero⟩ := by
  have t1 : (b!"==").all (fun c => decide (c < 128)) = true := by decide
  have t2 : (b!"!=").all (fun c => decide (c < 128)) = true := by decide
  have t3 : (b!"<=").all (fun c => decide (c < 128)) = true := by decide
  have t4 : (b!">=").all (fun c => decide (c < 128)) = true := by decide
  have h5 : ∀ b b' fr', _ := fun b b' fr' => cls_one (o := o) (b := b) (b' := b') (fr := []) (fr' := fr')
    class_ltgt (by decide +kernel) rfl (fun c t => cls_ascii (chars := [60, 62]) (ranges := [])
      (P := fun c => c == 60 || c == 62) (by decide +kernel) c t)
  unfold Runs
  simp only [G.compareOperator, action_ok, run_choice, choiceR_cons_ok, choiceR_nil_ok, and_false, or_false, Runs, Fails,
    tok_ok t1, tok_ok t2, tok_ok t3, tok_ok t4, tok_fail t1, tok_fail t2, tok_fail t3, tok_fail t4, run_pushError,
    reduceCtorEq, exists_false, false_and, and_false, or_false]
  constructor
  · rintro ⟨f, v1, h, h2⟩
    rcases h with ⟨⟨f1, rfl, rfl, rfl⟩, rfl⟩ | ⟨_, ⟨⟨f1, rfl, rfl, rfl⟩, rfl⟩ | ⟨_, ⟨⟨f1, rfl, rfl, rfl⟩, rfl⟩ |
      ⟨n3, ⟨⟨f1, rfl, rfl, rfl⟩, rfl⟩ | ⟨n4, ⟨f1, h⟩, rfl⟩⟩⟩⟩
    · rw [consumed_append] at h2; simp only [runAct] at h2; injection h2 with h2
      exact ⟨.eq, by decide, rfl, by simp, h2.symm⟩
    · rw [consumed_append] at h2; simp only [runAct] at h2; injection h2 with h2
      exact ⟨.ne, by decide, rfl, by simp, h2.symm⟩
    · rw [consumed_append] at h2; simp only [runAct] at h2; injection h2 with h2
      exact ⟨.le, by decide, rfl, by simp, h2.symm⟩
    · rw [consumed_append] at h2; simp only [runAct] at h2; injection h2 with h2
      exact ⟨.ge, by decide, rfl, by simp, h2.symm⟩
    · obtain ⟨_, c, k1, rfl⟩ := (h5 _ _ _).1 ⟨v1, h⟩
      rw [show c :: b' = [c] ++ b' from rfl, consumed_append] at h2
      simp only [runAct] at h2; injection h2 with h2
      have hne : ∀ t : Bytes, (∀ r, ¬ [c, 61] ++ r = c :: t) → t.head? ≠ some 61 := by
        intro t ht h
        cases t with
        | nil => cases h
        | cons d t => simp at h; exact ht t (by simp [h])
      simp only [Bool.or_eq_true, beq_iff_eq] at k1
      rcases k1 with rfl | rfl
      · exact ⟨.lt, by decide, rfl, fun _ => hne b' (fun r hr => n3 ⟨r, hr⟩), h2.symm⟩
      · exact ⟨.gt, by decide, rfl, fun _ => hne b' (fun r hr => n4 ⟨r, hr⟩), h2.symm⟩
  · rintro ⟨op, h1, rfl, h3, rfl⟩
    have np : ∀ (c d e : UInt8), ¬ (e = c ∧ b'.head? = some d) → ¬ [c, d] <+: e :: b' := by
      rintro c d e hh ⟨r, hr⟩
      simp at hr
      exact hh ⟨hr.1.symm, by rw [← hr.2]; rfl⟩
    have hact : runAct o .compareOperator [] Pos.zero (consumed (cmpText op ++ b') b') [] = .val (.cmpOp ⟨op, Pos.zero⟩) := by
      simp only [runAct, consumed_append]
      cases op <;> first | rfl | exact absurd rfl h1
    cases op
    · exact absurd rfl h1
    · exact ⟨[], _, .inl ⟨⟨[], rfl, rfl, rfl⟩, rfl⟩, hact⟩
    · exact ⟨[], _, .inr ⟨by simp [cmpText], .inl ⟨⟨[], rfl, rfl, rfl⟩, rfl⟩⟩, hact⟩
    · exact ⟨[], _, .inr ⟨by simp [cmpText], .inr ⟨by simp [cmpText], .inl ⟨⟨[], rfl, rfl, rfl⟩, rfl⟩⟩⟩, hact⟩
    · exact ⟨[], _, .inr ⟨by simp [cmpText], .inr ⟨by simp [cmpText], .inr ⟨by simp [cmpText], .inl ⟨⟨[], rfl, rfl, rfl⟩, rfl⟩⟩⟩⟩, hact⟩
    · obtain ⟨v, hv⟩ := (h5 (60 :: b') b' []).2 ⟨rfl, 60, rfl, rfl⟩
      have h3 := h3 (.inl rfl)
      exact ⟨[], v, .inr ⟨np _ _ _ (by simp), .inr ⟨np _ _ _ (by simp), .inr ⟨np _ _ _ (by simp [h3]),
        .inr ⟨np _ _ _ (by simp), ⟨[], hv⟩, rfl⟩⟩⟩⟩, hact⟩
    · obtain ⟨v, hv⟩ := (h5 (62 :: b') b' []).2 ⟨rfl, 62, rfl, rfl⟩
      have h3 := h3 (.inr rfl)
      exact ⟨[], v, .inr ⟨np _ _ _ (by simp), .inr ⟨np _ _ _ (by simp), .inr ⟨np _ _ _ (by simp),
        .inr ⟨np _ _ _ (by simp [h3]), ⟨[], hv⟩, rfl⟩⟩⟩⟩, hact⟩

theorem fails_cmpOp {b : Bytes} (h1 : ¬ b!"==" <+: b) (h2 : ¬ b!"!=" <+: b)
    (h3 : b.head? ≠ some 60) (h4 : b.head? ≠ some 62) : Fails o G.compareOperator b := by
  have t1 : (b!"==").all (fun c => decide (c < 128)) = true := by decide
  have t2 : (b!"!=").all (fun c => decide (c < 128)) = true := by decide
  have t3 : (b!"<=").all (fun c => decide (c < 128)) = true := by decide
  have t4 : (b!">=").all (fun c => decide (c < 128)) = true := by decide
  unfold Fails
  simp only [G.compareOperator, action_fail, run_choice, choiceR_cons_fail, choiceR_nil_fail, Fails,
    tok_fail t1, tok_fail t2, tok_fail t3, tok_fail t4, run_pushError, and_true]
  refine ⟨h1, h2, ?_, ?_, ?_⟩
  · rintro ⟨r, rfl⟩; exact h3 rfl
  · rintro ⟨r, rfl⟩; exact h4 rfl
  · cases b with
    | nil => exact class_ltgt.eof _
    | cons c t =>
      refine class_ltgt.no _ _ _ ?_
      have a1 : c ≠ 60 := by simpa using h3
      have a2 : c ≠ 62 := by simpa using h4
      simp [a1, a2]

theorem runs_reOp {b b' : Bytes} {v : Val} :
    Runs o G.regexpOperator b v b' ↔ ∃ op, op ≠ .undefined ∧ b = reText op ++ b' ∧ v = .reOp ⟨op, Pos.zero⟩ := by
  have t1 : (b!"=~").all (fun c => decide (c < 128)) = true := by decide
  have t2 : (b!"!~").all (fun c => decide (c < 128)) = true := by decide
  unfold Runs
  simp only [G.regexpOperator, action_ok, run_choice, choiceR_cons_ok, choiceR_nil_ok, and_false, or_false, Runs, Fails,
    tok_ok t1, tok_ok t2, tok_fail t1, tok_fail t2, run_pushError,
    reduceCtorEq, exists_false, false_and, and_false, or_false]
  constructor
  · rintro ⟨f, v1, h, h2⟩
    rcases h with ⟨⟨f1, rfl, rfl, rfl⟩, rfl⟩ | ⟨_, ⟨⟨f1, rfl, rfl, rfl⟩, rfl⟩⟩ <;>
    rw [consumed_append] at h2 <;> simp only [runAct] at h2 <;> injection h2 with h2
    · exact ⟨.match, by decide, rfl, h2.symm⟩
    · exact ⟨.notMatch, by decide, rfl, h2.symm⟩
  · rintro ⟨op, h1, rfl, rfl⟩
    refine ⟨[], .bytes (reText op), ?_, ?_⟩
    · cases op
      · exact absurd rfl h1
      · exact .inl ⟨⟨[], rfl, rfl, rfl⟩, rfl⟩
      · exact .inr ⟨by simp [reText], ⟨⟨[], rfl, rfl, rfl⟩, rfl⟩⟩
    · simp only [runAct, consumed_append]
      cases op <;> first | rfl | exact absurd rfl h1

theorem fails_reOp {b : Bytes} : Fails o G.regexpOperator b ↔ ¬ b!"=~" <+: b ∧ ¬ b!"!~" <+: b := by
  have t1 : (b!"=~").all (fun c => decide (c < 128)) = true := by decide
  have t2 : (b!"!~").all (fun c => decide (c < 128)) = true := by decide
  unfold Fails
  simp only [G.regexpOperator, action_fail, run_choice, choiceR_cons_fail, choiceR_nil_fail, Fails,
    tok_fail t1, tok_fail t2, run_pushError, and_true]

theorem runs_ptype {b b' : Bytes} {v : Val} :
    Runs o G.pluginType b v b' ↔ ∃ t, t ≠ .undefined ∧ b = ptypeText t ++ b' ∧ v = .ptype t := by
  have t1 : (b!"input").all (fun c => decide (c < 128)) = true := by decide
  have t2 : (b!"filter").all (fun c => decide (c < 128)) = true := by decide
  have t3 : (b!"output").all (fun c => decide (c < 128)) = true := by decide
  unfold Runs
  simp only [G.pluginType, run_choice, choiceR_cons_ok, choiceR_nil_ok, and_false, or_false, Runs, Fails, action_ok, action_fail,
    tok_ok t1, tok_ok t2, tok_ok t3, tok_fail t1, tok_fail t2, tok_fail t3, run_pushError, runAct, ActRes.val.injEq,
    reduceCtorEq, exists_false, false_and, and_false, or_false]
  constructor
  · rintro ⟨f, ⟨⟨f1, v1, ⟨rfl, rfl, rfl⟩, rfl⟩, _⟩ | ⟨_, ⟨⟨f1, v1, ⟨rfl, rfl, rfl⟩, rfl⟩, _⟩ |
      ⟨_, ⟨f1, v1, ⟨rfl, rfl, rfl⟩, rfl⟩, _⟩⟩⟩
    · exact ⟨.input, by decide, rfl, rfl⟩
    · exact ⟨.filter, by decide, rfl, rfl⟩
    · exact ⟨.output, by decide, rfl, rfl⟩
  · rintro ⟨t, h1, rfl, rfl⟩
    refine ⟨[], ?_⟩
    cases t
    · exact absurd rfl h1
    · exact .inl ⟨⟨[], _, ⟨rfl, rfl, rfl⟩, rfl⟩, rfl⟩
    · exact .inr ⟨by simp [ptypeText], .inl ⟨⟨[], _, ⟨rfl, rfl, rfl⟩, rfl⟩, rfl⟩⟩
    · exact .inr ⟨by simp [ptypeText], .inr ⟨by simp [ptypeText], ⟨[], _, ⟨rfl, rfl, rfl⟩, rfl⟩, rfl⟩⟩

theorem fails_ptype {b : Bytes} : Fails o G.pluginType b ↔
    ¬ b!"input" <+: b ∧ ¬ b!"filter" <+: b ∧ ¬ b!"output" <+: b := by
  have t1 : (b!"input").all (fun c => decide (c < 128)) = true := by decide
  have t2 : (b!"filter").all (fun c => decide (c < 128)) = true := by decide
  have t3 : (b!"output").all (fun c => decide (c < 128)) = true := by decide
  unfold Fails
  simp only [G.pluginType, run_choice, choiceR_cons_fail, choiceR_nil_fail, Fails, action_fail,
    tok_fail t1, tok_fail t2, tok_fail t3, run_pushError, and_true]

end

end Verif
