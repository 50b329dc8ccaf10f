import Verif.Proofs.Trace
import Verif.Proofs.DebugSame
import Verif.Props.Entry
/-
Properties C72 (`Debug`) and C73 (`InitState`).
-/
namespace Verif.Props
open Verif Spec Debug

/-- Values of the caller are not read as warnings. -/
theorem init_warns {υ : Type} (states : List (Bytes × υ)) : (Dict.init states).warns = [] := by
  have h2 : ∀ (l : List (Bytes × υ)) (d : Dict υ), (∀ w, d warnKey ≠ some (.warnings w)) →
      ∀ w, (l.foldl (fun d x => d.set x.1 (.user x.2)) d) warnKey ≠ some (.warnings w) := by
    intro l
    induction l with
    | nil => exact fun d h => h
    | cons x l ih =>
      intro d h
      apply ih
      intro w
      simp only [Dict.set]
      by_cases hx : warnKey = x.1
      · rw [if_pos hx]; simp
      · rw [if_neg hx]; exact h w
  have h3 := h2 states (fun _ => none) (by simp)
  unfold Dict.warns
  cases h4 : Dict.init states warnKey with
  | none => rfl
  | some x =>
    cases x with
    | warnings w => exact absurd h4 (h3 w)
    | user v => rfl

/-- **C72, C73** Neither `Debug` nor any options `InitState` change the result of a call, the report of
`GetFarthestFailure` or `ExprCnt`, whatever the `Clone` methods of the values return. -/
theorem C72_same {υ : Type} (s : Settings) (states : List (Bytes × υ)) (clone : υ → υ) (cnt : Nat) (filename data : Bytes)
    (ff : List FF) : (parseDebug s states clone cnt filename data ff).1 = parseCall s cnt filename data ff := by
  unfold parseDebug parseCall
  cases Rule.ofName s.entrypoint with
  | none => rfl
  | some r =>
    have h1 := init_warns states
    have h5 : (⟨{ St.start data ff with cnt := cnt }.firstRead s.opts, Dict.init states, 0, []⟩ : DSt υ).st =
        { St.start data ff with cnt := cnt }.firstRead s.opts := by
      have h6 : ({ St.start data ff with cnt := cnt }.firstRead s.opts).warns = [] := by
        unfold St.firstRead; simp only; split <;> rfl
      simp only [DSt.st, h1]
      rw [← h6]
    have h7 : (Debug.run ⟨s.debug, s.opts, clone⟩ r cnt (Dict.init states) data ff).out =
        evalRule (eval s.opts gram (parseFuel data)) gram r ({ St.start data ff with cnt := cnt }.firstRead s.opts) := by
      unfold Debug.run
      rw [evalRuleD_proj (ev' := eval s.opts gram (parseFuel data)) (fun e m => evalD_proj _ e m), h5]
    simp only [h7]

/-- The point where the parser starts. -/
theorem start_pt (o : Opts) (cnt : Nat) (data : Bytes) (ff : List FF) :
    (({ St.start data ff with cnt := cnt }.firstRead o).pt).offset = 0 ∧
    (({ St.start data ff with cnt := cnt }.firstRead o).pt).rest = data := by
  rw [(firstRead_fields o _).1]
  simp only [St.start, Pt.moveTo]
  by_cases hd : (decodeRune data).1 = 10 <;> simp [hd]

/-- What the evaluation of the start rule tells. -/
theorem run_tell {υ : Type} (s : Settings) (hd : s.debug = true) (states : List (Bytes × υ)) (clone : υ → υ) (cnt : Nat)
    (data : Bytes) (ff : List FF) (r : Rule) :
    Tell data ({ St.start data ff with cnt := cnt }.firstRead s.opts).pt ⟨s.debug, s.opts, clone⟩ 0
      ⟨{ St.start data ff with cnt := cnt }.firstRead s.opts, Dict.init states, 0, []⟩
      (Debug.run ⟨s.debug, s.opts, clone⟩ r cnt (Dict.init states) data ff) :=
  evalRuleD_tell hd (start_pt s.opts cnt data ff) (evalD_tell hd (start_pt s.opts cnt data ff) _)
    (eval_truth (start_pt s.opts cnt data ff) _) r _ (.refl _)

/-- The lines of the whole call. -/
theorem parse_tell {υ : Type} (s : Settings) (hd : s.debug = true) (states : List (Bytes × υ)) (clone : υ → υ) (cnt : Nat)
    (filename data : Bytes) (ff : List FF) (r : Rule) (hr : Rule.ofName s.entrypoint = some r) :
    ∃ stopped, Nested data stopped 0 (parseDebug s states clone cnt filename data ff).2 ∧
      (stopped = true → ∃ x, (parseCall { s with recover := false } cnt filename data ff).1 = .panicked x) ∧
      (∀ l ∈ (parseDebug s states clone cnt filename data ff).2,
        ShownAt ({ St.start data ff with cnt := cnt }.firstRead s.opts).pt l) ∧
      (parseDebug s states clone cnt filename data ff).1.2.2 = cnt +
        exprCount (parseDebug s states clone cnt filename data ff).2 +
        (if tooMany s.opts (parseDebug s states clone cnt filename data ff).1.2.2 then 1 else 0) := by
  have h1 := run_tell s hd states clone cnt data ff r
  have h2 : ((parseDebug { s with recover := false } states clone cnt filename data ff).1).1 =
      (parseCall { s with recover := false } cnt filename data ff).1 := by
    rw [C72_same]
  have hk : ({ St.start data ff with cnt := cnt }.firstRead s.opts).cnt = cnt := Entry.fr_cnt _ _
  unfold parseDebug at h2 ⊢
  simp only [hr] at h2 ⊢
  have ho : ({ s with recover := false } : Settings).opts = s.opts := rfl
  rw [ho] at h2
  have hterm : (Debug.run ⟨s.debug, s.opts, clone⟩ r cnt (Dict.init states) data ff).out ≠ .timeout := by
    have h3 := C72_same s states clone cnt filename data ff
    unfold parseDebug parseCall at h3
    simp only [hr] at h3
    intro h4
    have h5 := Entry.out_term s.opts r cnt data ff
    have h6 : (Debug.run ⟨s.debug, s.opts, clone⟩ r cnt (Dict.init states) data ff).out = Entry.out s.opts r cnt data ff := by
      rw [h4] at h3
      unfold Entry.out at h5 ⊢
      cases h7 : evalRule (eval s.opts gram (parseFuel data)) gram r ({ St.start data ff with cnt := cnt }.firstRead s.opts) with
      | timeout => exact h4
      | ok v t => rw [h7] at h3; simp [finishCall] at h3
      | fail t => rw [h7] at h3; simp [finishCall] at h3
      | panic x t => rw [h7] at h3; cases hrec : s.recover <;> simp [finishCall, hrec] at h3
    exact h5 (h6 ▸ h4)
  cases hq : Debug.run ⟨s.debug, s.opts, clone⟩ r cnt (Dict.init states) data ff with
  | timeout => rw [hq] at hterm; exact absurd rfl hterm
  | ok v t =>
    rw [hq] at h1
    obtain ⟨⟨_, _, new, h3, h4, h5, h6⟩, h7⟩ := h1
    have h3' : t.out = new := by simpa using h3
    have h6' : t.s.cnt = cnt + exprCount new := by simpa [hk] using h6
    refine ⟨false, ?_, fun h => absurd h (by decide), ?_, ?_⟩
    · show Nested data false 0 t.out
      rw [h3']; exact h4
    · show ∀ l ∈ t.out, _
      rw [h3']; exact h5
    · show t.s.cnt = cnt + exprCount t.out + (if tooMany s.opts t.s.cnt then 1 else 0)
      have h7' : tooMany s.opts t.s.cnt = false := h7
      rw [h7', h3']; exact h6'
  | fail t =>
    rw [hq] at h1
    obtain ⟨⟨_, _, new, h3, h4, h5, h6⟩, h7⟩ := h1
    have h3' : t.out = new := by simpa using h3
    have h6' : t.s.cnt = cnt + exprCount new := by simpa [hk] using h6
    refine ⟨false, ?_, fun h => absurd h (by decide), ?_, ?_⟩
    · show Nested data false 0 t.out
      rw [h3']; exact h4
    · show ∀ l ∈ t.out, _
      rw [h3']; exact h5
    · show t.s.cnt = cnt + exprCount t.out + (if tooMany s.opts t.s.cnt then 1 else 0)
      have h7' : tooMany s.opts t.s.cnt = false := h7
      rw [h7', h3']; exact h6'
  | panic x t =>
    rw [hq] at h1 h2
    have hcnt : (finishCall s.recover filename ff cnt (DOut.panic x t : DOut υ).out).2.2 = t.s.cnt := rfl
    have key : ∀ u : DSt υ, Told data ({ St.start data ff with cnt := cnt }.firstRead s.opts).pt true 0
        (if tooMany s.opts u.s.cnt then 1 else 0)
        ⟨{ St.start data ff with cnt := cnt }.firstRead s.opts, Dict.init states, 0, []⟩ u →
        Nested data true 0 u.out ∧ (∀ l ∈ u.out, ShownAt ({ St.start data ff with cnt := cnt }.firstRead s.opts).pt l) ∧
        u.s.cnt = cnt + exprCount u.out + (if tooMany s.opts u.s.cnt then 1 else 0) := by
      rintro u ⟨_, _, new, h3, h4, h5, h6⟩
      have h3' : u.out = new := by simpa using h3
      have h6' : u.s.cnt = cnt + exprCount new + (if tooMany s.opts u.s.cnt then 1 else 0) := by simpa [hk] using h6
      rw [h3']
      exact ⟨h4, h5, h6'⟩
    have hpan : ∃ x, (parseCall { s with recover := false } cnt filename data ff).1 = .panicked x := ⟨x, h2.symm⟩
    have hfin : ∃ u : DSt υ, (DOut.panic x t : DOut υ).lines ⟨s.debug, s.opts, clone⟩ s.recover = u.out ∧ u.s = t.s ∧
        Told data ({ St.start data ff with cnt := cnt }.firstRead s.opts).pt true 0
        (if tooMany s.opts u.s.cnt then 1 else 0)
        ⟨{ St.start data ff with cnt := cnt }.firstRead s.opts, Dict.init states, 0, []⟩ u := by
      cases hrec : s.recover with
      | false => exact ⟨t, rfl, rfl, h1⟩
      | true =>
        refine ⟨(t.enter ⟨s.debug, s.opts, clone⟩ b!"panic handler").leave ⟨s.debug, s.opts, clone⟩ b!"panic handler", rfl,
          by rw [leave_s, enter_s], ?_⟩
        rw [leave_s, enter_s]
        exact told_then h1 (told_handler hd h1.2.1)
    obtain ⟨u, hu1, hu2, hu3⟩ := hfin
    obtain ⟨k1, k2, k3⟩ := key u hu3
    refine ⟨true, ?_, fun _ => hpan, ?_, ?_⟩
    · rw [hu1]; exact k1
    · rw [hu1]; exact k2
    · rw [hu1, hcnt, ← hu2]; exact k3

/-- **C72** Without `Debug(true)`, and for an unknown entry point, nothing is printed. -/
theorem C72_quiet {υ : Type} (s : Settings) (states : List (Bytes × υ)) (clone : υ → υ) (cnt : Nat) (filename data : Bytes)
    (ff : List FF) (h : s.debug = false ∨ Rule.ofName s.entrypoint = none) :
    (parseDebug s states clone cnt filename data ff).2 = [] := by
  unfold parseDebug
  cases hr : Rule.ofName s.entrypoint with
  | none => rfl
  | some r =>
    have hd : s.debug = false := by
      rcases h with h | h
      · exact h
      · rw [h] at hr; cases hr
    generalize hE : (⟨s.debug, s.opts, clone⟩ : Env υ) = E
    have hb : E.dbg = false := by rw [← hE]; exact hd
    have h1 : Mute ⟨{ St.start data ff with cnt := cnt }.firstRead E.o, Dict.init states, 0, []⟩
        (Debug.run E r cnt (Dict.init states) data ff) :=
      rule_mute hb (fun e m => evalD_mute hb _ e m) r _
    show (Debug.run E r cnt (Dict.init states) data ff).lines E s.recover = []
    cases hq : Debug.run E r cnt (Dict.init states) data ff with
    | timeout => rfl
    | ok v t => rw [hq] at h1; exact h1
    | fail t => rw [hq] at h1; exact h1
    | panic x t =>
      rw [hq] at h1
      show (if s.recover then _ else _) = []
      split
      · rw [leave_mute hb, enter_mute hb]; exact h1
      · exact h1

/-- **C73** `InitState` has no effect at all: not on the result, the report, the counter or the lines printed, for any keys
(also the one under which the parser keeps its warnings) and any values, whatever their `Clone` methods return. -/
theorem C73_inert {υ : Type} (s : Settings) (states : List (Bytes × υ)) (clone : υ → υ) (cnt : Nat) (filename data : Bytes)
    (ff : List FF) :
    parseDebug s states clone cnt filename data ff = parseDebug s ([] : List (Bytes × Unit)) id cnt filename data ff := by
  refine Prod.ext ?_ ?_
  · rw [C72_same, C72_same]
  · unfold parseDebug
    cases Rule.ofName s.entrypoint with
    | none => rfl
    | some r =>
      generalize hE : (⟨s.debug, s.opts, clone⟩ : Env υ) = E
      generalize hE' : (⟨s.debug, s.opts, id⟩ : Env Unit) = E'
      have hb : E.dbg = E'.dbg := by rw [← hE, ← hE']
      have ho : E.o = E'.o := by rw [← hE, ← hE']
      have hk : Kin (⟨{ St.start data ff with cnt := cnt }.firstRead E.o, Dict.init states, 0, []⟩ : DSt υ)
          (⟨{ St.start data ff with cnt := cnt }.firstRead E'.o, Dict.init [], 0, []⟩ : DSt Unit) := by
        rw [ho]
        exact .mk _ _ _ _ _ (init_warns states)
      have h1 := kin_rule hb (fun e m m' h => kin_eval hb ho (parseFuel data) e m m' h) r hk
      show (Debug.run E r cnt (Dict.init states) data ff).lines E s.recover =
        (Debug.run E' r cnt (Dict.init []) data ff).lines E' s.recover
      have h2 : KinOut (Debug.run E r cnt (Dict.init states) data ff) (Debug.run E' r cnt (Dict.init []) data ff) := h1
      revert h2
      generalize Debug.run E r cnt (Dict.init states) data ff = x
      generalize Debug.run E' r cnt (Dict.init []) data ff = x'
      have ho' : ∀ {t : DSt υ} {t' : DSt Unit}, Kin t t' → t.out = t'.out := fun h => by cases h; rfl
      intro h2
      cases h2 with
      | ok v h => exact ho' h
      | fail h => exact ho' h
      | panic x h =>
        simp only [DOut.lines]
        split
        · exact ho' ((h.enter hb _).leave hb _)
        · exact ho' h
      | timeout => rfl

/-- **C72** With `Debug(true)` the lines are well nested, also if a panic stops the parse: every line `>` has its line `<`
with the same name, and blocks do not overlap.  The block of a rule ends with a line `MATCH` exactly if the rule matches
there, and its text is the part of the input that is matched. -/
theorem C72_nested {υ : Type} (s : Settings) (hd : s.debug = true) (states : List (Bytes × υ)) (clone : υ → υ) (cnt : Nat)
    (filename data : Bytes) (ff : List FF) :
    ∃ stopped, Nested data stopped 0 (parseDebug s states clone cnt filename data ff).2 ∧
      (stopped = true → ∃ x, (parseCall { s with recover := false } cnt filename data ff).1 = .panicked x) := by
  cases hr : Rule.ofName s.entrypoint with
  | none =>
    refine ⟨false, ?_, fun h => absurd h (by decide)⟩
    unfold parseDebug
    rw [hr]
    exact .nil
  | some r =>
    obtain ⟨st, h1, h2, _⟩ := parse_tell s hd states clone cnt filename data ff r hr
    exact ⟨st, h1, h2⟩

/-- **C72** Every line shows the position of a place of the input and the character there. -/
theorem C72_places {υ : Type} (s : Settings) (hd : s.debug = true) (states : List (Bytes × υ)) (clone : υ → υ) (cnt : Nat)
    (filename data : Bytes) (ff : List FF) (hv : ValidUTF8 data) :
    ∀ l ∈ (parseDebug s states clone cnt filename data ff).2, Shows data l := by
  cases hr : Rule.ofName s.entrypoint with
  | none =>
    unfold parseDebug
    rw [hr]
    simp
  | some r =>
    obtain ⟨st, _, _, h1, _⟩ := parse_tell s hd states clone cnt filename data ff r hr
    intro l hl
    obtain ⟨p, h2, h3, h4⟩ := h1 l hl
    have h5 : ({ St.start data ff with cnt := cnt }.firstRead s.opts).pt = (initSt s.opts data ff).pt :=
      Entry.st0_pt (r := r) ff
    rw [h5] at h2
    have h6 := (PtOk.init s.opts data ff hv).adv h2
    exact ⟨p.offset, h6.le, h3.trans h6.pos, by rw [h4, ← h6.rest]; rfl⟩

/-- **C72** The blocks of parsing expressions are as many as `ExprCnt` counts; the expression that exceeds
`MaxExpressions` has no block. -/
theorem C72_count {υ : Type} (s : Settings) (hd : s.debug = true) (states : List (Bytes × υ)) (clone : υ → υ) (cnt : Nat)
    (filename data : Bytes) (ff : List FF) (hr : Rule.ofName s.entrypoint ≠ none) :
    (parseCall s cnt filename data ff).2.2 = cnt + exprCount (parseDebug s states clone cnt filename data ff).2 +
      (if ∃ m, s.opts.maxExpr = some m ∧ m < (parseCall s cnt filename data ff).2.2 then 1 else 0) := by
  cases hq : Rule.ofName s.entrypoint with
  | none => exact absurd hq hr
  | some r =>
    obtain ⟨st, _, _, _, h1⟩ := parse_tell s hd states clone cnt filename data ff r hq
    rw [C72_same] at h1
    have h2 : (if tooMany s.opts (parseCall s cnt filename data ff).2.2 then 1 else 0) =
        (if ∃ m, s.opts.maxExpr = some m ∧ m < (parseCall s cnt filename data ff).2.2 then 1 else 0) := by
      unfold tooMany
      cases s.opts.maxExpr with
      | none => simp
      | some m => simp
    rw [← h2]
    exact h1

/-! ### A concrete call -/

/-- `Debug(true)`, `Entrypoint("value")` and `MaxExpressions(3)`. -/
def debugThree : Settings := { Settings.default with debug := true, entrypoint := b!"value", maxExprCnt := 3 }

/-- `Debug(true)` and `Entrypoint("value")`. -/
def debugValue : Settings := { Settings.default with debug := true, entrypoint := b!"value" }

/-- The hypotheses are met: the entry point is known, `Debug` is set, and the text is valid. -/
example : debugThree.debug = true ∧ Rule.ofName debugThree.entrypoint ≠ none ∧ debugValue.debug = true ∧
    Rule.ofName debugValue.entrypoint ≠ none := by decide +kernel

example : ValidUTF8 b!"12" := validUTF8_ascii (by decide)

/-- What is printed for the text `12` with `MaxExpressions(3)`: the panic closes all the blocks. -/
example : (parseDebug debugThree ([] : List (Bytes × Unit)) id 0 b!"f" b!"12" []).2.map (fun l => (l.indent, l.mark, l.text)) =
    [(1, .enter, b!"parseRule value"), (2, .enter, b!"parseChoiceExpr"), (3, .enter, b!"cloneState"),
     (2, .leave, b!"cloneState"), (3, .enter, b!"parseRuleRefExpr plugin"), (4, .enter, b!"parseRule plugin"),
     (5, .enter, b!"parseActionExpr"), (4, .leave, b!"parseActionExpr"), (3, .leave, b!"parseRule plugin"),
     (2, .leave, b!"parseRuleRefExpr plugin"), (1, .leave, b!"parseChoiceExpr"), (0, .leave, b!"parseRule value"),
     (1, .enter, b!"panic handler"), (0, .leave, b!"panic handler")] := by decide +kernel

/-- The three expressions with a block and the one that exceeds the limit. -/
example : exprCount (parseDebug debugThree ([] : List (Bytes × Unit)) id 0 b!"f" b!"12" []).2 = 3 ∧
    (parseCall debugThree 0 b!"f" b!"12" []).2.2 = 4 := by decide +kernel

/-- Without the limit the last lines say that `value` matched `12`, and `ExprCnt` is the number of the blocks. -/
example : let x := parseDebug debugValue ([] : List (Bytes × Unit)) id 0 b!"f" b!"12" []
    x.2.length = 254 ∧ exprCount x.2 = 68 ∧ x.1.2.2 = 68 ∧
    (x.2.reverse.take 2).map (fun l => (l.indent, l.mark, l.pos, l.text)) =
      [(0, .leave, ⟨1, 3, 2⟩, b!"parseRule value"), (1, .matched, ⟨1, 3, 2⟩, b!"12")] := by decide +kernel

/-- A value of the caller under the key of the warnings, and a `Clone` method that returns another value. -/
example : (parseDebug debugValue [(warnKey, 1), (b!"k", 2)] (· + 1) 0 b!"f" b!"12" []).2 =
    (parseDebug debugValue ([] : List (Bytes × Unit)) id 0 b!"f" b!"12" []).2 := by decide +kernel

end Verif.Props
