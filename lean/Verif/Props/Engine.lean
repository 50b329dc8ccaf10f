import Verif.Proofs.Parse
import Verif.Props.Report
/-
Properties of `Parse` as a whole, for every input and option setting: C01 (termination), C03
(UTF-8), C05 (no influence of history), C06 and C07 (failure report), C08 to C12 (options),
C13 (shape of the result), C49 (backtracking).
-/
namespace Verif.Props
open Verif Spec

/-! ### C01 -/

/-- **C01** `Parse` terminates for every input, option setting and history. -/
theorem C01_terminates (o : Opts) (filename data : Bytes) (ff : List FF) :
    (parse o filename data ff).1 ≠ .diverges := by
  rw [parse_finish]
  have := evalInit_term (parseFuel data) o data ff (Nat.le_refl _)
  cases h : evalInit (parseFuel data) o data ff with
  | timeout => exact absurd h this
  | _ => simp [finish]

/-- **C01** The nesting depth of parser calls and the length of every repetition are linear in
the input length: no bound of at least `60 * (length + 2)` on them is ever felt. -/
theorem C01_linear_depth (o : Opts) (filename data : Bytes) (ff : List FF) (bound : Nat)
    (h : 60 * (data.length + 2) ≤ bound) :
    parseWith bound o filename data ff = parse o filename data ff := by
  have h0 := evalInit_term (parseFuel data) o data ff (Nat.le_refl _)
  have hb := evalInit_term bound o data ff h
  rw [parseWith_finish _ _ _ _ _ hb, parse_finish, evalInit_mono (parseFuel data) bound h o data ff h0]

/-! ### C13 -/

/-- **C13** Every call of `Parse` returns; it returns an `ast.Config` — with an empty error list or
with errors that are invalid-encoding or value errors only — or nil and at least one error. -/
theorem C13_shape (o : Opts) (filename data : Bytes) (ff : List FF) :
    ∃ v es, (parse o filename data ff).1 = .done v es ∧
      ((∃ c, v = .config c ∧ ∀ e ∈ es, e.msg ∈ errMsgs) ∨ (v = .nil ∧ es ≠ [])) := by
  rw [parse_finish]
  have := evalInit_term (parseFuel data) o data ff (Nat.le_refl _)
  cases h : evalInit (parseFuel data) o data ff with
  | timeout => exact absurd h this
  | ok v t =>
    obtain ⟨c, rfl⟩ := evalInit_config v t h
    refine ⟨_, _, rfl, .inl ⟨c, rfl, fun e he => ?_⟩⟩
    have hm := evalInit_msgs (parseFuel data) o data ff
    rw [h] at hm
    exact hm e (dedupe_mem he)
  | fail t =>
    refine ⟨_, _, rfl, .inr ⟨rfl, ?_⟩⟩
    simp only [finish, ne_eq, dedupe_nil_iff]
    split
    · simp [St.addErrAt]
    · rename_i hne; intro hn; rw [hn] at hne; exact hne rfl
  | panic m t =>
    refine ⟨_, _, rfl, .inr ⟨rfl, ?_⟩⟩
    simp [dedupe_nil_iff, St.addErr, St.addErrAt]

/-- **C13** A nil error implies that the value is an `ast.Config`. -/
theorem C13_nil_error (o : Opts) (filename data : Bytes) (ff : List FF)
    (h : (parse o filename data ff).1.errs = []) :
    ∃ c, (parse o filename data ff).1 = .done (.config c) [] := by
  obtain ⟨v, es, hp, hc | hc⟩ := C13_shape o filename data ff
  · obtain ⟨c, rfl, -⟩ := hc
    rw [hp] at h ⊢
    exact ⟨c, by simp [ParseRes.errs] at h; rw [h]⟩
  · rw [hp] at h; exact absurd h hc.2

/-! ### C03 -/

/-- **C03** With default treatment of encoding errors, a nil error implies that the input is valid
UTF-8. -/
theorem C03_valid (o : Opts) (filename data : Bytes) (ff : List FF) (ho : o.allowInvalid = false)
    (h : (parse o filename data ff).1.errs = []) : ValidUTF8 data := by
  obtain ⟨c, hc⟩ := C13_nil_error o filename data ff h
  rw [parse_finish] at hc
  cases he : evalInit (parseFuel data) o data ff with
  | timeout => rw [he] at hc; cases hc
  | fail t => rw [he] at hc; simp [finish] at hc
  | panic m t => rw [he] at hc; simp [finish] at hc
  | ok v t =>
    rw [he] at hc
    simp only [finish, ParseRes.done.injEq, dedupe_nil_iff] at hc
    obtain ⟨t', h', rfl⟩ := evalInit_ok he
    have hg := eval_good o gram (parseFuel data) G.init (initSt o data ff)
    have hend := init_ends o (parseFuel data) (initSt o data ff)
    rw [h'] at hg hend
    obtain ⟨⟨-, -, ⟨x, hx⟩, -⟩, -, hadv⟩ := hg
    have hx0 : (initSt o data ff).errs = [] := by
      have := hc.2; simp only at this; rw [hx] at this; exact (List.append_eq_nil_iff.1 this).1
    have hinv : (initSt o data ff).pt.invalid = false := by
      rw [Bool.eq_false_iff]
      intro hi
      have hpt : (initSt o data ff).pt = (St.start data ff).pt.moveTo 0 (St.start data ff).pt.rest :=
        (firstRead_fields o _).1
      rw [hpt] at hi
      unfold initSt St.firstRead at hx0
      simp only [hi, ho] at hx0
      simp [St.addErr, St.addErrAt] at hx0
    have := valid_of_adv (hadv (by rw [hx0]; exact hc.2) ho) hinv hend
    rwa [initSt_rest] at this

/-- The hypothesis is met by a file with non-ASCII characters, and the conclusion fails for a lone
continuation byte, which is rejected. -/
example : (parse {} [] b!"filter { # ü\n}" []).1.errs = [] := by decide +kernel
example : (parse {} [] (b!"filter { # " ++ [0x80] ++ b!"\n}") []).1.errs ≠ [] := by decide +kernel

/-! ### C05 -/

/-- **C05** The value and the error list do not depend on what earlier parses left behind. -/
theorem C05_result (o : Opts) (filename data : Bytes) (ff ff' : List FF) :
    (parse o filename data ff).1 = (parse o filename data ff').1 := by
  rw [parse_finish, parse_finish]
  have h := evalInit_setFF (parseFuel data) o data ff
  have h' := evalInit_setFF (parseFuel data) o data ff'
  obtain ⟨f, h⟩ := h
  obtain ⟨f', h'⟩ := h'
  rw [h, h']
  cases evalInit (parseFuel data) o data [] with
  | ok v t => rfl
  | fail t =>
    simp only [Out.setFF, finish]
    cases t.errs.isEmpty <;> rfl
  | panic m t => rfl
  | timeout => rfl

/-- **C05** Neither does the failure report, unless the expression limit is below four. -/
theorem C05_report (o : Opts) (filename data : Bytes) (ff ff' : List FF)
    (hm : o.maxExpr = none ∨ ∃ m, o.maxExpr = some m ∧ 4 ≤ m) :
    parse o filename data ff = parse o filename data ff' := by
  rw [parse_finish, parse_finish, evalInit_ff _ o data ff hm (by unfold parseFuel; omega),
    evalInit_ff _ o data ff' hm (by unfold parseFuel; omega)]

/-- **C05** Violated: with `MaxExpressions(3)` the report of the previous parse survives. -/
theorem C05_violated : ∃ o filename data ff ff',
    (parse o filename data ff).2 ≠ (parse o filename data ff').2 := by
  refine ⟨{ maxExpr := some 3 }, [], [], [], [⟨b!"x", Pos.zero, [], 1⟩], ?_⟩
  decide +kernel

/-! ### C06 -/

/-- **C06** After every parse (with an expression limit of at least four, if any) the failure
report is the report on the history `h` of all expectations that failed during this parse
since the last reset: the expectations at the farthest position, in the order in which they
were first met, every message once.  (`hist` is a ghost field of the parser state recording every
failed expectation.) -/
theorem C06_parse (o : Opts) (filename data : Bytes) (ff : List FF)
    (hm : o.maxExpr = none ∨ ∃ m, o.maxExpr = some m ∧ 4 ≤ m) :
    ∃ t : St, (evalInit (parseFuel data) o data ff = .fail t ∨
        (∃ v, evalInit (parseFuel data) o data ff = .ok v t) ∨
        (∃ m, evalInit (parseFuel data) o data ff = .panic m t)) ∧
      (parse o filename data ff).2 = distinctAt (farthest t.hist) t.hist [] := by
  rw [parse_finish]
  have hT := evalInit_term (parseFuel data) o data ff (Nat.le_refl _)
  have hH := evalInit_hist (parseFuel data) o data ff hm (by unfold parseFuel; omega)
  cases h : evalInit (parseFuel data) o data ff with
  | timeout => exact absurd h hT
  | ok v t =>
    rw [h] at hH
    exact ⟨t, .inr (.inl ⟨v, rfl⟩), by rw [← C06_farthest]; exact hH⟩
  | fail t =>
    rw [h] at hH
    refine ⟨t, .inl rfl, ?_⟩
    rw [← C06_farthest]
    simp only [finish]
    split <;> exact hH
  | panic m t =>
    rw [h] at hH
    exact ⟨t, .inr (.inr ⟨m, rfl⟩), by rw [← C06_farthest]; exact hH⟩

/-- **C06** In particular: all entries of the report are at one position, and no message is listed
twice. -/
theorem C06_parse_entries (o : Opts) (filename data : Bytes) (ff : List FF)
    (hm : o.maxExpr = none ∨ ∃ m, o.maxExpr = some m ∧ 4 ≤ m) :
    (∃ p, ∀ e ∈ (parse o filename data ff).2, e.pos = p) ∧
    ((parse o filename data ff).2.map FF.msg).Nodup := by
  obtain ⟨t, -, h⟩ := C06_parse o filename data ff hm
  rw [h]
  exact ⟨⟨_, distinctAt_pos _ _ _⟩, distinctAt_nodup _ _ _⟩

/-! ### C07 -/

/-- **C07** An error whose text is a rendered failure report is exactly the report that
`GetFarthestFailure` returns after the parse. -/
theorem C07_same_text (o : Opts) (filename data : Bytes) (ff : List FF) (e : PErr)
    (he : e ∈ (parse o filename data ff).1.errs)
    (hp : b!"Parsing error at pos ".isPrefixOf e.msg = true) :
    getFarthestFailure (parse o filename data ff).2 = (e.msg, true) := by
  rw [parse_finish] at he ⊢
  have hm := evalInit_msgs (parseFuel data) o data ff
  have hno : ∀ m ∈ errMsgs, b!"Parsing error at pos ".isPrefixOf m = false := by decide
  have hno' : ¬ e.msg ∈ errMsgs := fun hmem => by
    have := hno _ hmem; rw [this] at hp; cases hp
  cases h : evalInit (parseFuel data) o data ff with
  | timeout => rw [h] at he; simp [finish, ParseRes.errs] at he
  | ok v t =>
    rw [h] at he hm
    exact absurd (hm e (dedupe_mem he)) hno'
  | fail t =>
    rw [h] at he hm
    simp only [finish, ParseRes.errs] at he
    have he := dedupe_mem he
    split at he
    · simp only [St.addErrAt, List.mem_append, List.mem_singleton] at he
      rcases he with he | he
      · exact absurd (hm e he) hno'
      · subst he
        simp only [noMatchMsg] at hp
        cases hp
    · exact absurd (hm e he) hno'
  | panic m t =>
    rw [h] at he hm
    simp only [finish, ParseRes.errs, St.addErr, St.addErrAt] at he ⊢
    have he := dedupe_mem he
    simp only [List.mem_append, List.mem_singleton] at he
    rcases he with he | he
    · exact absurd (hm.1 e he) hno'
    · subst he
      rcases hm.2 with h1 | h1 | h1
      · simp only at hp; rw [h1] at hp; exact absurd hp (by decide)
      · simp only at hp; rw [h1] at hp; exact absurd hp (by decide)
      · exact h1

/-- The hypothesis is met by a file with a missing closing quote. -/
example : ∃ e ∈ (parse {} [] b!"input { aa { bb => \"c } }" []).1.errs,
    b!"Parsing error at pos ".isPrefixOf e.msg = true := by decide +kernel

/-! ### C08, C09, C10 -/

/-- **C08** `IgnoreComments(true)` gives the same errors, the same failure report and the same
configuration, except that all comment blocks are empty. -/
theorem C08_ignoreComments (o : Opts) (filename data : Bytes) (ff : List FF) :
    parse { o with ignoreComments := true } filename data ff =
      (mapConfig dropComments (parse { o with ignoreComments := false } filename data ff).1,
       (parse { o with ignoreComments := false } filename data ff).2) := by
  rw [parse_finish, parse_finish]
  have hc : (valVMap .noComments _root_.id).Compat { o with ignoreComments := false }
      { o with ignoreComments := true } := by
    refine valVMap_compat comOk_noComments _root_.id rfl (fun text => rfl) (fun c s => ?_) rfl rfl (fun _ => rfl)
    cases c with
    | initState => rfl
    | warnComment =>
      simp only [runState]
      have : ((valVMap .noComments _root_.id).st s).curText = s.curText := rfl
      rw [this]
      split <;> rfl
  rw [evalInit_sim hc rfl, finish_sim _ _ _ _ (fun v t h => evalInit_config v t h)]
  rfl

/-- **C09** `ExceptionalCommentsWarning(true)` gives the same errors, the same failure report and the
same configuration, except for `Warnings`, which is empty without the option. -/
theorem C09_warnings (o : Opts) (filename data : Bytes) (ff : List FF) :
    parse { o with excWarn := false } filename data ff =
      (mapConfig (fun c => { c with warnings := [] })
        (parse { o with excWarn := true } filename data ff).1,
       (parse { o with excWarn := true } filename data ff).2) := by
  rw [parse_finish, parse_finish]
  have hc : (valVMap .id (fun _ => [])).Compat { o with excWarn := true }
      { o with excWarn := false } := by
    refine valVMap_compat comOk_id (fun _ => []) rfl (fun text => rfl) (fun c s => ?_) rfl rfl (fun _ => rfl)
    cases c with
    | initState => rfl
    | warnComment =>
      simp only [runState]
      rw [if_neg (by simp)]
      split <;> rfl
  rw [evalInit_sim hc rfl, finish_sim _ _ _ _ (fun v t h => evalInit_config v t h)]
  simp only [AMap.config_id]

/-- The option does add warnings. -/
example : (match (parse { excWarn := true } [] b!"input { aa { bb => # x\n 1 } }" []).1 with
    | .done (.config c) [] => c.warnings
    | _ => []) = [b!"exceptional comment at 1:19 [18]"] := by decide +kernel

/-- **C10** The option sets of `check` (`IgnoreComments`), `lint` (`ExceptionalCommentsWarning`) and
`format` (none) give the same errors for every content, so the three commands agree on validity
and report the same errors. -/
theorem C10_agree (filename data : Bytes) (ff : List FF) :
    (parse { ignoreComments := true } filename data ff).1.errs = (parse {} filename data ff).1.errs ∧
    (parse { excWarn := true } filename data ff).1.errs = (parse {} filename data ff).1.errs := by
  have hm : ∀ f r, (mapConfig f r).errs = r.errs := by
    intro f r
    cases r with
    | diverges => rfl
    | done v es => cases v <;> rfl
  constructor
  · have := C08_ignoreComments {} filename data ff
    rw [show ({ ignoreComments := true } : Opts) = { ({} : Opts) with ignoreComments := true } from rfl,
      this, hm]
  · have := C09_warnings {} filename data ff
    rw [show (parse {} filename data ff).1 = (parse { ({} : Opts) with excWarn := false } filename data ff).1
      from rfl, this, hm]

/-! ### C11, C12 -/

/-- **C11** With an expression limit the result is the result without, or nil and an error list that
ends with the limit error. -/
theorem C11_limit (o : Opts) (filename data : Bytes) (ff : List FF) :
    parse o filename data ff = parse { o with maxExpr := none } filename data ff ∨
    ∃ es e, (parse o filename data ff).1 = .done .nil (es ++ [e]) ∧ e.msg = maxExprMsg := by
  rw [parse_finish, parse_finish]
  rcases evalInit_lim (parseFuel data) o data ff with h | ⟨t, h, hn⟩
  · rw [h]; exact .inl rfl
  · rw [h]
    refine .inr ?_
    simp only [finish, St.addErr, St.addErrAt]
    obtain ⟨es, he⟩ := dedupe_snoc filename t.errs ⟨t.pt.pos, t.rstack.head?, maxExprMsg⟩ (by
      intro e he ht
      have hmem := hn e he
      exact text_ne filename e _ _ hmem ht)
    exact ⟨es, _, by rw [he], rfl⟩

/-- **C12** On valid UTF-8 `AllowInvalidUTF8` has no effect. -/
theorem C12_valid (o : Opts) (filename data : Bytes) (ff : List FF) (h : ValidUTF8 data) :
    parse { o with allowInvalid := true } filename data ff =
      parse { o with allowInvalid := false } filename data ff := by
  rw [parse_finish, parse_finish]
  have hf : (St.start data ff).firstRead { o with allowInvalid := true } =
      (St.start data ff).firstRead { o with allowInvalid := false } := by
    have : ((St.start data ff).pt.moveTo 0 (St.start data ff).pt.rest).invalid = false :=
      not_invalid_of_valid (by rw [Pt.moveTo_rest]; exact h)
    simp only [St.firstRead, this, Bool.false_and]
  unfold evalInit evalRule
  rw [hf]
  rw [eval_valid (o1 := { o with allowInvalid := true }) (o2 := { o with allowInvalid := false })
    rfl rfl rfl gram _ _ _ ?_]
  simp only [firstRead_rest]
  exact validRest_of_valid h

/-- On invalid UTF-8 it has one. -/
example : (parse { allowInvalid := true } [] (b!"#" ++ [0x80]) []).1.errs ≠
    (parse { allowInvalid := false } [] (b!"#" ++ [0x80]) []).1.errs := by decide +kernel

/-! ### C49 -/

/-- **C49** An expression that fails leaves the read position and the user state as they were. -/
theorem C49_fail (o : Opts) (G : Gram) (fuel : Nat) (e : Ex) (s t : St)
    (h : eval o G fuel e s = .fail t) : t.pt = s.pt ∧ t.warns = s.warns := by
  have := eval_good o G fuel e s
  rw [h] at this
  exact ⟨this.2.1, this.2.2⟩

/-- **C49** When the first alternative of a choice fails, the remaining ones are tried at the same
position, with the same user state and the same variable bindings. -/
theorem C49_choice (o : Opts) (G : Gram) (fuel : Nat) (e : Ex) (es : List Ex) (s t : St)
    (h : eval o G fuel e { s with cnt := s.cnt + 1, frame := [] } = .fail t) 
    (hm : tooMany o (s.cnt + 1) = false) :
    ∃ s', s'.pt = s.pt ∧ s'.warns = s.warns ∧ s'.frame = s.frame ∧ s'.rstack = s.rstack ∧
      eval o G (fuel + 1) (.choice (e :: es)) s = choiceLoop (eval o G fuel) es s' := by
  have hg := eval_good o G fuel e { s with cnt := s.cnt + 1, frame := [] }
  rw [h] at hg
  refine ⟨{ t with frame := s.frame, warns := s.warns }, hg.2.1, rfl, rfl, hg.1.rstack, ?_⟩
  simp only [eval, hm, step, choiceLoop, h]
  rfl

end Verif.Props
