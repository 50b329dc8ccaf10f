import Verif.Proofs.Lint
import Verif.Props.Engine
/-
The commands, one argument at a time.
-/
namespace Verif
open Spec Props

theorem parse_value_name (o : Opts) (f f' data : Bytes) (ff ff' : List FF) :
    (parse o f data ff).1.value = (parse o f' data ff').1.value ∧
    ((parse o f data ff).1.errs = [] ↔ (parse o f' data ff').1.errs = []) := by
  rw [C05_result o f' data ff' ff, parse_finish, parse_finish]
  cases h : evalInit (parseFuel data) o data ff with
  | ok v t => simp [finish, ParseRes.value, ParseRes.errs, dedupe_nil_iff]
  | fail t => simp [finish, ParseRes.value, ParseRes.errs, dedupe_nil_iff]
  | panic m t => simp [finish, ParseRes.value, ParseRes.errs, dedupe_nil_iff]
  | timeout => simp [finish, ParseRes.value, ParseRes.errs]

/-- The option sets of the three commands. -/
inductive CmdOpts : Opts → Prop
  | format : CmdOpts {}
  | check : CmdOpts { ignoreComments := true }
  | lint : CmdOpts { excWarn := true }

theorem cmd_errs {o : Opts} (h : CmdOpts o) (f data : Bytes) (ff : List FF) :
    (parse o f data ff).1.errs = (parse {} f data []).1.errs ∧
    (parse o f data ff).2 = (parse {} f data []).2 := by
  have h1 : ∀ o : Opts, o.maxExpr = none → parse o f data ff = parse o f data [] :=
    fun o ho => C05_report o f data ff [] (.inl ho)
  cases h with
  | format => rw [h1 {} rfl]; exact ⟨rfl, rfl⟩
  | check =>
    rw [h1 _ rfl]
    refine ⟨(C10_agree f data []).1, ?_⟩
    have := C08_ignoreComments {} f data []
    rw [this]
  | lint =>
    rw [h1 _ rfl]
    refine ⟨(C10_agree f data []).2, ?_⟩
    have := C09_warnings {} f data []
    exact (congrArg Prod.snd this).symm.trans rfl

theorem errs_valid (f data : Bytes) (ff : List FF) : (parse {} f data ff).1.errs = [] ↔ valid data = true := by
  rw [(parse_value_name {} f [] data ff []).2]
  simp [valid]

theorem valid_configOf {data : Bytes} : valid data = true ↔ ∃ c, configOf data = some c := by
  constructor
  · intro h
    have he := (errs_valid [] data []).2 h
    obtain ⟨c, hc⟩ := C13_nil_error {} [] data [] he
    exact ⟨c, by unfold configOf; rw [hc]⟩
  · rintro ⟨c, hc⟩
    unfold configOf at hc
    split at hc
    · rename_i h; simp [valid, h, ParseRes.errs]
    · cases hc

theorem configOf_parse {data : Bytes} {c : Config} (h : configOf data = some c) (f : Bytes) (ff : List FF) :
    (parse {} f data ff).1 = .done (.config c) [] := by
  have hv := valid_configOf.2 ⟨c, h⟩
  obtain ⟨c', hc'⟩ := C13_nil_error {} f data ff ((errs_valid f data ff).2 hv)
  have := (parse_value_name {} f [] data ff []).1
  unfold configOf at h
  split at h
  · rename_i heq
    rw [hc', heq] at this
    simp only [ParseRes.value, Val.config.injEq] at this
    injection h with h
    rw [hc', this, h]
  · cases h

/-- `parseFile` on a readable file, whatever command runs it. -/
theorem parseFile_valid {o : Opts} (ho : CmdOpts o) {w : World} {name content : Bytes} {acc : Access}
    (hf : w.fs name = .file content acc) (hr : acc.openErr = none) (hv : valid content = true) :
    ∃ c, (parse o name content w.ff).1 = .done (.config c) [] ∧ parseFile o name w =
      (.ok (.config c), { w with ff := (parse {} name content []).2 }) := by
  obtain ⟨h1, h2⟩ := cmd_errs ho name content w.ff
  obtain ⟨c, hc⟩ := C13_nil_error o name content w.ff (by
    rw [h1]; exact (errs_valid name content []).2 hv)
  refine ⟨c, hc, ?_⟩
  unfold parseFile
  rw [hf]
  simp only [hr, hc, h2]

theorem parseFile_invalid {o : Opts} (ho : CmdOpts o) {w : World} {name content : Bytes} {acc : Access}
    (hf : w.fs name = .file content acc) (hr : acc.openErr = none) (hv : valid content = false) :
    parseFile o name w =
      (.err (failureText w.fs name), { w with ff := (parse {} name content []).2 }) := by
  obtain ⟨h1, h2⟩ := cmd_errs ho name content w.ff
  obtain ⟨v, es, hp, -⟩ := C13_shape o name content w.ff
  have hes : es = (parse {} name content []).1.errs := by rw [← h1, hp]; rfl
  have hne : es ≠ [] := by
    intro h
    rw [hes] at h
    rw [(errs_valid name content []).1 h] at hv
    cases hv
  unfold parseFile failureText
  rw [hf]
  simp only [hr, hp]
  cases es with
  | nil => exact absurd rfl hne
  | cons e es => simp only [h2, hes]

theorem parseFile_open {o : Opts} {w : World} {name content e : Bytes} {acc : Access}
    (hf : w.fs name = .file content acc) (hr : acc.openErr = some e) :
    parseFile o name w = (.err (failureText w.fs name), w) := by
  unfold parseFile failureText
  rw [hf]
  simp only [hr]

theorem containsSub_infix {s sub : Bytes} (h : containsSub s sub = true) : sub <:+: s := by
  induction s with
  | nil => simp [containsSub] at h; subst h; exact List.infix_refl _
  | cons b t ih =>
    simp only [containsSub, Bool.or_eq_true, List.isPrefixOf_iff_prefix] at h
    rcases h with h | h
    · exact h.isInfix
    · exact (ih h).trans (List.infix_cons (List.infix_refl _))

theorem infix_containsSub {s sub : Bytes} (h : sub <:+: s) : containsSub s sub = true := by
  induction s with
  | nil => simp at h; subst h; rfl
  | cons b t ih =>
    simp only [containsSub, Bool.or_eq_true, List.isPrefixOf_iff_prefix]
    rcases List.infix_cons_iff.1 h with h | h
    · exact .inl h
    · exact .inr (ih h)

/-- An error entry names the file, the error and the report. -/
theorem fileError_spec (twice : Bool) (name err : Bytes) (ff : List FF) :
    name ++ b!": " <+: fileError twice name err ff ∧ err <:+: fileError twice name err ff ∧
    (getFarthestFailure ff).1 <:+: fileError twice name err ff := by
  have hpre : ∀ x : Bytes, name ++ b!": " <+: name ++ b!": " ++ x := fun x => List.prefix_append _ _
  unfold fileError
  simp only
  split
  · rename_i h
    have h1 : err <:+: name ++ b!": " ++ err ++ b!"\n" ++ (getFarthestFailure ff).1 :=
      ⟨name ++ b!": ", b!"\n" ++ (getFarthestFailure ff).1, by simp⟩
    have h2 : (getFarthestFailure ff).1 <:+: name ++ b!": " ++ err ++ b!"\n" ++ (getFarthestFailure ff).1 :=
      ⟨name ++ b!": " ++ err ++ b!"\n", [], by simp⟩
    have hc : ∀ {a : Bytes} (x b : Bytes), a <:+: b → a <:+: x ++ b := by
      rintro a x b ⟨u, t, rfl⟩; exact ⟨x ++ u, t, by simp⟩
    cases twice
    · exact ⟨⟨err ++ b!"\n" ++ (getFarthestFailure ff).1, by simp⟩, h1, h2⟩
    · refine ⟨hpre _, ?_, ?_⟩
      · exact hc _ _ h1
      · exact hc _ _ h2
  · rename_i h
    refine ⟨hpre _, ⟨name ++ b!": ", [], by simp⟩, ?_⟩
    by_cases h2 : (getFarthestFailure ff).2 = true
    · have : containsSub err (getFarthestFailure ff).1 = true := by simpa [h2] using h
      obtain ⟨a, b, hab⟩ := containsSub_infix this
      exact ⟨name ++ b!": " ++ a, b, by simp [← hab]⟩
    · have : (getFarthestFailure ff).1 = [] := by
        cases ff with
        | nil => rfl
        | cons f r => simp [getFarthestFailure] at h2
      rw [this]; exact List.nil_infix

/-- What the failing branch of the commands reports. -/
theorem describes_fileError {w : World} {name : Bytes} (twice : Bool) {ff : List FF}
    (h : ∀ content acc, w.fs name = .file content acc → acc.openErr = none →
      ff = (parse {} name content []).2) :
    Describes w.fs name (fileError twice name (failureText w.fs name) ff) := by
  obtain ⟨h1, h2, h3⟩ := fileError_spec twice name (failureText w.fs name) ff
  refine ⟨h1, h2, fun content acc hf hr => ?_⟩
  rw [← h content acc hf hr]
  exact h3

/-! ### One argument at a time -/

theorem fails_file {fs : FS} {name content : Bytes} {acc : Access} (h : fs name = .file content acc) :
    fails fs name = (acc.openErr.isSome || !valid content) := by
  simp [fails, h]

/-- A failing, existing argument: every command's call of `ParseFile` reports it. -/
theorem parseFile_fails {o : Opts} (ho : CmdOpts o) {w : World} {name content : Bytes} {acc : Access}
    (hf : w.fs name = .file content acc) (hfail : fails w.fs name = true) :
    ∃ ff, parseFile o name w = (.err (failureText w.fs name), { w with ff := ff }) ∧
      ∀ twice, Describes w.fs name (fileError twice name (failureText w.fs name) ff) := by
  rw [fails_file hf] at hfail
  cases hr : acc.openErr with
  | some e =>
    refine ⟨w.ff, parseFile_open hf hr, fun twice => describes_fileError twice ?_⟩
    intro c' a' hf' hr'
    rw [hf] at hf'; injection hf' with h1 h2; subst h2; rw [hr] at hr'; cases hr'
  | none =>
    refine ⟨_, parseFile_invalid ho hf hr (by simpa [hr] using hfail), fun twice => describes_fileError twice ?_⟩
    intro c' a' hf' hr'
    rw [hf] at hf'; injection hf' with h1 h2; subst h1; rfl

theorem parseFile_fine {o : Opts} (ho : CmdOpts o) {w : World} {name content : Bytes} {acc : Access}
    (hf : w.fs name = .file content acc) (hfail : fails w.fs name = false) :
    valid content = true ∧
    ∃ c ff, (parse o name content w.ff).1 = .done (.config c) [] ∧
      parseFile o name w = (.ok (.config c), { w with ff := ff }) := by
  rw [fails_file hf] at hfail
  simp only [Bool.or_eq_false_iff, Bool.not_eq_false'] at hfail
  obtain ⟨c, hc, hp⟩ := parseFile_valid ho hf (by cases h : acc.openErr <;> simp_all) hfail.2
  exact ⟨hfail.2, c, _, hc, hp⟩

/-- The configuration `lint` sees differs from that of a default parse in its warnings only. -/
theorem lint_config {name content : Bytes} {ff : List FF} {c : Config}
    (h : (parse { excWarn := true } name content ff).1 = .done (.config c) []) :
    configOf content = some { c with warnings := [] } := by
  have h9 := C09_warnings {} name content ff
  have : (parse {} name content ff).1 = .done (.config { c with warnings := [] }) [] := by
    have := congrArg Prod.fst h9
    simp only [h, mapConfig] at this
    exact this
  obtain ⟨c', hc'⟩ := valid_configOf.1 ((errs_valid name content ff).1 (by rw [this]; rfl))
  rw [configOf_parse hc' name ff] at this
  simp only [ParseRes.done.injEq, Val.config.injEq, and_true] at this
  rw [hc', this]

theorem rewrite_cases (name text : Bytes) (acc : Access) (w : World) :
    (∃ e, rewrite name text acc w = (some e, w)) ∨
    (∃ e part, part <+: text ∧ acc.writeErr ≠ none ∧ rewrite name text acc w =
      (some e, (w.effect (.truncate name)).effect (.write name part))) ∨
    (rewrite name text acc w = (none, (w.effect (.truncate name)).effect (.write name text))) := by
  unfold rewrite
  cases acc.createErr with
  | some e => exact .inl ⟨_, rfl⟩
  | none =>
    simp only
    cases h : acc.writeErr with
    | some x => exact .inr (.inl ⟨_, _, List.take_prefix _ _, by simp, rfl⟩)
    | none => exact .inr (.inr rfl)

theorem effect_fields (w : World) (e : Effect) :
    (w.effect e).fs = w.fs.run e ∧ (w.effect e).out = w.out ∧ (w.effect e).trace = w.trace ++ [e] :=
  ⟨rfl, rfl, rfl⟩

end Verif
