import Verif.Proofs.App
import Mathlib.Data.List.Forall2
/-
Properties C39–C46: the commands check, format and lint.
-/
namespace Verif.Props
open Verif Spec

/-! ### C39 -/

private theorem checkLoop_spec (args errs : List Bytes) (w : World)
    (h : ∀ n ∈ args, present w.fs n = true) :
    ∃ es ff, checkLoop args errs w = (.ret (errs ++ es), { w with ff := ff }) ∧
      List.Forall₂ (Describes w.fs) (args.filter (fails w.fs)) es := by
  induction args generalizing errs w with
  | nil => exact ⟨[], w.ff, by simp [checkLoop], .nil⟩
  | cons n args ih =>
    have ht := fun m hm => h m (List.mem_cons_of_mem _ hm)
    have hn := h n (List.mem_cons_self ..)
    unfold checkLoop
    cases hf : w.fs n with
    | missing e => simp [present, hf] at hn
    | dir =>
      obtain ⟨es, ff, h1, h2⟩ := ih errs w ht
      have : fails w.fs n = false := by simp [fails, hf]
      refine ⟨es, ff, h1, ?_⟩
      rw [List.filter_cons_of_neg (by simp [this])]
      exact h2
    | file content acc =>
      simp only
      cases hfail : fails w.fs n with
      | true =>
        obtain ⟨ff, hp, hd⟩ := parseFile_fails .check hf hfail
        rw [hp]
        simp only
        obtain ⟨es, ff', h1, h2⟩ := ih (errs ++ [fileError true n (failureText w.fs n) ff])
          { w with ff := ff } ht
        refine ⟨fileError true n (failureText w.fs n) ff :: es, ff', ?_, ?_⟩
        · rw [h1]; simp
        · rw [List.filter_cons_of_pos hfail]
          exact .cons (hd true) h2
      | false =>
        obtain ⟨-, c, ff, -, hp⟩ := parseFile_fine .check hf hfail
        rw [hp]
        simp only
        obtain ⟨es, ff', h1, h2⟩ := ih errs { w with ff := ff } ht
        refine ⟨es, ff', h1, ?_⟩
        rw [List.filter_cons_of_neg (by simp [hfail])]
        exact h2

/-- **C39** If all arguments exist, `check` returns exactly one entry for each argument that fails
(cannot be opened or does not parse), in argument order, each naming the file and quoting the error
and the farthest-failure report; directories are skipped; nothing is printed or written. -/
theorem C39_reports (args : List Bytes) (w : World) (h : ∀ n ∈ args, present w.fs n = true) :
    ∃ es ff, checkRun args w = (.ret es, { w with ff := ff }) ∧
      List.Forall₂ (Describes w.fs) (args.filter (fails w.fs)) es := by
  simpa [checkRun] using checkLoop_spec args [] w h

/-- **C39** `check` returns a nil error iff no argument fails. -/
theorem C39_error_iff (args : List Bytes) (w : World) (h : ∀ n ∈ args, present w.fs n = true) :
    (checkRun args w).1 = .ret [] ↔ ∀ n ∈ args, fails w.fs n = false := by
  obtain ⟨es, ff, h1, h2⟩ := C39_reports args w h
  rw [h1]
  have : es = [] ↔ args.filter (fails w.fs) = [] := by
    have := h2.length_eq
    rw [← List.length_eq_zero_iff, ← List.length_eq_zero_iff, this]
  simp only [CmdRes.ret.injEq, this, List.filter_eq_nil_iff, Bool.not_eq_true]

/-- A file system with a valid file, an invalid one, an unreadable one and a directory. -/
def demoFS : FS := fun n =>
  if n = b!"good" then .file b!"input { aa { } }" {}
  else if n = b!"bad" then .file b!"input { aa { }" {}
  else if n = b!"secret" then .file b!"input { aa { } }" { openErr := some b!"denied" }
  else if n = b!"dir" then .dir
  else .missing b!"no such file"

/-- A world with these files. -/
def demoWorld : World := ⟨demoFS, [], [], []⟩

example : (∀ n ∈ [b!"good", b!"dir", b!"bad", b!"good", b!"secret"], present demoWorld.fs n = true) ∧
    [b!"good", b!"dir", b!"bad", b!"good", b!"secret"].filter (fails demoWorld.fs) =
      [b!"bad", b!"secret"] := by decide +kernel

/-! ### C40 -/

/-- Truncating and writing never make a path appear or disappear. -/
theorem run_present (fs : FS) (e : Effect) (n : Bytes) : present (fs.run e) n = present fs n := by
  cases e with
  | truncate m =>
    simp only [FS.run, present]
    by_cases h : n = m
    · subst h; cases fs n <;> simp
    · simp [h]
  | write m d =>
    simp only [FS.run, present]
    by_cases h : n = m
    · subst h; cases fs n <;> simp
    · simp [h]

theorem rewrite_present (name text : Bytes) (acc : Access) (w : World) (n : Bytes) :
    present (rewrite name text acc w).2.fs n = present w.fs n := by
  rcases rewrite_cases name text acc w with ⟨e, h⟩ | ⟨e, part, -, -, h⟩ | h <;> rw [h]
  all_goals simp only [(effect_fields _ _).1, run_present]

/-- **C40** Violated: `check` crashes whenever one of its arguments does not exist. -/
theorem C40_violated_check (args : List Bytes) (w : World) (h : ∃ n ∈ args, present w.fs n = false) :
    (checkRun args w).1 = .crash := by
  have : ∀ errs w, (∃ n ∈ args, present w.fs n = false) → (checkLoop args errs w).1 = .crash := by
    clear h w
    intro errs w h
    induction args generalizing errs w with
    | nil => obtain ⟨n, hn, -⟩ := h; cases hn
    | cons n args ih =>
      unfold checkLoop
      cases hf : w.fs n with
      | missing e => rfl
      | dir =>
        refine ih errs w ?_
        obtain ⟨m, hm, hp⟩ := h
        rcases List.mem_cons.1 hm with rfl | hm
        · simp [present, hf] at hp
        · exact ⟨m, hm, hp⟩
      | file content acc =>
        have h' : ∃ m ∈ args, present w.fs m = false := by
          obtain ⟨m, hm, hp⟩ := h
          rcases List.mem_cons.1 hm with rfl | hm
          · simp [present, hf] at hp
          · exact ⟨m, hm, hp⟩
        simp only
        cases hfail : fails w.fs n with
        | true =>
          obtain ⟨ff, hp, -⟩ := parseFile_fails .check hf hfail
          rw [hp]
          exact ih _ _ h'
        | false =>
          obtain ⟨-, c, ff, -, hp⟩ := parseFile_fine .check hf hfail
          rw [hp]
          exact ih _ _ h'
  exact this [] w h

private theorem idReport_listing (name what : Bytes) (ps : List Plugin) :
    idReport name what (ps.map pluginRef) = listing name what ps := by
  unfold idReport listing
  cases ps with
  | nil => rfl
  | cons p ps => simp [List.flatMap_map, pluginRef]

/-- Without plugins lacking an id the auto-fix does nothing. -/
theorem lint_fine {w : World} {name content : Bytes} {acc : Access}
    (hf : w.fs name = .file content acc) (hfail : fails w.fs name = false) (autoFix : Bool)
    (args errs : List Bytes) :
    ∃ c es ff, configOf content = some { c with warnings := [] } ∧
      LintReports autoFix w.fs name es ∧
      lintLoop autoFix (name :: args) errs w =
        if autoFix && !(withoutID (plugins c)).isEmpty then
          match rewrite name (fixIDs c).str acc { w with ff := ff } with
          | (some e, w'') => lintLoop autoFix args (errs ++ es ++ [e]) w''
          | (none, w'') => lintLoop autoFix args (errs ++ es) w''
        else lintLoop autoFix args (errs ++ es) { w with ff := ff } := by
  obtain ⟨hv, c, ff, hc, hp⟩ := parseFile_fine .lint hf hfail
  have hcl : ∀ b ∈ c.visits, ∃ p, b = .plugin p := parse_clean _ _ _ _ _ _ hc
  have hlc : lintConfigOf content = some c := by
    have h1 := (parse_value_name { excWarn := true } name [] content w.ff []).1
    have h2 := (parse_value_name { excWarn := true } name [] content w.ff []).2
    rw [hc] at h1 h2
    obtain ⟨c', hc'⟩ := C13_nil_error { excWarn := true } [] content [] (h2.1 rfl)
    rw [hc'] at h1
    simp only [ParseRes.value, Val.config.injEq] at h1
    unfold lintConfigOf
    rw [hc', h1]
  obtain ⟨f1, f2, f3⟩ := fold_walk (plugins c) (Validator.init autoFix) [] (by simp [Validator.init])
  refine ⟨c, c.warnings ++
        (if autoFix then [] else listing name b!": no IDs found for:\n" (withoutID (plugins c))) ++
        listing name b!": duplicate IDs found in:\n" (repeatedID [] (plugins c)), ff, lint_config hc, ?_, ?_⟩
  · unfold LintReports
    rw [hf]
    simp only [hfail, Bool.false_eq_true, if_false]
    exact ⟨c, hlc, rfl⟩
  · conv => lhs; unfold lintLoop
    rw [hf]
    simp only [hp, lintConfig_eq autoFix c hcl, f1, f2, f3]
    simp only [Validator.init, List.nil_append]
    cases autoFix
    · simp only [Bool.false_and, Bool.or_self, Bool.false_eq_true, if_false, idReport_listing]
      simp
    · simp only [if_true, Bool.true_and, Bool.false_or, idReport_listing]
      have : idReport name b!": no IDs found for:\n" [] = [] := rfl
      rw [this]
      simp only [List.append_assoc, List.append_nil, List.nil_append]
      split
      · cases rewrite name (fixIDs c).str acc { w with ff := ff } with
        | mk r w' => cases r <;> rfl
      · rfl

theorem lint_failing {w : World} {name content : Bytes} {acc : Access}
    (hf : w.fs name = .file content acc) (hfail : fails w.fs name = true) (autoFix : Bool)
    (args errs : List Bytes) :
    ∃ e ff, LintReports autoFix w.fs name [e] ∧
      lintLoop autoFix (name :: args) errs w =
        lintLoop autoFix args (errs ++ [e]) { w with ff := ff } := by
  obtain ⟨ff, hp, hd⟩ := parseFile_fails .lint hf hfail
  refine ⟨fileError true name (failureText w.fs name) ff, ff, ?_, ?_⟩
  rotate_left
  · conv => lhs; unfold lintLoop
    rw [hf]
    simp only [hp]
  · unfold LintReports
    rw [hf]
    simp only [hfail, if_true]
    exact ⟨_, rfl, hd true⟩

/-- **C40** Violated: `lint` crashes whenever one of its arguments does not exist. -/
theorem C40_violated_lint (autoFix : Bool) (args : List Bytes) (w : World)
    (h : ∃ n ∈ args, present w.fs n = false) : (lintRun autoFix args w).1 = .crash := by
  have : ∀ errs w, (∃ n ∈ args, present w.fs n = false) → (lintLoop autoFix args errs w).1 = .crash := by
    clear h w
    intro errs w h
    induction args generalizing errs w with
    | nil => obtain ⟨n, hn, -⟩ := h; cases hn
    | cons n args ih =>
      cases hf : w.fs n with
      | missing e => unfold lintLoop; rw [hf]
      | dir =>
        unfold lintLoop; rw [hf]
        refine ih errs w ?_
        obtain ⟨m, hm, hp⟩ := h
        rcases List.mem_cons.1 hm with rfl | hm
        · simp [present, hf] at hp
        · exact ⟨m, hm, hp⟩
      | file content acc =>
        have h' : ∃ m ∈ args, present w.fs m = false := by
          obtain ⟨m, hm, hp⟩ := h
          rcases List.mem_cons.1 hm with rfl | hm
          · simp [present, hf] at hp
          · exact ⟨m, hm, hp⟩
        cases hfail : fails w.fs n with
        | true =>
          obtain ⟨e, ff, -, hl⟩ := lint_failing hf hfail autoFix args errs
          rw [hl]
          exact ih _ _ h'
        | false =>
          obtain ⟨c, es, ff, -, -, hl⟩ := lint_fine hf hfail autoFix args errs
          rw [hl]
          split
          · have hpres := rewrite_present n (fixIDs c).str acc { w with ff := ff }
            cases hr : rewrite n (fixIDs c).str acc { w with ff := ff } with
            | mk r w'' =>
              rw [hr] at hpres
              have : ∃ m ∈ args, present w''.fs m = false := by
                obtain ⟨m, hm, hp⟩ := h'
                exact ⟨m, hm, (hpres m).trans hp⟩
              cases r <;> exact ih _ _ this
          · exact ih _ _ h'
  exact this [] w h

/-- The hypothesis of both is met: a typo in a file name is enough. -/
example : ∃ n ∈ [b!"good", b!"godo"], present demoFS n = false := by decide

/-- **C40** `format` reports a missing file as an error. -/
theorem C40_format (writeToSource : Bool) (name e : Bytes) (args : List Bytes) (w : World)
    (h : w.fs name = .missing e) :
    formatRun writeToSource (name :: args) w = (.ret [name ++ b!": " ++ e], w) := by
  simp [formatRun, h]

/-! ### C41 -/

theorem printed_of {fs : FS} {name content : Bytes} {acc : Access} {c : Config}
    (hf : fs name = .file content acc) (hc : configOf content = some c) : printed fs name = c.str := by
  simp [printed, hf, hc]

theorem format_fine {w : World} {name content : Bytes} {acc : Access}
    (hf : w.fs name = .file content acc) (hfail : fails w.fs name = false) (ws : Bool) (args : List Bytes) :
    ∃ c ff, configOf content = some c ∧ formatRun ws (name :: args) w =
      if ws then
        match rewrite name c.str acc { w with ff := ff } with
        | (some e, w'') => (.ret [e], w'')
        | (none, w'') => formatRun ws args w''
      else formatRun ws args { w with ff := ff, out := w.out ++ c.str } := by
  obtain ⟨hv, c, ff, hc, hp⟩ := parseFile_fine .format hf hfail
  obtain ⟨c', hc'⟩ := valid_configOf.1 hv
  rw [configOf_parse hc'] at hc
  simp only [ParseRes.done.injEq, Val.config.injEq, and_true] at hc
  subst hc
  refine ⟨c', ff, hc', ?_⟩
  conv => lhs; unfold formatRun
  rw [hf]
  simp only [hp, Val.confStr]
  rfl

theorem format_failing {w : World} {name : Bytes} (hfail : fails w.fs name = true) (ws : Bool)
    (args : List Bytes) : ∃ e ff, Describes w.fs name e ∧
      formatRun ws (name :: args) w = (.ret [e], { w with ff := ff }) := by
  cases hf : w.fs name with
  | dir => simp [fails, hf] at hfail
  | missing e =>
    refine ⟨name ++ b!": " ++ e, w.ff, ⟨List.prefix_append _ _, ?_, ?_⟩, C40_format ws name e args w hf⟩
    · simp only [failureText, hf]; exact ⟨name ++ b!": ", [], by simp⟩
    · intro content acc h; rw [hf] at h; cases h
  | file content acc =>
    obtain ⟨ff, hp, hd⟩ := parseFile_fails .format hf hfail
    refine ⟨_, ff, hd false, ?_⟩
    unfold formatRun
    rw [hf]
    simp only [hp]

/-- **C41** If no argument fails, `format` prints the configurations of all arguments in order,
nothing for directories, and returns a nil error. -/
theorem C41_prints_all (args : List Bytes) (w : World) (h : ∀ n ∈ args, fails w.fs n = false) :
    ∃ ff, formatRun false args w =
      (.ret [], { w with ff := ff, out := w.out ++ args.flatMap (printed w.fs) }) := by
  induction args generalizing w with
  | nil => exact ⟨w.ff, by simp [formatRun]⟩
  | cons n args ih =>
    have ht := fun m hm => h m (List.mem_cons_of_mem _ hm)
    have hn := h n (List.mem_cons_self ..)
    cases hf : w.fs n with
    | missing e => simp [fails, hf] at hn
    | dir =>
      obtain ⟨ff, hr⟩ := ih w ht
      refine ⟨ff, ?_⟩
      have hp : printed w.fs n = [] := by simp [printed, hf]
      unfold formatRun
      rw [hf]
      simp only [List.flatMap_cons, hp, List.nil_append]
      exact hr
    | file content acc =>
      obtain ⟨c, ff, hc, hr⟩ := format_fine hf hn false args
      rw [hr]
      obtain ⟨ff', hr'⟩ := ih { w with ff := ff, out := w.out ++ c.str } ht
      refine ⟨ff', ?_⟩
      simp only [Bool.false_eq_true, if_false, hr', List.flatMap_cons, printed_of hf hc]
      simp

/-- **C41** `format` stops at the first failing argument: it prints exactly the configurations of the
arguments before it, and returns one entry, which describes the failure. -/
theorem C41_stops (pre post : List Bytes) (name : Bytes) (w : World)
    (hpre : ∀ n ∈ pre, fails w.fs n = false) (hname : fails w.fs name = true) :
    ∃ e ff, Describes w.fs name e ∧ formatRun false (pre ++ name :: post) w =
      (.ret [e], { w with ff := ff, out := w.out ++ pre.flatMap (printed w.fs) }) := by
  induction pre generalizing w with
  | nil =>
    obtain ⟨e, ff, hd, hr⟩ := format_failing hname false post
    exact ⟨e, ff, hd, by simp [hr]⟩
  | cons n pre ih =>
    have ht := fun m hm => hpre m (List.mem_cons_of_mem _ hm)
    have hn := hpre n (List.mem_cons_self ..)
    cases hf : w.fs n with
    | missing e => simp [fails, hf] at hn
    | dir =>
      obtain ⟨e, ff, hd, hr⟩ := ih w ht hname
      refine ⟨e, ff, hd, ?_⟩
      have hp : printed w.fs n = [] := by simp [printed, hf]
      rw [List.cons_append]
      unfold formatRun
      rw [hf]
      simp only [List.flatMap_cons, hp, List.nil_append]
      exact hr
    | file content acc =>
      obtain ⟨c, ff, hc, hr⟩ := format_fine hf hn false (pre ++ name :: post)
      rw [List.cons_append, hr]
      obtain ⟨e, ff', hd, hr'⟩ := ih { w with ff := ff, out := w.out ++ c.str } ht hname
      refine ⟨e, ff', hd, ?_⟩
      simp only [Bool.false_eq_true, if_false, hr', List.flatMap_cons, printed_of hf hc]
      simp

example : (∀ n ∈ [b!"good", b!"dir", b!"good"], fails demoFS n = false) ∧ fails demoFS b!"bad" = true ∧
    printed demoFS b!"good" = b!"input {\n  aa {}\n}\n" := by decide +kernel

/-- What the argument list has been rewritten to: the printed configuration for files, directories
and other paths unchanged. -/
def formattedFS (fs : FS) (names : List Bytes) : FS := fun m =>
  match fs m with
  | .file content acc => if m ∈ names then .file (printed fs m) acc else .file content acc
  | x => x

/-- The file can be written without an error of the operating system. -/
def writable (fs : FS) (n : Bytes) : Prop :=
  ∀ content acc, fs n = .file content acc → acc.createErr = none ∧ acc.writeErr = none

theorem rewrite_ok {name text : Bytes} {acc : Access} {w : World} (h : acc.createErr = none ∧ acc.writeErr = none) :
    rewrite name text acc w = (none, (w.effect (.truncate name)).effect (.write name text)) := by
  simp [rewrite, h.1, h.2]

theorem run_twice {fs : FS} {name content text : Bytes} {acc : Access} (hf : fs name = .file content acc) :
    (fs.run (.truncate name)).run (.write name text) = fun m => if m = name then .file text acc else fs m := by
  funext m
  simp only [FS.run]
  by_cases h : m = name
  · subst h; simp [hf]
  · simp [h]

theorem fails_other {fs : FS} {name m : Bytes} {x : Node} (h : m ≠ name) :
    fails (fun k => if k = name then x else fs k) m = fails fs m := by
  simp [fails, h]

private theorem format_write_pre (pre rest : List Bytes) (w : World) (hnd : (pre ++ rest).Nodup)
    (hpre : ∀ n ∈ pre, fails w.fs n = false) (hw : ∀ n ∈ pre, writable w.fs n) :
    ∃ w', w'.fs = formattedFS w.fs pre ∧ w'.out = w.out ∧
      formatRun true (pre ++ rest) w = formatRun true rest w' := by
  induction pre generalizing w with
  | nil =>
    refine ⟨w, ?_, rfl, rfl⟩
    funext m
    simp only [formattedFS, List.not_mem_nil, if_false]
    cases w.fs m <;> rfl
  | cons n pre ih =>
    have hn := hpre n (List.mem_cons_self ..)
    rw [List.cons_append, List.nodup_cons] at hnd
    have hnm : ∀ m ∈ pre, m ≠ n := fun m hm h => hnd.1 (by rw [← h]; simp [hm])
    cases hf : w.fs n with
    | missing e => simp [fails, hf] at hn
    | dir =>
      obtain ⟨w', h1, h2, h3⟩ := ih w hnd.2 (fun m hm => hpre m (List.mem_cons_of_mem _ hm))
        (fun m hm => hw m (List.mem_cons_of_mem _ hm))
      refine ⟨w', ?_, h2, ?_⟩
      · rw [h1]
        funext m
        simp only [formattedFS]
        by_cases hm : m = n
        · subst hm; simp [hf]
        · cases w.fs m <;> simp [hm]
      · rw [List.cons_append]
        conv => lhs; unfold formatRun
        rw [hf]
        exact h3
    | file content acc =>
      obtain ⟨c, ff, hc, hr⟩ := format_fine hf hn true (pre ++ rest)
      rw [List.cons_append, hr]
      simp only [if_true]
      rw [rewrite_ok (hw n (List.mem_cons_self ..) content acc hf)]
      simp only
      have hfs : ((({ w with ff := ff } : World).effect (.truncate n)).effect (.write n c.str)).fs =
          fun m => if m = n then .file c.str acc else w.fs m := by
        rw [(effect_fields _ _).1, (effect_fields _ _).1, run_twice hf]
      obtain ⟨w', h1, h2, h3⟩ := ih ((({ w with ff := ff } : World).effect (.truncate n)).effect (.write n c.str))
        hnd.2
        (by
          intro m hm
          rw [hfs, fails_other (hnm m hm)]
          exact hpre m (List.mem_cons_of_mem _ hm))
        (by
          intro m hm ct ac hmf
          rw [hfs] at hmf
          simp only [hnm m hm, if_false] at hmf
          exact hw m (List.mem_cons_of_mem _ hm) ct ac hmf)
      refine ⟨w', ?_, by rw [h2]; rfl, h3⟩
      rw [h1, hfs]
      funext m
      simp only [formattedFS]
      by_cases hm : m = n
      · subst hm
        have : m ∉ pre := fun h => hnm m h rfl
        simp [hf, this, printed_of hf hc]
      · simp only [hm, if_false, List.mem_cons, false_or]
        cases hfm : w.fs m with
        | file ct ac => simp [printed, hm]
        | _ => rfl

/-- **C41** `format -w` with distinct arguments none of which fails rewrites every file to its printed
configuration, leaves all other paths alone and prints nothing. -/
theorem C41_rewrites_all (args : List Bytes) (w : World) (hnd : args.Nodup)
    (h : ∀ n ∈ args, fails w.fs n = false) (hw : ∀ n ∈ args, writable w.fs n) :
    ∃ w', formatRun true args w = (.ret [], w') ∧ w'.fs = formattedFS w.fs args ∧ w'.out = w.out := by
  obtain ⟨w', h1, h2, h3⟩ := format_write_pre args [] w (by simpa using hnd) h hw
  refine ⟨w', ?_, h1, h2⟩
  rw [List.append_nil] at h3
  rw [h3]; rfl

/-- **C41** `format -w` stops at the first failing argument: exactly the arguments before it have been
rewritten. -/
theorem C41_write_stops (pre post : List Bytes) (name : Bytes) (w : World)
    (hnd : (pre ++ name :: post).Nodup) (hpre : ∀ n ∈ pre, fails w.fs n = false)
    (hw : ∀ n ∈ pre, writable w.fs n) (hname : fails w.fs name = true) :
    ∃ e w', formatRun true (pre ++ name :: post) w = (.ret [e], w') ∧ Describes w.fs name e ∧
      w'.fs = formattedFS w.fs pre ∧ w'.out = w.out := by
  obtain ⟨w', h1, h2, h3⟩ := format_write_pre pre (name :: post) w hnd hpre hw
  have hnp : name ∉ pre := by
    intro h
    rw [List.nodup_append] at hnd
    exact hnd.2.2 name h name (List.mem_cons_self ..) rfl
  have hsame : w'.fs name = w.fs name := by
    rw [h1]
    simp only [formattedFS, hnp, if_false]
    cases w.fs name <;> rfl
  obtain ⟨e, ff, hd, hr⟩ := format_failing (w := w') (name := name) (by simpa [fails, hsame] using hname) true post
  refine ⟨e, { w' with ff := ff }, by rw [h3, hr], ?_, h1, h2⟩
  simpa [Describes, failureText, hsame] using hd

example : [b!"good", b!"dir", b!"bad"].Nodup ∧ formattedFS demoFS [b!"good", b!"dir"] b!"good" =
    .file b!"input {\n  aa {}\n}\n" {} := by decide +kernel

/-- A file none of whose accesses fails. -/
example : writable demoFS b!"good" := by
  intro c a h
  have : a = {} := by
    simp only [demoFS, if_true] at h
    injection h with h1 h2
    exact h2.symm
  subst this
  exact ⟨rfl, rfl⟩

/-! ### C42 -/

private theorem runAll_append (fs : FS) (a b : List Effect) : fs.runAll (a ++ b) = (fs.runAll a).runAll b := by
  induction a generalizing fs with
  | nil => rfl
  | cons e a ih => simp only [List.cons_append, FS.runAll, ih]

/-- **C42** `format -w` performs no effects on the file system but rewriting some of its arguments,
in order, each to the printed form of the configuration it held; without `-w` it performs none. -/
theorem C42_format (ws : Bool) (args : List Bytes) (w : World) :
    ∃ es, (formatRun ws args w).2.trace = w.trace ++ es ∧ (formatRun ws args w).2.fs = w.fs.runAll es ∧
      (if ws then Rewrites formatted args w.fs es else es = []) := by
  induction args generalizing w with
  | nil => exact ⟨[], by simp [formatRun], rfl, by cases ws <;> first | exact .stop _ _ | rfl⟩
  | cons n args ih =>
    cases hfail : fails w.fs n with
    | true =>
      obtain ⟨e, ff, -, hr⟩ := format_failing hfail ws args
      rw [hr]
      exact ⟨[], by simp, rfl, by cases ws <;> first | exact .stop _ _ | rfl⟩
    | false =>
      cases hf : w.fs n with
      | missing e => simp [fails, hf] at hfail
      | dir =>
        obtain ⟨es, h1, h2, h3⟩ := ih w
        have : formatRun ws (n :: args) w = formatRun ws args w := by
          conv => lhs; unfold formatRun
          rw [hf]
        rw [this]
        refine ⟨es, h1, h2, ?_⟩
        cases ws
        · exact h3
        · exact .skip n args w.fs es h3
      | file content acc =>
        obtain ⟨c, ff, hc, hr⟩ := format_fine hf hfail ws args
        rw [hr]
        cases ws
        · simp only [Bool.false_eq_true, if_false]
          exact ih { w with ff := ff, out := w.out ++ c.str }
        · simp only [if_true]
          rcases rewrite_cases n c.str acc { w with ff := ff } with ⟨e, h⟩ | ⟨e, part, hp, hne, h⟩ | h <;>
            rw [h] <;> simp only
          · exact ⟨[], by simp, rfl, .stop _ _⟩
          · refine ⟨[.truncate n, .write n part], by simp [World.effect], rfl, ?_⟩
            exact .rewrite n args w.fs [] content c.str part acc hf ⟨c, hc, rfl⟩ hp
              (fun h => absurd h hne) (.stop _ _)
          · obtain ⟨es, h1, h2, h3⟩ := ih ((({ w with ff := ff } : World).effect (.truncate n)).effect (.write n c.str))
            refine ⟨.truncate n :: .write n c.str :: es, ?_, ?_, ?_⟩
            · rw [h1]; simp [World.effect]
            · rw [h2]; rfl
            · exact .rewrite n args w.fs es content c.str c.str acc hf ⟨c, hc, rfl⟩ (List.prefix_refl _)
                (fun _ => rfl) h3

/-- **C42** `lint --auto-fix-id` performs no effects on the file system but rewriting some of its
arguments that parse and have a plugin without id, in order, each to the printed form of the
configuration it held with ids added; without `--auto-fix-id` it performs none. -/
theorem C42_lint (autoFix : Bool) (args : List Bytes) (w : World) :
    ∃ es, (lintRun autoFix args w).2.trace = w.trace ++ es ∧
      (lintRun autoFix args w).2.fs = w.fs.runAll es ∧
      (if autoFix then Rewrites autoFixed args w.fs es else es = []) := by
  suffices H : ∀ errs w, ∃ es, (lintLoop autoFix args errs w).2.trace = w.trace ++ es ∧
      (lintLoop autoFix args errs w).2.fs = w.fs.runAll es ∧
      (if autoFix then Rewrites autoFixed args w.fs es else es = []) from H [] w
  clear w
  induction args with
  | nil =>
    intro errs w
    exact ⟨[], by simp [lintLoop], rfl, by cases autoFix <;> first | exact .stop _ _ | rfl⟩
  | cons n args ih =>
    intro errs w
    have hskip' : ∀ errs' w', w'.fs = w.fs → w'.trace = w.trace →
        lintLoop autoFix (n :: args) errs w = lintLoop autoFix args errs' w' →
        ∃ es, (lintLoop autoFix (n :: args) errs w).2.trace = w.trace ++ es ∧
          (lintLoop autoFix (n :: args) errs w).2.fs = w.fs.runAll es ∧
          (if autoFix then Rewrites autoFixed (n :: args) w.fs es else es = []) := by
      intro errs' w' hfs htr hl
      obtain ⟨es, h1, h2, h3⟩ := ih errs' w'
      rw [hl]
      refine ⟨es, by rw [h1, htr], by rw [h2, hfs], ?_⟩
      rw [hfs] at h3
      cases autoFix
      · exact h3
      · exact .skip n args w.fs es h3
    cases hf : w.fs n with
    | missing e =>
      have : lintLoop autoFix (n :: args) errs w = (.crash, w) := by unfold lintLoop; rw [hf]
      rw [this]
      exact ⟨[], by simp, rfl, by cases autoFix <;> first | exact .stop _ _ | rfl⟩
    | dir =>
      refine hskip' errs w rfl rfl ?_
      conv => lhs; unfold lintLoop
      rw [hf]
    | file content acc =>
      cases hfail : fails w.fs n with
      | true =>
        obtain ⟨e, ff, -, hl⟩ := lint_failing hf hfail autoFix args errs
        exact hskip' _ { w with ff := ff } rfl rfl hl
      | false =>
        obtain ⟨c, ents, ff, hc, -, hl⟩ := lint_fine hf hfail autoFix args errs
        by_cases hfix : (autoFix && !(withoutID (plugins c)).isEmpty) = true
        · rw [if_pos hfix] at hl
          simp only [Bool.and_eq_true, Bool.not_eq_true', List.isEmpty_eq_false_iff] at hfix
          obtain ⟨rfl, hne⟩ := hfix
          have hnew : autoFixed content (fixIDs c).str := ⟨_, hc, hne, rfl⟩
          rcases rewrite_cases n (fixIDs c).str acc { w with ff := ff } with ⟨e, h⟩ | ⟨e, part, hp, hne, h⟩ | h <;>
            rw [h] at hl <;> simp only at hl
          · exact hskip' _ { w with ff := ff } rfl rfl hl
          · obtain ⟨es, h1, h2, h3⟩ := ih (errs ++ ents ++ [e])
              ((({ w with ff := ff } : World).effect (.truncate n)).effect (.write n part))
            rw [hl]
            refine ⟨.truncate n :: .write n part :: es, by rw [h1]; simp [World.effect], by rw [h2]; rfl, ?_⟩
            exact .rewrite n args w.fs es content _ part acc hf hnew hp (fun h => absurd h hne) h3
          · obtain ⟨es, h1, h2, h3⟩ := ih (errs ++ ents)
              ((({ w with ff := ff } : World).effect (.truncate n)).effect (.write n (fixIDs c).str))
            rw [hl]
            refine ⟨.truncate n :: .write n (fixIDs c).str :: es, by rw [h1]; simp [World.effect],
              by rw [h2]; rfl, ?_⟩
            exact .rewrite n args w.fs es content _ _ acc hf hnew (List.prefix_refl _) (fun _ => rfl) h3
        · rw [if_neg hfix] at hl
          exact hskip' _ { w with ff := ff } rfl rfl hl

/-- **C42** A path that is not an argument is never touched. -/
theorem C42_others_untouched {new : Bytes → Bytes → Prop} {args : List Bytes} {fs : FS} {es : List Effect}
    (h : Rewrites new args fs es) : ∀ e ∈ es, ∃ n ∈ args,
      e = .truncate n ∨ ∃ data, e = .write n data := by
  induction h with
  | stop => intro e he; cases he
  | skip name args fs es _ ih =>
    intro e he
    obtain ⟨n, hn, h⟩ := ih e he
    exact ⟨n, List.mem_cons_of_mem _ hn, h⟩
  | rewrite name args fs es content text part acc hf hnew hp hw _ ih =>
    intro e he
    simp only [List.mem_cons] at he
    rcases he with rfl | rfl | he
    · exact ⟨name, by simp, .inl rfl⟩
    · exact ⟨name, by simp, .inr ⟨_, rfl⟩⟩
    · obtain ⟨n, hn, h⟩ := ih e he
      exact ⟨n, List.mem_cons_of_mem _ hn, h⟩

/-- **C42** In particular every path that is not an argument keeps its content, at every crash point
too. -/
theorem C42_others_kept {new : Bytes → Bytes → Prop} {args : List Bytes} {fs fs' : FS} {es : List Effect}
    (h : Rewrites new args fs es) (hc : CrashState fs es fs') (m : Bytes) (hm : m ∉ args) :
    fs' m = fs m := by
  have hrun : ∀ (fs : FS) (e : Effect), (∃ n ∈ args, e = .truncate n ∨ ∃ data, e = .write n data) →
      (fs.run e) m = fs m := by
    rintro fs e ⟨n, hn, rfl | ⟨d, rfl⟩⟩ <;>
    · have : m ≠ n := fun h => hm (h ▸ hn)
      simp [FS.run, this]
  have hes := C42_others_untouched h
  clear h
  induction hc with
  | now => rfl
  | torn fs name data part es hp =>
    obtain ⟨n, hn, h | ⟨d, h⟩⟩ := hes _ (List.mem_cons_self ..)
    · cases h
    · injection h with h1 h2
      exact hrun fs _ ⟨n, hn, .inr ⟨part, by rw [h1]⟩⟩
  | later fs fs' e es _ ih =>
    rw [ih (fun e he => hes e (List.mem_cons_of_mem _ he)), hrun fs e (hes e (List.mem_cons_self ..))]

example : (formatRun true [b!"good", b!"dir", b!"good"] demoWorld).2.trace =
    [.truncate b!"good", .write b!"good" b!"input {\n  aa {}\n}\n",
     .truncate b!"good", .write b!"good" b!"input {\n  aa {}\n}\n"] ∧
    (lintRun true [b!"good"] demoWorld).2.trace =
    [.truncate b!"good", .write b!"good" b!"input {\n  aa {\n    id => \"aa-1\"\n  }\n}\n"] := by
  decide +kernel

/-! ### C43 -/

/-- The states a file can be in while it is rewritten: untouched, or truncated and filled with a
prefix of its new content. -/
def Torn (new : Bytes → Bytes → Prop) (fs fs' : FS) (n : Bytes) : Prop :=
  fs' n = fs n ∨ ∃ content acc text part, fs n = .file content acc ∧ new content text ∧
    part <+: text ∧ fs' n = .file part acc

private theorem crash_torn {new : Bytes → Bytes → Prop} {args : List Bytes} {fs fs' : FS} {es : List Effect}
    (hnd : args.Nodup) (h : Rewrites new args fs es) (hc : CrashState fs es fs') :
    ∀ n, Torn new fs fs' n := by
  induction h with
  | stop args fs =>
    intro n
    cases hc
    exact .inl rfl
  | skip name args fs es _ ih => exact ih (List.nodup_cons.1 hnd).2 hc
  | rewrite name args fs es content text part acc hf hnew hp hw hrest ih =>
    obtain ⟨hnm, hnd⟩ := List.nodup_cons.1 hnd
    intro n
    cases hc with
    | now => exact .inl rfl
    | later _ _ _ _ h1 =>
      by_cases hn : n = name
      · subst hn
        refine .inr ⟨content, acc, text, ?_⟩
        cases h1 with
        | now => exact ⟨[], hf, hnew, List.nil_prefix, by simp [FS.run, hf]⟩
        | torn _ _ _ p' _ hp' => exact ⟨p', hf, hnew, hp'.trans hp, by simp [FS.run, hf]⟩
        | later _ _ _ _ h2 =>
          refine ⟨part, hf, hnew, hp, ?_⟩
          rw [C42_others_kept hrest h2 n hnm]
          simp [FS.run, hf]
      · have hsame : ∀ d, ((fs.run (.truncate name)).run (.write name d)) n = fs n := by
          intro d; simp [FS.run, hn]
        cases h1 with
        | now => exact .inl (by simp [FS.run, hn])
        | torn => exact .inl (hsame _)
        | later _ _ _ _ h2 =>
          have := ih hnd h2 n
          simp only [Torn, hsame] at this
          exact this

/-- **C43** What does hold at every crash point of `format -w` with distinct arguments: every file is
untouched or holds a prefix of the printed form of its configuration. -/
theorem C43_format_prefix (args : List Bytes) (w : World) (hnd : args.Nodup) (es : List Effect)
    (hes : (formatRun true args w).2.trace = w.trace ++ es) (fs' : FS) (hc : CrashState w.fs es fs') :
    ∀ n, Torn formatted w.fs fs' n := by
  obtain ⟨es', h1, -, h3⟩ := C42_format true args w
  rw [h1] at hes
  have := List.append_cancel_left hes
  subst this
  exact crash_torn hnd h3 hc

/-- **C43** The same for `lint --auto-fix-id`. -/
theorem C43_lint_prefix (args : List Bytes) (w : World) (hnd : args.Nodup) (es : List Effect)
    (hes : (lintRun true args w).2.trace = w.trace ++ es) (fs' : FS) (hc : CrashState w.fs es fs') :
    ∀ n, Torn autoFixed w.fs fs' n := by
  obtain ⟨es', h1, -, h3⟩ := C42_lint true args w
  rw [h1] at hes
  have := List.append_cancel_left hes
  subst this
  exact crash_torn hnd h3 hc

/-- **C43** Violated: a crash of `format -w` can leave a file that holds neither its old nor its new
content, namely nothing. -/
theorem C43_violated : ∃ (args : List Bytes) (w : World) (es : List Effect) (fs' : FS) (n : Bytes),
    (formatRun true args w).2.trace = w.trace ++ es ∧ CrashState w.fs es fs' ∧
    fs' n ≠ w.fs n ∧ fs' n ≠ (formatRun true args w).2.fs n := by
  refine ⟨[b!"good"], demoWorld,
    [.truncate b!"good", .write b!"good" b!"input {\n  aa {}\n}\n"],
    demoFS.run (.truncate b!"good"), b!"good", ?_, ?_, ?_, ?_⟩
  · decide +kernel
  · exact .later _ _ _ _ (.now _ _)
  · decide +kernel
  · decide +kernel

/-! ### C44 -/

/-- **C44** `lint` without `--auto-fix-id`, when all arguments exist: for every argument in order it
reports, if the file fails, its failure, else the warnings of the parser, one message listing
exactly the plugins without id, in source order, and one message listing exactly the plugins whose
id an earlier plugin of the file has.  It writes nothing. -/
theorem C44_reports (args : List Bytes) (w : World) (h : ∀ n ∈ args, present w.fs n = true) :
    ∃ ess ff, lintRun false args w = (.ret ess.flatten, { w with ff := ff }) ∧
      List.Forall₂ (LintReports false w.fs) args ess := by
  suffices H : ∀ errs w, (∀ n ∈ args, present w.fs n = true) → ∃ ess ff,
      lintLoop false args errs w = (.ret (errs ++ ess.flatten), { w with ff := ff }) ∧
      List.Forall₂ (LintReports false w.fs) args ess by
    simpa [lintRun] using H [] w h
  clear h w
  induction args with
  | nil => intro errs w _; exact ⟨[], w.ff, by simp [lintLoop], .nil⟩
  | cons n args ih =>
    intro errs w h
    have ht := fun m hm => h m (List.mem_cons_of_mem _ hm)
    have hn := h n (List.mem_cons_self ..)
    cases hf : w.fs n with
    | missing e => simp [present, hf] at hn
    | dir =>
      obtain ⟨ess, ff, h1, h2⟩ := ih errs w ht
      refine ⟨[] :: ess, ff, ?_, .cons (by simp [LintReports, hf]) h2⟩
      unfold lintLoop
      rw [hf]
      exact h1
    | file content acc =>
      cases hfail : fails w.fs n with
      | true =>
        obtain ⟨e, ff, hr, hl⟩ := lint_failing hf hfail false args errs
        obtain ⟨ess, ff', h1, h2⟩ := ih (errs ++ [e]) { w with ff := ff } ht
        exact ⟨[e] :: ess, ff', by rw [hl, h1]; simp, .cons hr h2⟩
      | false =>
        obtain ⟨c, es, ff, -, hr, hl⟩ := lint_fine hf hfail false args errs
        obtain ⟨ess, ff', h1, h2⟩ := ih (errs ++ es) { w with ff := ff } ht
        refine ⟨es :: ess, ff', ?_, .cons hr h2⟩
        rw [hl]
        simp only [Bool.false_and, Bool.false_eq_true, if_false, h1]
        simp

/-- **C44** `lint` reports nothing for a file iff it parses without warning, every plugin has an id
and no id occurs twice. -/
theorem C44_clean (name content : Bytes) (acc : Access) (w : World) (hf : w.fs name = .file content acc)
    (ho : acc.openErr = none) :
    (lintRun false [name] w).1 = .ret [] ↔
      ∃ c, lintConfigOf content = some c ∧ c.warnings = [] ∧ (∀ p ∈ plugins c, ∃ i, idOf p = some i) ∧
        ((plugins c).map idOf).Nodup := by
  obtain ⟨ess, ff, h1, h2⟩ := C44_reports [name] w (by simp [present, hf])
  rw [h1]
  obtain ⟨es, rest, hr, hn, rfl⟩ := List.forall₂_cons_left_iff.1 h2
  cases hn
  simp only [List.flatten_cons, List.flatten_nil, List.append_nil, CmdRes.ret.injEq]
  have hlist : ∀ what ps, listing name what ps = [] ↔ ps = [] := by
    intro what ps; unfold listing; split <;> simp_all
  have hwo : ∀ ps : List Plugin, withoutID ps = [] ↔ ∀ p ∈ ps, ∃ i, idOf p = some i := by
    intro ps
    simp only [withoutID, List.filter_eq_nil_iff, Option.isNone_iff_eq_none]
    constructor
    · intro h p hp
      cases hi : idOf p with
      | none => exact absurd hi (h p hp)
      | some i => exact ⟨i, rfl⟩
    · intro h p hp hi
      obtain ⟨i, h⟩ := h p hp
      rw [hi] at h; cases h
  have hrep : ∀ ps E : List Plugin, (∀ p ∈ ps, ∃ i, idOf p = some i) →
      (repeatedID E ps = [] ↔ ((ps.map idOf).Nodup ∧ ∀ p ∈ ps, ∀ q ∈ E, idOf q ≠ idOf p)) := by
    intro ps
    induction ps with
    | nil => intro E _; simp [repeatedID]
    | cons p ps ih =>
      intro E hall
      simp only [repeatedID, List.append_eq_nil_iff, ih (E ++ [p]) (fun q hq => hall q (List.mem_cons_of_mem _ hq)),
        List.map_cons, List.nodup_cons, List.mem_map, List.mem_cons]
      obtain ⟨i, hi⟩ := hall p (List.mem_cons_self ..)
      constructor
      · rintro ⟨h1, h2, h3⟩
        have h1 : ∀ q ∈ E, idOf q ≠ idOf p := by
          intro q hq heq
          simp [hi] at h1
          exact h1 q hq (by rw [heq, hi])
        refine ⟨⟨?_, h2⟩, ?_⟩
        · rintro ⟨q, hq, heq⟩
          exact h3 q hq p (by simp) heq.symm
        · rintro q (rfl | hq) r hr
          · exact h1 r hr
          · exact h3 q hq r (by simp [hr])
      · rintro ⟨⟨h1, h2⟩, h3⟩
        refine ⟨?_, h2, ?_⟩
        · have : ¬ ∃ q ∈ E, idOf q = idOf p := by
            rintro ⟨q, hq, heq⟩; exact h3 p (.inl rfl) q hq heq
          simp [this]
        · intro q hq r hr heq
          rcases List.mem_append.1 hr with hr | hr
          · exact h3 q (.inr hq) r hr heq
          · simp at hr; subst hr; exact h1 ⟨q, hq, heq.symm⟩
  cases hfail : fails w.fs name with
  | true =>
    simp only [LintReports, hf, hfail, if_true] at hr
    obtain ⟨e, rfl, -⟩ := hr
    have hv : valid content = false := by simpa [fails_file hf, ho] using hfail
    constructor
    · intro h; cases h
    · rintro ⟨c, hc, -⟩
      exfalso
      unfold lintConfigOf at hc
      split at hc
      · rename_i heq
        have := lint_config heq
        rw [valid_configOf.2 ⟨_, this⟩] at hv
        cases hv
      · cases hc
  | false =>
    simp only [LintReports, hf, hfail, Bool.false_eq_true, if_false] at hr
    obtain ⟨c, hc, rfl⟩ := hr
    simp only [List.append_eq_nil_iff, hlist]
    constructor
    · rintro ⟨⟨h1, h2⟩, h3⟩
      exact ⟨c, hc, h1, (hwo _).1 h2, ((hrep _ _ ((hwo _).1 h2)).1 h3).1⟩
    · rintro ⟨c', hc', h1, h2, h3⟩
      rw [hc] at hc'; injection hc' with hc'; subst hc'
      exact ⟨⟨h1, (hwo _).2 h2⟩, (hrep _ _ h2).2 ⟨h3, by simp⟩⟩

/-- Both lists on a small file: two plugins without id, one duplicate. -/
example : (lintRun false [b!"x"] ⟨fun _ => .file
      b!"input { aa { id => one } bb { } if [c] { cc { id => one } dd { id => 1 } } }" {}, [], [], []⟩).1 =
    .ret [b!"x: no IDs found for:\n1:26 [25]: bb\n1:59 [58]: dd\n",
          b!"x: duplicate IDs found in:\n1:42 [41]: cc\n"] := by decide +kernel

/-! ### C45 -/

/-- **C45** For every parsed configuration, the walk of `lint --auto-fix-id` produces exactly
`fixIDs`: the same configuration, with an attribute `id => "<name>-<number>"` appended to every
plugin without id; the file is rewritten iff there is such a plugin, and missing ids are not
reported. -/
theorem C45_result (o : Opts) (filename data : Bytes) (ff : List FF) (c : Config)
    (h : (parse o filename data ff).1 = .done (.config c) []) :
    ∃ v, lintConfig true c = some (v, fixIDs c) ∧
      (v.changed = true ↔ withoutID (plugins c) ≠ []) ∧ v.noIDs = [] := by
  have hcl : ∀ b ∈ c.visits, ∃ p, b = .plugin p := parse_clean _ _ _ _ _ _ h
  obtain ⟨f1, f2, f3⟩ := fold_walk (plugins c) (Validator.init true) [] (by simp [Validator.init])
  refine ⟨_, by rw [lintConfig_eq true c hcl]; rfl, ?_, by rw [f1]; rfl⟩
  rw [f3]
  simp [Validator.init]

/-- The plugin an element of `fixPlugin` is. -/
def fixedPlugin (k : Nat) (p : Plugin) : Plugin :=
  match idOf p with
  | some _ => p
  | none => appendID (madeUpID k p) p

private theorem pluginsOne_fix (k : Nat) (p : Plugin) : pluginsOne (fixPlugin k p) = [fixedPlugin k p] := by
  unfold fixPlugin fixedPlugin
  cases idOf p <;> rfl

mutual
private theorem plugins_numberOne (b : BOP) (k : Nat) :
    pluginsOne (numberOne fixPlugin k b) =
      (pluginsOne b).mapIdx (fun i p => fixedPlugin (k + i + 1) p) := by
  match b with
  | .nil => rfl
  | .plugin p => simp [numberOne, pluginsOne, pluginsOne_fix]
  | .pluginPtr p => simp [numberOne, pluginsOne, pluginsOne_fix]
  | .branch st cond block cm ft elifs (.mk est eblock ecm eft) =>
    simp only [numberOne, pluginsOne, plugins_numberList, plugins_numberElifs, List.mapIdx_append,
      List.length_append]
    simp only [Nat.add_assoc, Nat.add_left_comm, Nat.add_comm]
private theorem plugins_numberList (bs : List BOP) (k : Nat) :
    pluginsList (numberList fixPlugin k bs) =
      (pluginsList bs).mapIdx (fun i p => fixedPlugin (k + i + 1) p) := by
  match bs with
  | [] => rfl
  | b :: bs =>
    simp only [numberList, pluginsList, plugins_numberOne, plugins_numberList, List.mapIdx_append]
    simp only [Nat.add_assoc, Nat.add_left_comm, Nat.add_comm]
private theorem plugins_numberElifs (es : List Elif) (k : Nat) :
    pluginsElifs (numberElifs fixPlugin k es) =
      (pluginsElifs es).mapIdx (fun i p => fixedPlugin (k + i + 1) p) := by
  match es with
  | [] => rfl
  | .mk st cond block cm ft :: es =>
    simp only [numberElifs, pluginsElifs, plugins_numberList, plugins_numberElifs, List.mapIdx_append]
    simp only [Nat.add_assoc, Nat.add_left_comm, Nat.add_comm]
end

private theorem plugins_numberSections (ss : List Section) (k : Nat) :
    pluginsSections (numberSections fixPlugin k ss) =
      (pluginsSections ss).mapIdx (fun i p => fixedPlugin (k + i + 1) p) := by
  induction ss generalizing k with
  | nil => rfl
  | cons s ss ih =>
    simp only [pluginsSections, List.flatMap_cons, numberSections] at ih ⊢
    rw [ih, plugins_numberList, List.mapIdx_append]
    simp only [Nat.add_assoc, Nat.add_left_comm, Nat.add_comm]

/-- **C45** The plugins of the fixed configuration are those of the original, one by one and in the
same order: plugins that had an id are unchanged, the others got one attribute more. -/
theorem C45_plugins (c : Config) :
    plugins (fixIDs c) = (plugins c).mapIdx (fun i p => fixedPlugin (i + 1) p) := by
  simp only [plugins, fixIDs, numberConfig, plugins_numberSections, List.mapIdx_append, List.length_append]
  simp only [Nat.add_assoc, Nat.add_left_comm, Nat.add_comm, Nat.zero_add, Nat.add_zero]

private theorem natDigitsAux_eq (n : Nat) : ∀ b ∈ natToBytes n, b ≠ 45 := by
  intro b hb h
  have := natToBytes_digits n b hb
  subst h
  exact absurd this.1 (by decide)

private theorem split_last (a a' d d' : Bytes) (hd : ∀ b ∈ d, b ≠ 45) (hd' : ∀ b ∈ d', b ≠ 45)
    (h : a ++ (45 :: d) = a' ++ (45 :: d')) : d = d' := by
  have hr := congrArg List.reverse h
  simp only [List.reverse_append, List.reverse_cons, List.append_assoc] at hr
  have : ∀ (x y : Bytes) (s t : Bytes), (∀ b ∈ x, b ≠ 45) → (∀ b ∈ y, b ≠ 45) →
      x ++ ([45] ++ s) = y ++ ([45] ++ t) → x = y := by
    intro x
    induction x with
    | nil =>
      intro y s t _ hy h
      cases y with
      | nil => rfl
      | cons b y =>
        simp at h
        exact absurd h.1.symm (hy b (by simp))
    | cons b x ih =>
      intro y s t hx hy h
      cases y with
      | nil =>
        simp at h
        exact absurd h.1 (hx b (by simp))
      | cons b' y =>
        simp only [List.cons_append, List.cons.injEq] at h
        rw [h.1, ih y s t (fun b hb => hx b (by simp [hb])) (fun b hb => hy b (by simp [hb])) h.2]
  have := this d.reverse d'.reverse a.reverse a'.reverse (by simpa using hd) (by simpa using hd') hr
  exact List.reverse_inj.1 this

/-- **C45** The made-up ids of different plugins are different, whatever the names. -/
theorem C45_distinct (k k' : Nat) (p p' : Plugin) (h : madeUpID k p = madeUpID k' p') : k = k' := by
  unfold madeUpID at h
  have := split_last p.name p'.name (natToBytes k) (natToBytes k') (natDigitsAux_eq k) (natDigitsAux_eq k')
    (by simpa using h)
  exact natToBytes_inj this

private theorem idLoop_append (as : List Attr) (x : Attr) (h : idLoop as = none) :
    idLoop (as ++ [x]) = idLoop [x] := by
  induction as with
  | nil => rfl
  | cons a as ih =>
    simp only [List.cons_append]
    unfold idLoop at h ⊢
    split
    · rename_i hc
      rw [if_pos hc] at h
      revert h
      split <;> intro h <;> cases h
    · rename_i hc
      rw [if_neg hc] at h
      rw [ih h]
      simp [idLoop]

private theorem idLoop_some (as : List Attr) (r : IdResult) (h : idLoop as = some r) :
    (∃ i, r = .id i) ∨ ∃ m, r = .notString m := by
  induction as with
  | nil => cases h
  | cons a as ih =>
    unfold idLoop at h
    split at h
    · split at h <;> injection h with h <;> subst h
      · exact .inl ⟨_, rfl⟩
      · exact .inr ⟨_, rfl⟩
    · exact ih h

private theorem idLoop_append_some (as bs : List Attr) (r : IdResult) (h : idLoop as = some r) :
    idLoop (as ++ bs) = some r := by
  induction as with
  | nil => cases h
  | cons a as ih =>
    simp only [List.cons_append]
    unfold idLoop at h ⊢
    split
    · rename_i hc
      rw [if_pos hc] at h
      exact h
    · rename_i hc
      rw [if_neg hc] at h
      exact ih h

/-- **C45** A plugin without an attribute named `id` has the made-up id afterwards. -/
theorem C45_gets_id (p : Plugin) (i msg : Bytes) (h : p.id = .notFound msg) :
    idOf (appendID i p) = some i := by
  obtain ⟨st, n, as, c, f⟩ := p
  simp only [Plugin.id, Plugin.attrs] at h
  have hl : idLoop as = none := by
    cases hl : idLoop as with
    | none => rfl
    | some r =>
      rw [hl] at h
      simp only at h
      rcases idLoop_some as r hl with ⟨j, rfl⟩ | ⟨m, rfl⟩ <;> cases h
  simp only [idOf, appendID, Plugin.id, Plugin.attrs]
  rw [idLoop_append as _ hl]
  rfl

/-- **C45** Violated for a plugin whose first attribute `id` is not a string: it still has no id. -/
theorem C45_violated_notString (p : Plugin) (i msg : Bytes) (h : p.id = .notString msg) :
    idOf (appendID i p) = none := by
  obtain ⟨st, n, as, c, f⟩ := p
  simp only [Plugin.id, Plugin.attrs] at h
  cases hl : idLoop as with
  | none => rw [hl] at h; cases h
  | some r =>
    rw [hl] at h
    simp only at h
    subst h
    simp only [idOf, appendID, Plugin.id, Plugin.attrs]
    rw [idLoop_append_some as _ _ hl]

/-- **C45** If every plugin that has no id has no attribute named `id` at all, then after
`--auto-fix-id` every plugin has an id. -/
theorem C45_all_have_ids (c : Config) (h : ∀ p ∈ plugins c, ∀ m, p.id ≠ .notString m) :
    withoutID (plugins (fixIDs c)) = [] := by
  rw [C45_plugins]
  simp only [withoutID, List.filter_eq_nil_iff, Option.isNone_iff_eq_none]
  intro q hq
  obtain ⟨i, hi, rfl⟩ := List.mem_mapIdx.1 hq
  have hm := h _ (List.getElem_mem hi)
  generalize (plugins c)[i] = p at hm
  unfold fixedPlugin
  cases hid : idOf p with
  | some j => simp [hid]
  | none =>
    simp only
    cases hp : p.id with
    | id j => simp [idOf, hp] at hid
    | notString m => exact absurd hp (hm m)
    | notFound m => rw [C45_gets_id p _ m hp]; simp

/-- **C45** If no plugin has an id of the made-up form, then `--auto-fix-id` introduces no duplicate:
when all existing ids are distinct and usable ids can be added, all ids are distinct afterwards. -/
theorem C45_no_duplicates (c : Config) (h : ∀ p ∈ plugins c, ∀ m, p.id ≠ .notString m)
    (hex : ∀ p ∈ plugins c, ∀ q ∈ plugins c, ∀ k, idOf p ≠ some (madeUpID k q))
    (hdist : ((plugins c).filterMap idOf).Nodup) :
    ((plugins (fixIDs c)).map idOf).Nodup := by
  rw [C45_plugins]
  unfold List.Nodup
  rw [List.pairwise_iff_getElem]
  intro i j hi hj hij heq
  simp only [List.length_map, List.length_mapIdx] at hi hj
  simp only [List.getElem_map, List.getElem_mapIdx] at heq
  have hpi := List.getElem_mem hi
  have hpj := List.getElem_mem hj
  have key : ∀ k p, p ∈ plugins c → idOf (fixedPlugin k p) = idOf p ∧ idOf p ≠ none ∨
      idOf p = none ∧ idOf (fixedPlugin k p) = some (madeUpID k p) := by
    intro k p hp
    unfold fixedPlugin
    cases hid : idOf p with
    | some j => exact .inl ⟨hid, by simp⟩
    | none =>
      refine .inr ⟨rfl, ?_⟩
      cases hpid : p.id with
      | id j => simp [idOf, hpid] at hid
      | notString m => exact absurd hpid (h p hp m)
      | notFound m => exact C45_gets_id p _ m hpid
  rcases key (i + 1) _ hpi with ⟨h1, h1'⟩ | ⟨h1', h1⟩ <;> rcases key (j + 1) _ hpj with ⟨h2, h2'⟩ | ⟨h2', h2⟩ <;>
    rw [h1, h2] at heq
  · -- both had an id
    obtain ⟨a, ha⟩ := Option.ne_none_iff_exists'.1 h1'
    rw [ha] at heq
    have : ∀ (l : List Plugin) (i j : Nat) (hi : i < l.length) (hj : j < l.length), i < j →
        idOf l[i] = some a → idOf l[j] = some a → ¬ (l.filterMap idOf).Nodup := by
      intro l
      induction l with
      | nil => intro i j hi; simp at hi
      | cons p l ih =>
        intro i j hi hj hlt h1 h2 hnd
        cases j with
        | zero => omega
        | succ j =>
          simp only [List.length_cons] at hi hj
          cases i with
          | zero =>
            simp only [List.getElem_cons_zero] at h1
            simp only [List.getElem_cons_succ] at h2
            rw [List.filterMap_cons_some h1, List.nodup_cons] at hnd
            exact hnd.1 (List.mem_filterMap.2 ⟨l[j], List.getElem_mem _, h2⟩)
          | succ i =>
            simp only [List.getElem_cons_succ] at h1 h2
            refine ih i j (by omega) (by omega) (by omega) h1 h2 ?_
            cases hp : idOf p with
            | none => rwa [List.filterMap_cons_none hp] at hnd
            | some b =>
              rw [List.filterMap_cons_some hp, List.nodup_cons] at hnd
              exact hnd.2
    exact this _ i j hi hj hij ha heq.symm hdist
  · exact hex _ hpi _ hpj (j + 1) heq
  · exact hex _ hpj _ hpi (i + 1) heq.symm
  · injection heq with heq
    have := C45_distinct _ _ _ _ heq
    omega

theorem config_witness {content : Bytes} (P : Config → Bool) (h : (configOf content).any P = true) :
    ∃ c, configOf content = some c ∧ P c = true := by
  cases hc : configOf content with
  | none => rw [hc] at h; cases h
  | some c => rw [hc] at h; exact ⟨c, rfl, h⟩

/-- The hypotheses of the last two are met by this file. -/
example : ∃ c, configOf b!"input { aa { id => one } bb { } } output { bb { } }" = some c ∧
    (plugins c).map idOf = [some b!"one", none, none] ∧
    (plugins (fixIDs c)).map idOf = [some b!"one", some b!"bb-2", some b!"bb-3"] := by
  obtain ⟨c, h, hp⟩ := config_witness (content := b!"input { aa { id => one } bb { } } output { bb { } }")
    (fun c => (plugins c).map idOf = [some b!"one", none, none] ∧
      (plugins (fixIDs c)).map idOf = [some b!"one", some b!"bb-2", some b!"bb-3"]) (by decide +kernel)
  exact ⟨c, h, by simpa using hp⟩

/-- **C45** Violated: a made-up id can collide with an existing one. -/
theorem C45_violated_collision : ∃ content c, configOf content = some c ∧
    ((plugins c).filterMap idOf).Nodup ∧ ¬ ((plugins (fixIDs c)).map idOf).Nodup := by
  obtain ⟨c, h, hp⟩ := config_witness (content := b!"input { aa { id => \"bb-2\" } bb { } }")
    (fun c => (plugins c).filterMap idOf = [b!"bb-2"] ∧
      (plugins (fixIDs c)).map idOf = [some b!"bb-2", some b!"bb-2"]) (by decide +kernel)
  simp only [decide_eq_true_eq] at hp
  refine ⟨_, c, h, ?_, ?_⟩
  · rw [hp.1]; decide
  · rw [hp.2]; decide

/-- **C45** Violated: a plugin with `id => 1` gets a further attribute and still has no id. -/
theorem C45_violated_still_without : ∃ content c, configOf content = some c ∧
    (fixIDs c).str = b!"input {\n  aa {\n    id => 1\n    id => \"aa-1\"\n  }\n}\n" ∧
    (plugins (fixIDs c)).map idOf = [none] := by
  obtain ⟨c, h, hp⟩ := config_witness (content := b!"input { aa { id => 1 } }")
    (fun c => (fixIDs c).str = b!"input {\n  aa {\n    id => 1\n    id => \"aa-1\"\n  }\n}\n" ∧
    (plugins (fixIDs c)).map idOf = [none]) (by decide +kernel)
  simp only [decide_eq_true_eq] at hp
  exact ⟨_, c, h, hp⟩

/-! ### C46 -/

/-- **C46** Violated: the file written for a plugin with a quoted name does not parse any more. -/
theorem C46_violated : ∃ content c, configOf content = some c ∧ withoutID (plugins c) ≠ [] ∧
    valid (fixIDs c).str = false := by
  obtain ⟨c, h, hp⟩ := config_witness (content := b!"input { \"a a\" { } }")
    (fun c => (withoutID (plugins c)).length = 1 ∧ valid (fixIDs c).str = false) (by decide +kernel)
  simp only [decide_eq_true_eq] at hp
  refine ⟨_, c, h, ?_, hp.2⟩
  rw [← List.length_pos_iff, hp.1]
  decide

/-! ### C07 for the commands -/

/-- **C07** When a parse is aborted by a fatal error, the entry of the commands is the path and the
error: the failure report, which the error already is, is not repeated. -/
theorem C07_cli (twice : Bool) (o : Opts) (name data : Bytes) (ff : List FF) (e : PErr)
    (he : e ∈ (parse o name data ff).1.errs)
    (hp : b!"Parsing error at pos ".isPrefixOf e.msg = true) :
    fileError twice name (errText name (parse o name data ff).1.errs) (parse o name data ff).2 =
      name ++ b!": " ++ errText name (parse o name data ff).1.errs := by
  have h7 := C07_same_text o name data ff e he hp
  unfold fileError
  rw [h7]
  have hj : ∀ (l : List Bytes) (x : Bytes), x ∈ l → x <:+: joinSep b!"\n" l := by
    intro l
    induction l with
    | nil => intro x hx; cases hx
    | cons y l ih =>
      intro x hx
      cases l with
      | nil => simp at hx; subst hx; exact List.infix_refl _
      | cons z l =>
        simp only [joinSep]
        rcases List.mem_cons.1 hx with rfl | hx
        · exact ⟨[], b!"\n" ++ joinSep b!"\n" (z :: l), by simp⟩
        · obtain ⟨a, b, hab⟩ := ih x hx
          exact ⟨y ++ b!"\n" ++ a, b, by simp [← hab]⟩
  have hin : e.msg <:+: errText name (parse o name data ff).1.errs := by
    refine List.IsInfix.trans ?_ (hj _ (e.text name) (List.mem_map_of_mem he))
    exact ⟨_, [], by simp only [PErr.text, List.append_nil]; rfl⟩
  simp only [infix_containsSub hin]
  rfl

end Verif.Props
