import Verif.Spec.Session
import Verif.Props.Fix
import Verif.Props.Rounding
/-
C66: several commands one after the other.
-/
namespace Verif.Props
open Verif Verif.Spec

/-- Contents whose configuration can be printed faithfully. -/
def Fine (x : Bytes) : Prop := ∃ c, configOf x = some c ∧ Printable c

theorem fine_step {x : Bytes} {c : Config} (h : configOf x = some c) (hc : Printable c) :
    ∃ c', configOf c.str = some c' ∧ Printable c' ∧ skeleton c' = skeleton c ∧
      ∃ c'', configOf c'.str = some c'' ∧ c''.str = c'.str := by
  have hp := configOf_parse h [] []
  obtain ⟨c', h1, h2⟩ := C16_file {} [] [] x [] [] c rfl hp hc
  obtain ⟨d, d', h3, h4, h5⟩ := C17_file {} [] x [] c rfl rfl hp hc
  obtain ⟨e, h6, h7⟩ := C16_roundtrip {} [] [] c rfl rfl (C16_valid {} [] x [] c hp hc) hc
  rw [h1] at h3 h6
  simp only [ParseRes.done.injEq, Val.config.injEq, and_true] at h3 h6
  subst h3 h6
  refine ⟨c', by unfold configOf; rw [h1], ?_, h2, d', by unfold configOf; rw [h4], h5⟩
  exact (configOk_content _ _).1 (by rw [h7]; exact configOk_settle hc)

theorem formatOnce_some {x : Bytes} {c : Config} (h : configOf x = some c) : formatOnce x = c.str := by
  unfold formatOnce; rw [h]

attribute [local irreducible] configOf formatOnce

theorem reformat_zero (x : Bytes) : reformat x 0 = x := rfl

theorem reformat_some {x : Bytes} {c : Config} (h : configOf x = some c) (n : Nat) : reformat x (n + 1) = reformat c.str n := by
  rw [← formatOnce_some h]; rfl

attribute [local irreducible] reformat

theorem reformat_succ {x : Bytes} (h : Fine x) (n : Nat) : reformat x (n + 1) = reformat (reformat x n) 1 := by
  induction n generalizing x with
  | zero => rw [reformat_zero]
  | succ n ih =>
    obtain ⟨c, h1, h2⟩ := h
    obtain ⟨c', h3, h4, -⟩ := fine_step h1 h2
    rw [reformat_some h1 (n + 1), reformat_some h1 n, ih ⟨c', h3, h4⟩]

/-- What formatting a file `n` times keeps. -/
theorem fine_reformat {x : Bytes} {c : Config} (h : configOf x = some c) (hc : Printable c) (n : Nat) :
    ∃ c', configOf (reformat x n) = some c' ∧ Printable c' ∧ skeleton c' = skeleton c := by
  induction n generalizing x c with
  | zero => exact ⟨c, by rw [reformat_zero]; exact h, hc, rfl⟩
  | succ n ih =>
    obtain ⟨c', h1, h2, h3, -⟩ := fine_step h hc
    obtain ⟨d, h4, h5, h6⟩ := ih h1 h2
    refine ⟨d, ?_, h5, h6.trans h3⟩
    rw [reformat_some h]
    exact h4

theorem reformat_add {x : Bytes} (h : Fine x) (m n : Nat) : reformat x (m + n) = reformat (reformat x m) n := by
  induction n with
  | zero => rw [reformat_zero]; rfl
  | succ n ih =>
    obtain ⟨c, h1, h2⟩ := h
    obtain ⟨c', h3, h4, -⟩ := fine_reformat h1 h2 m
    rw [← Nat.add_assoc, reformat_succ ⟨c, h1, h2⟩, ih, ← reformat_succ ⟨c', h3, h4⟩]

/-- From the second time on nothing changes. -/
theorem reformat_stable {x : Bytes} (h : Fine x) (n : Nat) (hn : 2 ≤ n) : reformat x n = reformat x 2 := by
  obtain ⟨k, rfl⟩ : ∃ k, n = 2 + k := ⟨n - 2, by omega⟩
  clear hn
  induction k with
  | zero => rfl
  | succ k ih =>
    rw [← Nat.add_assoc, reformat_succ h, ih]
    obtain ⟨c, h1, h2⟩ := h
    obtain ⟨c', h3, h4, -, c'', h5, h6⟩ := fine_step h1 h2
    have e : reformat x 2 = c'.str := by
      rw [reformat_some h1 1, reformat_some h3 0, reformat_zero]
    rw [e, reformat_some h5 0, reformat_zero, h6]

theorem formattable_fails {fs : FS} {n : Bytes} (h : Formattable fs n) : fails fs n = false := by
  unfold Formattable at h
  unfold fails
  cases hf : fs n with
  | missing e => rw [hf] at h; exact h.elim
  | dir => rfl
  | file ct acc =>
    rw [hf] at h
    obtain ⟨rfl, c, h1, -⟩ := h
    simp [valid_configOf.2 ⟨c, h1⟩]

/-- A path stays formattable when some files have been formatted. -/
theorem formattable_reformatted {fs : FS} {n : Bytes} (names : List Bytes) (h : Formattable fs n) :
    Formattable (reformattedFS fs names) n := by
  unfold Formattable at h ⊢
  unfold reformattedFS
  cases hf : fs n with
  | missing e => rw [hf] at h; exact h.elim
  | dir => trivial
  | file ct acc =>
    rw [hf] at h
    obtain ⟨rfl, c, h1, h2⟩ := h
    obtain ⟨c', h3, h4, -⟩ := fine_reformat h1 h2 (names.count n)
    exact ⟨rfl, c', h3, h4⟩

/-- **C66** `format -w` on formattable paths, which may be named more than once: no error, every file has been formatted as often
as it was named, nothing else has changed and nothing has been printed. -/
theorem C66_run (args : List Bytes) (w : World) (h : ∀ n ∈ args, Formattable w.fs n) :
    ∃ w', formatRun true args w = (.ret [], w') ∧ w'.fs = reformattedFS w.fs args ∧ w'.out = w.out := by
  induction args generalizing w with
  | nil =>
    refine ⟨w, rfl, ?_, rfl⟩
    funext m
    simp only [reformattedFS, List.count_nil, reformat_zero]
    cases w.fs m <;> rfl
  | cons n args ih =>
    have hn := h n (List.mem_cons_self ..)
    have hfail := formattable_fails hn
    cases hf : w.fs n with
    | missing e => simp only [Formattable, hf] at hn
    | dir =>
      obtain ⟨w', h1, h2, h3⟩ := ih w fun m hm => h m (List.mem_cons_of_mem _ hm)
      refine ⟨w', ?_, ?_, h3⟩
      · conv => lhs; unfold formatRun
        rw [hf]
        exact h1
      · rw [h2]
        funext m
        simp only [reformattedFS]
        by_cases hm : m = n
        · subst hm; simp [hf]
        · rw [List.count_cons_of_ne (fun e => hm e.symm)]
    | file content acc =>
      obtain ⟨c, ff, hc, hr⟩ := format_fine hf hfail true args
      have hn' := hn
      simp only [Formattable, hf] at hn'
      obtain ⟨rfl, c0, hc0, hp⟩ := hn'
      rw [hc] at hc0
      injection hc0 with hc0
      subst hc0
      rw [hr]
      simp only [if_true]
      rw [rewrite_ok ⟨rfl, rfl⟩]
      simp only
      have hfs : ((({ w with ff := ff } : World).effect (.truncate n)).effect (.write n c.str)).fs =
          reformattedFS w.fs [n] := by
        rw [(effect_fields _ _).1, (effect_fields _ _).1, run_twice hf]
        funext m
        by_cases hm : m = n
        · subst hm; simp [reformattedFS, hf, reformat_some hc 0, reformat_zero]
        · simp only [hm, if_false, reformattedFS]
          rw [List.count_cons_of_ne (fun e => hm e.symm), List.count_nil]
          cases w.fs m <;> simp [reformat_zero]
      obtain ⟨w', h1, h2, h3⟩ := ih _ (by
        intro m hm
        rw [hfs]
        exact formattable_reformatted [n] (h m (List.mem_cons_of_mem _ hm)))
      refine ⟨w', h1, ?_, h3.trans rfl⟩
      rw [h2, hfs]
      funext m
      simp only [reformattedFS]
      by_cases hm : m = n
      · subst hm
        simp only [hf, List.count_cons_self, List.count_nil, Nat.zero_add]
        rw [← reformat_add ⟨c, hc, hp⟩, Nat.add_comm]
      · rw [List.count_cons_of_ne (fun e => hm e.symm), List.count_cons_of_ne (fun e => hm e.symm), List.count_nil]
        cases w.fs m <;> simp [reformat_zero]

theorem formatTimes_fs (args : List Bytes) (n : Nat) (w : World) (h : ∀ m ∈ args, Formattable w.fs m) :
    (∀ r ∈ (formatTimes args n w).1, r = .ret []) ∧
    ∀ m, (formatTimes args n w).2.fs m = match w.fs m with
      | .file content acc => .file (reformat content (n * args.count m)) acc
      | x => x := by
  induction n generalizing w with
  | zero =>
    refine ⟨by simp [formatTimes, session], fun m => ?_⟩
    simp only [formatTimes, List.replicate_zero, session, Nat.zero_mul, reformat_zero]
    cases w.fs m <;> rfl
  | succ n ih =>
    obtain ⟨w', h1, h2, -⟩ := C66_run args w h
    have e : formatTimes args (n + 1) w = (.ret [] :: (formatTimes args n w').1, (formatTimes args n w').2) := by
      simp only [formatTimes, List.replicate_succ, session, Command.run, h1]
    rw [e]
    have hw' : ∀ m ∈ args, Formattable w'.fs m := fun m hm => by
      rw [h2]; exact formattable_reformatted args (h m hm)
    obtain ⟨h3, h4⟩ := ih w' hw'
    refine ⟨?_, fun m => ?_⟩
    · intro r hr
      simp only [List.mem_cons] at hr
      rcases hr with rfl | hr
      · rfl
      · exact h3 r hr
    · rw [h4 m, h2]
      simp only [reformattedFS]
      cases hf : w.fs m with
      | missing e => rfl
      | dir => rfl
      | file ct acc =>
        simp only
        by_cases hm : m ∈ args
        · have := h m hm
          simp only [Formattable, hf] at this
          obtain ⟨-, c, hc, hp⟩ := this
          rw [← reformat_add ⟨c, hc, hp⟩, Nat.add_mul, Nat.one_mul, Nat.add_comm]
        · have hz : args.count m = 0 := List.count_eq_zero_of_not_mem hm
          rw [hz, Nat.mul_zero, Nat.mul_zero, reformat_zero]

/-- **C66** `format -w` settles: however often it is run on formattable paths it reports no error, and from the second run on no
file changes. -/
theorem C66_settles (args : List Bytes) (n : Nat) (w : World) (h : ∀ m ∈ args, Formattable w.fs m) (hn : 2 ≤ n) :
    (∀ r ∈ (formatTimes args n w).1, r = .ret []) ∧ (formatTimes args n w).2.fs = (formatTimes args 2 w).2.fs := by
  obtain ⟨h1, h2⟩ := formatTimes_fs args n w h
  refine ⟨h1, ?_⟩
  funext m
  rw [h2 m, (formatTimes_fs args 2 w h).2 m]
  cases hf : w.fs m with
  | missing e => rfl
  | dir => rfl
  | file ct acc =>
    simp only
    by_cases hm : m ∈ args
    · have := h m hm
      simp only [Formattable, hf] at this
      obtain ⟨-, c, hc, hp⟩ := this
      have hpos : 0 < args.count m := List.count_pos_iff.2 hm
      rw [reformat_stable ⟨c, hc, hp⟩ (n * args.count m) (by have := Nat.mul_le_mul hn hpos; omega),
        reformat_stable ⟨c, hc, hp⟩ (2 * args.count m) (by omega)]
    · have hz : args.count m = 0 := List.count_eq_zero_of_not_mem hm
      rw [hz, Nat.mul_zero, Nat.mul_zero]

theorem kept_refl (a : Node) : Kept a a := by cases a <;> simp [Kept]

theorem kept_trans {a b c : Node} (h1 : Kept a b) (h2 : Kept b c) : Kept a c := by
  cases a <;> cases b <;> cases c <;> simp only [Kept] at h1 h2 ⊢
  · exact h1.trans h2
  · obtain ⟨rfl, h1⟩ := h1
    obtain ⟨rfl, h2⟩ := h2
    refine ⟨rfl, ?_⟩
    rcases h1 with rfl | ⟨x, y, h3, h4, h5⟩
    · exact h2
    · rcases h2 with rfl | ⟨u, v, h6, h7, h8⟩
      · exact .inr ⟨x, y, h3, h4, h5⟩
      · rw [h4] at h6
        injection h6 with h6
        subst h6
        exact .inr ⟨x, v, h3, h7, h8.trans h5⟩

/-- **C66** Sessions are harmless: however `check`, `format`, `format -w` and `lint` are run one after the other on formattable
paths, no `check` and no `format` ever reports an error, no command crashes or hangs, every path stays formattable, files not named
stay untouched and every file named keeps its configuration, up to positions and comments. -/
theorem C66_session (cmds : List Command) (w : World) (h : ∀ c ∈ cmds, ∀ n ∈ c.args, Formattable w.fs n) :
    (∀ x ∈ List.zip cmds (session cmds w).1, (∃ es, x.2 = .ret es) ∧ ((∀ a, x.1 ≠ .lint a) → x.2 = .ret [])) ∧
    (session cmds w).1.length = cmds.length ∧
    (∀ n, Formattable w.fs n → Formattable (session cmds w).2.fs n) ∧
    (∀ n, (∀ c ∈ cmds, n ∉ c.args) → (session cmds w).2.fs n = w.fs n) ∧
    (∀ n, Kept (w.fs n) ((session cmds w).2.fs n)) := by
  induction cmds generalizing w with
  | nil => exact ⟨by simp [session], rfl, fun n h => h, fun _ _ => rfl, fun n => kept_refl _⟩
  | cons c cmds ih =>
    have hc := h c (List.mem_cons_self ..)
    -- one command
    have H : ((∃ es, (c.run w).1 = .ret es) ∧ ((∀ a, c ≠ .lint a) → (c.run w).1 = .ret [])) ∧
        (∀ n, Formattable w.fs n → Formattable (c.run w).2.fs n) ∧ (∀ n, n ∉ c.args → (c.run w).2.fs n = w.fs n) ∧
        (∀ n, Kept (w.fs n) ((c.run w).2.fs n)) := by
      have hpres : ∀ n ∈ c.args, present w.fs n = true := by
        intro n hn
        have := hc n hn
        unfold Formattable at this
        unfold present
        cases hf : w.fs n <;> simp_all
      cases c with
      | check a =>
        obtain ⟨es, ff, h1, -⟩ := C39_reports a w hpres
        have h2 := (C39_error_iff a w hpres).2 fun n hn => formattable_fails (hc n hn)
        have hfs : (Command.run (.check a) w).2.fs = w.fs := by simp only [Command.run, h1]
        refine ⟨⟨⟨[], h2⟩, fun _ => h2⟩, ?_⟩
        rw [hfs]
        exact ⟨fun _ h => h, fun _ _ => rfl, fun _ => kept_refl _⟩
      | lint a =>
        obtain ⟨ess, ff, h1, -⟩ := C44_reports a w hpres
        have hfs : (Command.run (.lint a) w).2.fs = w.fs := by simp only [Command.run, h1]
        refine ⟨⟨⟨ess.flatten, by simp only [Command.run, h1]⟩, fun h => absurd rfl (h a)⟩, ?_⟩
        rw [hfs]
        exact ⟨fun _ h => h, fun _ _ => rfl, fun _ => kept_refl _⟩
      | format ws a =>
        cases ws with
        | false =>
          obtain ⟨ff, h1⟩ := C41_prints_all a w fun n hn => formattable_fails (hc n hn)
          have hfs : (Command.run (.format false a) w).2.fs = w.fs := by simp only [Command.run, h1]
          have hr : (Command.run (.format false a) w).1 = .ret [] := by simp only [Command.run, h1]
          refine ⟨⟨⟨[], hr⟩, fun _ => hr⟩, ?_⟩
          rw [hfs]
          exact ⟨fun _ h => h, fun _ _ => rfl, fun _ => kept_refl _⟩
        | true =>
          obtain ⟨w', h1, h2, -⟩ := C66_run a w hc
          have hfs : (Command.run (.format true a) w).2.fs = reformattedFS w.fs a := by simp only [Command.run, h1, h2]
          have hr : (Command.run (.format true a) w).1 = .ret [] := by simp only [Command.run, h1]
          refine ⟨⟨⟨[], hr⟩, fun _ => hr⟩, ?_⟩
          rw [hfs]
          refine ⟨fun n hn => formattable_reformatted a hn, fun n hn => ?_, fun n => ?_⟩
          · have hz : a.count n = 0 := List.count_eq_zero_of_not_mem hn
            simp only [reformattedFS, hz, reformat_zero]
            cases w.fs n <;> rfl
          · simp only [reformattedFS]
            cases hf : w.fs n with
            | missing e => exact kept_refl _
            | dir => exact kept_refl _
            | file ct acc =>
              refine ⟨rfl, ?_⟩
              by_cases hm : n ∈ a
              · have := hc n hm
                simp only [Formattable, hf] at this
                obtain ⟨-, c, hc1, hp⟩ := this
                obtain ⟨c', h3, -, h5⟩ := fine_reformat hc1 hp (a.count n)
                exact .inr ⟨c, c', hc1, h3, h5⟩
              · have hz : a.count n = 0 := List.count_eq_zero_of_not_mem hm
                rw [hz, reformat_zero]
                exact .inl rfl
    obtain ⟨h1, h2, h3, h4⟩ := H
    obtain ⟨i1, i2, i3, i4, i5⟩ := ih (c.run w).2 fun d hd n hn => h2 n (h d (List.mem_cons_of_mem _ hd) n hn)
    refine ⟨?_, ?_, fun n hn => i3 n (h2 n hn), fun n hn => ?_, fun n => kept_trans (h4 n) (i5 n)⟩
    · intro x hx
      simp only [session, List.zip_cons_cons, List.mem_cons] at hx
      rcases hx with rfl | hx
      · exact h1
      · exact i1 x hx
    · simp only [session, List.length_cons, i2]
    · simp only [session]
      rw [i4 n fun d hd => hn d (List.mem_cons_of_mem _ hd)]
      exact h3 n (hn c (List.mem_cons_self ..))

/-! ### lint --auto-fix-id -/

/-- The ids of the text `lint --auto-fix-id` writes. -/
theorem fixed_all {x : Bytes} {c : Config} (h : configOf x = some c) (hc : Printable c)
    (hq : ∀ p ∈ withoutID (plugins c), QuotesEscaped 34 p.name) (hs : ∀ p ∈ plugins c, ∀ m, p.id ≠ .notString m) :
    ∃ c', configOf (fixIDs c).str = some c' ∧ skeleton c' = skeleton (deref (fixIDs c)) ∧ withoutID (plugins c') = [] := by
  obtain ⟨c', h1, h2⟩ := C46_parses x c h hc hq
  refine ⟨c', h1, h2, ?_⟩
  have hids : (plugins c').map idOf = (plugins (fixIDs c)).map idOf := by
    rw [← ids_skeleton, h2, ids_skeleton, plugins_deref]
  simp only [withoutID, List.filter_eq_nil_iff, Option.isNone_iff_eq_none]
  intro p hp hn
  have h5 : idOf p ∈ (plugins (fixIDs c)).map idOf := by rw [← hids]; exact List.mem_map_of_mem hp
  obtain ⟨q, hq1, hq2⟩ := List.mem_map.1 h5
  have h6 := C45_all_have_ids c hs
  simp only [withoutID, List.filter_eq_nil_iff, Option.isNone_iff_eq_none] at h6
  exact h6 q hq1 (hq2.trans hn)

/-- **C66** When every plugin has an id, `lint --auto-fix-id` is `lint`: it reports the same and writes nothing. -/
theorem C66_fix_done (args : List Bytes) (w : World) (h : ∀ n ∈ args, AllIDs w.fs n) :
    ∃ es ff ff', lintRun true args w = (.ret es, { w with ff := ff }) ∧ lintRun false args w = (.ret es, { w with ff := ff' }) := by
  suffices H : ∀ errs (f f' : List FF), ∃ es ff ff', lintLoop true args errs { w with ff := f } = (.ret es, { w with ff := ff }) ∧
      lintLoop false args errs { w with ff := f' } = (.ret es, { w with ff := ff' }) from H [] w.ff w.ff
  induction args with
  | nil => exact fun errs f f' => ⟨errs, f, f', rfl, rfl⟩
  | cons n args ih =>
    intro errs f f'
    have hn := h n (List.mem_cons_self ..)
    have hr : ∀ m ∈ args, AllIDs w.fs m := fun m hm => h m (List.mem_cons_of_mem _ hm)
    unfold AllIDs at hn
    cases hf : w.fs n with
    | missing e => rw [hf] at hn; exact hn.elim
    | dir =>
      obtain ⟨es, ff, ff', h1, h2⟩ := ih hr errs f f'
      refine ⟨es, ff, ff', ?_, ?_⟩
      · conv => lhs; unfold lintLoop
        simp only [hf]; exact h1
      · conv => lhs; unfold lintLoop
        simp only [hf]; exact h2
    | file ct acc =>
      rw [hf] at hn
      obtain ⟨ho, c, hc, hw⟩ := hn
      have hfail : fails w.fs n = false := by rw [fails_file hf]; simp [ho, valid_configOf.2 ⟨c, hc⟩]
      obtain ⟨c1, es1, ff1, a1, a2, a3⟩ := lint_fine (w := { w with ff := f }) hf hfail true args errs
      obtain ⟨c2, es2, ff2, b1, b2, b3⟩ := lint_fine (w := { w with ff := f' }) hf hfail false args errs
      have hw1 : withoutID (plugins c1) = [] := by
        rw [hc] at a1; injection a1 with a1
        have : plugins c = plugins c1 := by rw [a1]; rfl
        rw [← this, hw]
      have hes : es1 = es2 := by
        simp only [LintReports, hf, hfail, Bool.false_eq_true, if_false, if_true] at a2 b2
        obtain ⟨d, hd, rfl⟩ := a2
        obtain ⟨d', hd', rfl⟩ := b2
        rw [hd] at hd'
        injection hd' with hd'
        subst hd'
        have : withoutID (plugins d) = [] := by
          have hdc : configOf ct = some { d with warnings := [] } := by
            unfold lintConfigOf at hd
            split at hd
            · rename_i heq
              rw [Option.some.injEq] at hd
              rw [← hd]
              exact lint_config heq
            · cases hd
          rw [hc] at hdc; injection hdc with hdc
          have : plugins c = plugins d := by rw [hdc]; rfl
          rw [← this, hw]
        simp [listing, this]
      subst hes
      rw [a3, b3, hw1]
      simp only [List.isEmpty_nil, Bool.not_true, Bool.and_false, Bool.false_eq_true, if_false, Bool.false_and]
      exact ih hr _ _ _

/-- **C66** `lint --auto-fix-id` on fixable paths, which may be named more than once: the files named get their ids, nothing else
changes. -/
theorem C66_fix (args : List Bytes) (w : World) (h : ∀ n ∈ args, Fixable w.fs n ∨ AllIDs w.fs n) :
    ∃ es w', lintRun true args w = (.ret es, w') ∧ w'.fs = fixedFS w.fs args ∧ w'.out = w.out := by
  suffices H : ∀ errs, ∃ es w', lintLoop true args errs w = (.ret es, w') ∧ w'.fs = fixedFS w.fs args ∧ w'.out = w.out from H []
  induction args generalizing w with
  | nil =>
    intro errs
    refine ⟨errs, w, rfl, ?_, rfl⟩
    funext m
    simp only [fixedFS, List.not_mem_nil, if_false]
    cases w.fs m <;> rfl
  | cons n args ih =>
    intro errs
    have hn := h n (List.mem_cons_self ..)
    have hr : ∀ m ∈ args, Fixable w.fs m ∨ AllIDs w.fs m := fun m hm => h m (List.mem_cons_of_mem _ hm)
    cases hf : w.fs n with
    | missing e => simp [Fixable, AllIDs, hf] at hn
    | dir =>
      obtain ⟨es, w', h1, h2, h3⟩ := ih w hr errs
      refine ⟨es, w', ?_, ?_, h3⟩
      · conv => lhs; unfold lintLoop
        simp only [hf]; exact h1
      · rw [h2]
        funext m
        simp only [fixedFS]
        by_cases hm : m = n
        · subst hm; simp [hf]
        · simp [hm]
    | file ct acc =>
      have hopen : acc.openErr = none := by
        rcases hn with hn | hn
        · simp only [Fixable, hf] at hn; rw [hn.1]
        · simp only [AllIDs, hf] at hn; exact hn.1
      obtain ⟨c, hc⟩ : ∃ c, configOf ct = some c := by
        rcases hn with hn | hn
        · simp only [Fixable, hf] at hn; obtain ⟨-, c, hc, -⟩ := hn; exact ⟨c, hc⟩
        · simp only [AllIDs, hf] at hn; obtain ⟨-, c, hc, -⟩ := hn; exact ⟨c, hc⟩
      have hfail : fails w.fs n = false := by rw [fails_file hf]; simp [hopen, valid_configOf.2 ⟨c, hc⟩]
      obtain ⟨d, es, ff, a1, -, a3⟩ := lint_fine hf hfail true args errs
      have hdc : { d with warnings := [] } = c := by rw [hc] at a1; injection a1 with a1; exact a1.symm
      have hp : plugins d = plugins c := by rw [← hdc]; rfl
      have hfx : (fixIDs d).str = (fixIDs c).str := by rw [← hdc]; rfl
      rw [a3, hp, hfx]
      by_cases hw : (withoutID (plugins c)).isEmpty = true
      · simp only [hw, Bool.not_true, Bool.and_false, Bool.false_eq_true, if_false]
        obtain ⟨es', w', h1, h2, h3⟩ := ih { w with ff := ff } hr (errs ++ es)
        refine ⟨es', w', h1, ?_, h3⟩
        rw [h2]
        funext m
        simp only [fixedFS]
        by_cases hm : m = n
        · subst hm; simp [hf, hc, hw]
        · simp [hm]
      · simp only [hw, Bool.not_false, Bool.and_self, if_true]
        have hn : Fixable w.fs n := by
          rcases hn with hn | hn
          · exact hn
          · simp only [AllIDs, hf] at hn
            obtain ⟨-, c1, hc1, h0⟩ := hn
            rw [hc] at hc1; injection hc1 with hc1
            subst hc1
            exact absurd (by rw [h0]; rfl) hw
        simp only [Fixable, hf] at hn
        obtain ⟨rfl, c1, hc1, hP, hq, hs⟩ := hn
        rw [hc] at hc1; injection hc1 with hc1
        subst hc1
        rw [rewrite_ok ⟨rfl, rfl⟩]
        simp only
        have hfs : ((({ w with ff := ff } : World).effect (.truncate n)).effect (.write n (fixIDs c).str)).fs = fixedFS w.fs [n] := by
          rw [(effect_fields _ _).1, (effect_fields _ _).1, run_twice hf]
          funext m
          by_cases hm : m = n
          · subst hm; simp [fixedFS, hf, hc, hw]
          · simp only [hm, if_false, fixedFS, List.mem_singleton]
            cases w.fs m <;> rfl
        obtain ⟨c', hc', -, hz⟩ := fixed_all hc hP hq hs
        obtain ⟨es', w', h1, h2, h3⟩ := ih (((({ w with ff := ff } : World).effect (.truncate n)).effect (.write n (fixIDs c).str)))
          (by
            intro m hm
            rw [hfs]
            by_cases hmn : m = n
            · subst hmn
              right
              simp only [AllIDs, fixedFS, hf, List.mem_singleton, if_true, hc, hw, Bool.false_eq_true, if_false]
              exact ⟨trivial, c', hc', hz⟩
            · have e : fixedFS w.fs [n] m = w.fs m := by
                simp only [fixedFS, List.mem_singleton, hmn, if_false]
                cases w.fs m <;> rfl
              simp only [Fixable, AllIDs, e]
              exact hr m hm) (errs ++ es)
        refine ⟨es', w', h1, ?_, h3⟩
        rw [h2, hfs]
        funext m
        by_cases hm : m = n
        · subst hm
          simp only [fixedFS, hf, List.mem_singleton, if_true, hc, hw, Bool.false_eq_true, if_false, List.mem_cons, true_or, hc', hz]
          simp
        · simp only [fixedFS, List.mem_singleton, hm, if_false, List.mem_cons, false_or]
          cases w.fs m <;> rfl

theorem ids_of_skeleton {c c' : Config} (h : skeleton c' = skeleton c) : (plugins c').map idOf = (plugins c).map idOf := by
  rw [← ids_skeleton, h, ids_skeleton]

theorem without_nil {c c' : Config} (h : (plugins c').map idOf = (plugins c).map idOf) (hn : withoutID (plugins c) = []) :
    withoutID (plugins c') = [] := by
  simp only [withoutID, List.filter_eq_nil_iff, Option.isNone_iff_eq_none] at hn ⊢
  intro p hp h0
  have h5 : idOf p ∈ (plugins c).map idOf := by rw [← h]; exact List.mem_map_of_mem hp
  obtain ⟨q, hq1, hq2⟩ := List.mem_map.1 h5
  exact hn q hq1 (hq2.trans h0)

/-- A path with ids keeps them when its configuration is kept. -/
theorem allIDs_kept {fs fs' : FS} {n : Bytes} (h : AllIDs fs n) (hk : Kept (fs n) (fs' n)) : AllIDs fs' n := by
  unfold AllIDs at h ⊢
  cases hf : fs n with
  | missing e => rw [hf] at h; exact h.elim
  | dir =>
    rw [hf] at hk
    cases hf' : fs' n with
    | dir => trivial
    | missing e => rw [hf'] at hk; exact hk.elim
    | file y acc => rw [hf'] at hk; exact hk.elim
  | file x acc =>
    rw [hf] at hk h
    cases hf' : fs' n with
    | dir => rw [hf'] at hk; exact hk.elim
    | missing e => rw [hf'] at hk; exact hk.elim
    | file y acc' =>
      rw [hf'] at hk
      obtain ⟨ho, c, hc, hw⟩ := h
      obtain ⟨rfl, rfl | ⟨c1, c2, h1, h2, h3⟩⟩ := hk
      · exact ⟨ho, c, hc, hw⟩
      · rw [hc] at h1; injection h1 with h1
        subst h1
        exact ⟨ho, c2, h2, without_nil (ids_of_skeleton h3) hw⟩

/-- What has got its ids can be formatted. -/
theorem fixed_path {fs : FS} {n : Bytes} {names : List Bytes} (h : Fixable fs n) (hn : n ∈ names) :
    Formattable (fixedFS fs names) n ∧ AllIDs (fixedFS fs names) n := by
  unfold Fixable at h
  unfold Formattable AllIDs fixedFS
  cases hf : fs n with
  | missing e => rw [hf] at h; exact h.elim
  | dir => exact ⟨trivial, trivial⟩
  | file x acc =>
    rw [hf] at h
    obtain ⟨rfl, c, hc, hP, hq, hs⟩ := h
    simp only [hn, if_true, hc]
    by_cases hw : (withoutID (plugins c)).isEmpty = true
    · simp only [hw, if_true]
      exact ⟨⟨trivial, c, hc, hP⟩, trivial, c, hc, List.isEmpty_iff.1 hw⟩
    · simp only [hw, Bool.false_eq_true, if_false]
      obtain ⟨c', h1, -, h3⟩ := fixed_all hc hP hq hs
      obtain ⟨hP', hv⟩ := fixIDs_printable x c hc hP hq
      obtain ⟨e, h6, h7⟩ := C16_roundtrip {} [] [] (fixIDs c) rfl rfl (.inr hv) hP'
      rw [configOf_parse h1] at h6
      simp only [ParseRes.done.injEq, Val.config.injEq, and_true] at h6
      subst h6
      refine ⟨⟨trivial, c', h1, ?_⟩, trivial, c', h1, h3⟩
      exact (configOk_content _ _).1 (by rw [h7]; exact configOk_settle hP')

/-- **C66** Fixing is for good: after `lint --auto-fix-id` on fixable paths every plugin in them has an id, whatever is run on them
afterwards, and `lint --auto-fix-id` never writes to them again. -/
theorem C66_fix_once (args : List Bytes) (w : World) (h : ∀ n ∈ args, Fixable w.fs n) (cmds : List Command)
    (hc : ∀ c ∈ cmds, ∀ n ∈ c.args, n ∈ args) :
    ∃ es w1 w2, lintRun true args w = (.ret es, w1) ∧ w2 = (session cmds w1).2 ∧
      (∀ n ∈ args, AllIDs w2.fs n ∧ Formattable w2.fs n) ∧
      (lintRun true args w2).2.fs = w2.fs ∧ (lintRun true args w2).2.trace = w2.trace ∧
      (lintRun true args w2).1 = (lintRun false args w2).1 := by
  obtain ⟨es, w1, h1, h2, -⟩ := C66_fix args w fun n hn => .inl (h n hn)
  have hfix : ∀ n ∈ args, Formattable w1.fs n ∧ AllIDs w1.fs n := fun n hn => by
    rw [h2]; exact fixed_path (h n hn) hn
  obtain ⟨-, -, h5, -, h7⟩ := C66_session cmds w1 fun c hcm n hn => (hfix n (hc c hcm n hn)).1
  have hall : ∀ n ∈ args, AllIDs (session cmds w1).2.fs n ∧ Formattable (session cmds w1).2.fs n := fun n hn =>
    ⟨allIDs_kept (hfix n hn).2 (h7 n), h5 n (hfix n hn).1⟩
  obtain ⟨es', ff, ff', h8, h9⟩ := C66_fix_done args (session cmds w1).2 fun n hn => (hall n hn).1
  exact ⟨es, w1, _, h1, rfl, hall, by rw [h8], by rw [h8], by rw [h8, h9]⟩

/-- A file for the examples: a comment, a condition, a plugin with and one without an id. -/
def sessionText : Bytes := b!"input { # c\n aa { } if [x] { bb { id => one } } }"

/-- A file and a directory. -/
def sessionFS : FS := fun n =>
  if n = b!"f" then .file sessionText {} else if n = b!"d" then .dir else .missing b!"no such file or directory"

/-- The hypotheses are met: the file is fixable. -/
theorem session_sample : Fixable sessionFS b!"f" ∧ Fixable sessionFS b!"d" ∧ Formattable sessionFS b!"f" := by
  obtain ⟨c, hc, hp⟩ := config_witness (content := sessionText)
    (fun c => (numbers c).length = 0 ∧ patterns c = [b!"x"] ∧ (arraysInConditions c).length = 0 ∧
      (namesAfterBranches c).length = 0 ∧ (withoutID (plugins c)).map (·.name) = [b!"aa"] ∧
      (plugins c).all (fun p => match p.id with | .notString _ => false | _ => true) = true) (by decide +kernel)
  simp only [decide_eq_true_eq] at hp
  obtain ⟨h1, h2, h3, h4, h5, h6⟩ := hp
  rw [List.length_eq_zero_iff] at h1 h3 h4
  have hP : Printable c := by
    refine (C16_printable {} [] sessionText [] c (configOf_parse hc [] [])).2 ⟨?_, ?_, ?_, ?_⟩
    · rw [h1]; simp
    · rw [h2]
      intro b hb
      simp only [List.mem_singleton] at hb
      subst hb
      exact .plain _ _ (by decide) (by decide) (by decide) .nil
    · rw [h3]; simp
    · rw [h4]; simp
  have hf : sessionFS b!"f" = .file sessionText {} := rfl
  refine ⟨?_, trivial, ?_⟩
  · unfold Fixable
    rw [hf]
    refine ⟨rfl, c, hc, hP, ?_, ?_⟩
    · intro p hp l r he
      have hm : p.name ∈ (withoutID (plugins c)).map (·.name) := List.mem_map_of_mem hp
      rw [h5, List.mem_singleton] at hm
      rw [hm] at he
      have : (34 : UInt8) ∈ b!"aa" := by rw [he]; simp
      exact absurd this (by decide)
    · intro p hp m hm
      have := List.all_eq_true.1 h6 p hp
      rw [hm] at this
      cases this
  · unfold Formattable
    rw [hf]
    exact ⟨rfl, c, hc, hP⟩

/-- A session on that file: `format -w` twice (naming the file twice the first time), `check`, `lint`, `lint --auto-fix-id`. -/
example :
    let w : World := ⟨sessionFS, [], [], []⟩
    let r := session [.format true [b!"f", b!"d", b!"f"], .check [b!"f"], .lint [b!"f"]] w
    r.1 = [.ret [], .ret [], .ret [b!"f: no IDs found for:\n3:3 [16]: aa\n"]] ∧
    r.2.fs b!"f" = .file b!"input {\n  # c\n  aa {}\n\n  if [x] {\n    bb {\n      id => one\n    }\n  }\n}\n" {} ∧
    (lintRun true [b!"f"] r.2).2.fs b!"f" =
      .file b!"input {\n  # c\n  aa {\n    id => \"aa-1\"\n  }\n\n  if [x] {\n    bb {\n      id => one\n    }\n  }\n}\n" {} := by
  decide +kernel

end Verif.Props
