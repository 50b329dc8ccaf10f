import Verif.Props.App
import Verif.Props.Report
import Verif.Props.Session
import Verif.Spec.Main
/-
Property C68: the exit status of `mustache`.
-/
namespace Verif.Props
open Verif Verif.Spec

/-! ### When the reports are empty -/

theorem listing_nil (name what : Bytes) (ps : List Plugin) : listing name what ps = [] ↔ ps = [] := by
  unfold listing; split <;> simp_all

theorem withoutID_nil (ps : List Plugin) : withoutID ps = [] ↔ ∀ p ∈ ps, ∃ i, idOf p = some i := by
  simp only [withoutID, List.filter_eq_nil_iff, Option.isNone_iff_eq_none]
  constructor
  · intro h p hp
    cases hi : idOf p with
    | none => exact absurd hi (h p hp)
    | some i => exact ⟨i, rfl⟩
  · intro h p hp hi
    obtain ⟨i, h⟩ := h p hp
    rw [hi] at h; cases h

theorem repeatedID_nil (ps E : List Plugin) : repeatedID E ps = [] ↔
    (ps.filterMap idOf).Nodup ∧ ∀ p ∈ ps, ∀ q ∈ E, idOf p ≠ none → idOf q ≠ idOf p := by
  induction ps generalizing E with
  | nil => simp [repeatedID]
  | cons p ps ih =>
    simp only [repeatedID, List.append_eq_nil_iff, ih (E ++ [p]), List.mem_cons]
    cases hi : idOf p with
    | none =>
      simp only [List.filterMap_cons, hi]
      constructor
      · rintro ⟨-, h2, h3⟩
        refine ⟨h2, ?_⟩
        rintro q (rfl | hq) r hr
        · exact fun h => absurd hi h
        · exact h3 q hq r (by simp [hr])
      · rintro ⟨h2, h3⟩
        refine ⟨by simp, h2, ?_⟩
        intro q hq r hr hne
        rcases List.mem_append.1 hr with hr | hr
        · exact h3 q (.inr hq) r hr hne
        · simp at hr; subst hr; rw [hi]; exact fun h => hne h.symm
    | some i =>
      simp only [List.filterMap_cons, hi, List.nodup_cons, List.mem_filterMap]
      constructor
      · rintro ⟨h1, h2, h3⟩
        have h1 : ∀ q ∈ E, idOf q ≠ some i := by
          intro q hq heq
          simp at h1
          exact h1 q hq heq
        refine ⟨⟨?_, h2⟩, ?_⟩
        · rintro ⟨q, hq, heq⟩
          exact h3 q hq p (by simp) (by simp [heq]) (by rw [hi, heq])
        · rintro q (heq | hq) r hr hne
          · rw [heq, hi]; exact h1 r hr
          · exact h3 q hq r (by simp [hr]) hne
      · rintro ⟨⟨h1, h2⟩, h3⟩
        refine ⟨?_, h2, ?_⟩
        · have : ¬ ∃ q ∈ E, idOf q = some i := by
            rintro ⟨q, hq, heq⟩; exact h3 p (.inl rfl) q hq (by simp [hi]) (by rw [heq, hi])
          simp [this]
        · intro q hq r hr hne heq
          rcases List.mem_append.1 hr with hr | hr
          · exact h3 q (.inr hq) r hr hne heq
          · simp at hr; subst hr; exact h1 ⟨q, hq, by rw [← heq, hi]⟩

theorem nodup_ids {ps : List Plugin} (h : ∀ p ∈ ps, ∃ i, idOf p = some i) :
    (ps.filterMap idOf).Nodup ↔ (ps.map idOf).Nodup := by
  have e : ps.map idOf = (ps.filterMap idOf).map some := by
    induction ps with
    | nil => rfl
    | cons p ps ih =>
      obtain ⟨i, hi⟩ := h p (List.mem_cons_self ..)
      simp [hi, ih fun q hq => h q (List.mem_cons_of_mem _ hq)]
  rw [e, List.Nodup, List.Nodup, List.pairwise_map]
  simp

/-- The entries for a path that does not fail are empty iff there is nothing to complain about. -/
theorem entries_nil {autoFix : Bool} {fs : FS} {name content : Bytes} {acc : Access} {c : Config} {es : List Bytes}
    (hf : fs name = .file content acc) (hfail : fails fs name = false) (hc : lintConfigOf content = some c)
    (hr : LintReports autoFix fs name es) :
    es = [] ↔ c.warnings = [] ∧ (autoFix = true ∨ ∀ p ∈ plugins c, ∃ i, idOf p = some i) ∧
      ((plugins c).filterMap idOf).Nodup := by
  simp only [LintReports, hf, hfail, Bool.false_eq_true, if_false] at hr
  obtain ⟨c', hc', rfl⟩ := hr
  rw [hc] at hc'; injection hc' with hc'; subst hc'
  simp only [List.append_eq_nil_iff, listing_nil, repeatedID_nil]
  cases autoFix <;> simp [listing_nil, withoutID_nil, and_assoc]

/-- A file that does not fail has a configuration also for `lint`. -/
theorem lint_configOf {fs : FS} {name content : Bytes} {acc : Access}
    (hf : fs name = .file content acc) (hfail : fails fs name = false) :
    acc.openErr = none ∧ ∃ c, lintConfigOf content = some c := by
  obtain ⟨c, es, ff, -, hr, -⟩ := lint_fine (w := ⟨fs, [], [], []⟩) hf hfail false [] []
  simp only [LintReports, hf, hfail, Bool.false_eq_true, if_false] at hr
  obtain ⟨c', hc', -⟩ := hr
  rw [fails_file hf] at hfail
  simp only [Bool.or_eq_false_iff, Option.isSome_eq_false_iff, Option.isNone_iff_eq_none] at hfail
  exact ⟨hfail.1, c', hc'⟩

/-- The configuration of `lint` without its warnings is that of `Parse` with default options. -/
theorem configOf_lint {content : Bytes} {c : Config} (hc : lintConfigOf content = some c) :
    configOf content = some { c with warnings := [] } := by
  unfold lintConfigOf at hc
  split at hc
  · rename_i heq
    rw [lint_config heq]
    injection hc with hc
    rw [hc]
  · cases hc

/-- A readable file with a configuration for `lint` does not fail. -/
theorem fails_of_lint {fs : FS} {name content : Bytes} {acc : Access} {c : Config}
    (hf : fs name = .file content acc) (ho : acc.openErr = none) (hc : lintConfigOf content = some c) :
    fails fs name = false := by
  unfold lintConfigOf at hc
  split at hc
  · rename_i heq
    rw [fails_file hf, valid_configOf.2 ⟨_, lint_config heq⟩]
    simp [ho]
  · cases hc

/-! ### The loop of lint -/

/-- `LintClean` or `FixClean`. -/
def CleanIf (autoFix : Bool) (fs : FS) (name : Bytes) : Prop := if autoFix then FixClean fs name else LintClean fs name

theorem cleanIf_missing {autoFix : Bool} {fs : FS} {name e : Bytes} (hf : fs name = .missing e) :
    ¬ CleanIf autoFix fs name := by
  cases autoFix <;> simp [CleanIf, LintClean, FixClean, hf]

theorem cleanIf_dir {autoFix : Bool} {fs : FS} {name : Bytes} (hf : fs name = .dir) : CleanIf autoFix fs name := by
  cases autoFix <;> simp [CleanIf, LintClean, FixClean, hf]

theorem cleanIf_fails {autoFix : Bool} {fs : FS} {name : Bytes} (h : CleanIf autoFix fs name) : fails fs name = false := by
  cases hf : fs name with
  | missing e => exact absurd h (cleanIf_missing hf)
  | dir => simp [fails, hf]
  | file content acc =>
    cases autoFix
    · simp only [CleanIf, Bool.false_eq_true, if_false, LintClean, hf] at h
      obtain ⟨ho, c, hc, -⟩ := h
      exact fails_of_lint hf ho hc
    · simp only [CleanIf, if_true, FixClean, hf] at h
      obtain ⟨ho, c, hc, -⟩ := h
      exact fails_of_lint hf ho hc

theorem cleanIf_file {autoFix : Bool} {fs : FS} {name content : Bytes} {acc : Access} {c : Config}
    (hf : fs name = .file content acc) (hfail : fails fs name = false) (hc : lintConfigOf content = some c) :
    CleanIf autoFix fs name ↔ c.warnings = [] ∧ (autoFix = true ∨ ∀ p ∈ plugins c, ∃ i, idOf p = some i) ∧
      ((plugins c).filterMap idOf).Nodup ∧
      (autoFix = true → withoutID (plugins c) ≠ [] → acc.createErr = none ∧ acc.writeErr = none) := by
  have ho := (lint_configOf hf hfail).1
  cases autoFix
  · simp only [CleanIf, Bool.false_eq_true, if_false, LintClean, hf, ho, hc, true_and, Option.some.injEq, false_or, false_implies,
      and_true]
    constructor
    · rintro ⟨d, rfl, h1, h2, h3⟩
      exact ⟨h1, h2, (nodup_ids h2).2 h3⟩
    · rintro ⟨h1, h2, h3⟩
      exact ⟨c, rfl, h1, h2, (nodup_ids h2).1 h3⟩
  · have e : withoutID (plugins c) ≠ [] ↔ ∃ p ∈ plugins c, idOf p = none := by
      rw [ne_eq, withoutID_nil]
      constructor
      · intro h
        simp only [Classical.not_forall] at h
        obtain ⟨p, hp, h⟩ := h
        refine ⟨p, hp, ?_⟩
        cases hi : idOf p with
        | none => rfl
        | some i => exact absurd ⟨i, hi⟩ h
      · rintro ⟨p, hp, hi⟩ h
        obtain ⟨i, h⟩ := h p hp
        rw [hi] at h; cases h
    simp only [CleanIf, if_true, FixClean, hf, ho, hc, true_and, Option.some.injEq, true_or, true_implies, e]
    constructor
    · rintro ⟨d, rfl, h1, h2, h3⟩
      exact ⟨h1, h2, h3⟩
    · rintro ⟨h1, h2, h3⟩
      exact ⟨c, rfl, h1, h2, h3⟩

theorem cleanIf_congr {autoFix : Bool} {fs fs' : FS} {name : Bytes} (h : fs' name = fs name) :
    CleanIf autoFix fs' name ↔ CleanIf autoFix fs name := by
  cases autoFix <;> simp [CleanIf, LintClean, FixClean, h]

/-- Rewriting returns no error iff the file can be created and written. -/
theorem rewrite_none (name text : Bytes) (acc : Access) (w : World) :
    (rewrite name text acc w).1 = none ↔ acc.createErr = none ∧ acc.writeErr = none := by
  unfold rewrite
  cases acc.createErr with
  | some e => simp
  | none =>
    cases acc.writeErr with
    | none => simp
    | some e => simp

/-- Rewriting a path leaves the others alone. -/
theorem rewrite_other (name text : Bytes) (acc : Access) (w : World) (m : Bytes) (h : m ≠ name) :
    (rewrite name text acc w).2.fs m = w.fs m := by
  rcases rewrite_cases name text acc w with ⟨e, h'⟩ | ⟨e, part, -, -, h'⟩ | h' <;> rw [h']
  all_goals simp only [(effect_fields _ _).1, FS.run, h, if_false]

/-- Rewriting prints nothing. -/
theorem rewrite_out (name text : Bytes) (acc : Access) (w : World) : (rewrite name text acc w).2.out = w.out := by
  rcases rewrite_cases name text acc w with ⟨e, h'⟩ | ⟨e, part, -, -, h'⟩ | h' <;> rw [h'] <;> rfl

/-- When all arguments exist, `lint` returns; with distinct arguments it returns no entries iff all of them are
clean. -/
theorem lintLoop_status (autoFix : Bool) (args errs : List Bytes) (w : World)
    (hp : ∀ n ∈ args, present w.fs n = true) :
    ∃ es w', lintLoop autoFix args errs w = (.ret (errs ++ es), w') ∧ w'.out = w.out ∧
      ((autoFix = true → args.Nodup) → (es = [] ↔ ∀ n ∈ args, CleanIf autoFix w.fs n)) := by
  induction args generalizing errs w with
  | nil => exact ⟨[], w, by simp [lintLoop], rfl, by simp⟩
  | cons n args ih =>
    have ht := fun m hm => hp m (List.mem_cons_of_mem _ hm)
    cases hf : w.fs n with
    | missing e => simp [present, hf] at hp
    | dir =>
      obtain ⟨es, w', h1, h2, h3⟩ := ih errs w ht
      refine ⟨es, w', ?_, h2, ?_⟩
      · unfold lintLoop; rw [hf]; exact h1
      · intro hnd
        rw [h3 fun h => (List.nodup_cons.1 (hnd h)).2]
        simp [cleanIf_dir hf]
    | file content acc =>
      cases hfail : fails w.fs n with
      | true =>
        obtain ⟨e, ff, -, hl⟩ := lint_failing hf hfail autoFix args errs
        obtain ⟨es, w', h1, h2, -⟩ := ih (errs ++ [e]) { w with ff := ff } ht
        refine ⟨e :: es, w', by rw [hl, h1]; simp, h2, fun _ => ?_⟩
        constructor
        · intro h; cases h
        · intro h
          have := cleanIf_fails (h n (List.mem_cons_self ..))
          rw [hfail] at this; cases this
      | false =>
        obtain ⟨ho, c, hc⟩ := lint_configOf hf hfail
        obtain ⟨c', ents, ff, hc', hr, hl⟩ := lint_fine hf hfail autoFix args errs
        have hb := configOf_lint hc
        have hpl : plugins c' = plugins c := by
          rw [hb] at hc'
          injection hc' with hc'
          have h1 : plugins { c' with warnings := [] } = plugins { c with warnings := [] } := congrArg plugins hc'.symm
          exact h1
        have hnil := entries_nil hf hfail hc hr
        rw [hpl] at hl
        by_cases hfix : (autoFix && !(withoutID (plugins c)).isEmpty) = true
        · rw [if_pos hfix] at hl
          simp only [Bool.and_eq_true, Bool.not_eq_true', List.isEmpty_eq_false_iff] at hfix
          obtain ⟨rfl, hne⟩ := hfix
          have hpres := rewrite_present n (fixIDs c').str acc { w with ff := ff }
          have hoth := rewrite_other n (fixIDs c').str acc { w with ff := ff }
          have hnone := rewrite_none n (fixIDs c').str acc { w with ff := ff }
          have hout := rewrite_out n (fixIDs c').str acc { w with ff := ff }
          cases hrw : rewrite n (fixIDs c').str acc { w with ff := ff } with
          | mk r w1 =>
            rw [hrw] at hl hpres hoth hnone hout
            have hclean : (∀ m ∈ n :: args, CleanIf true w.fs m) ↔
                (ents = [] ∧ r = none) ∧ ∀ m ∈ args, CleanIf true w.fs m := by
              rw [List.forall_mem_cons, cleanIf_file hf hfail hc, hnil, hnone]
              simp [hne, and_assoc]
            have hsame : (n :: args).Nodup → ((∀ m ∈ args, CleanIf true w1.fs m) ↔ ∀ m ∈ args, CleanIf true w.fs m) := by
              intro hnd
              have hn := (List.nodup_cons.1 hnd).1
              constructor <;> intro h m hm
              · exact (cleanIf_congr (hoth m fun e => hn (e ▸ hm))).1 (h m hm)
              · exact (cleanIf_congr (hoth m fun e => hn (e ▸ hm))).2 (h m hm)
            cases r with
            | some e =>
              obtain ⟨es, w', h1, h2, -⟩ := ih (errs ++ ents ++ [e]) w1 fun m hm => (hpres m).trans (ht m hm)
              refine ⟨ents ++ e :: es, w', by rw [hl]; simp only [h1]; simp, h2.trans hout, fun _ => ?_⟩
              rw [hclean]
              simp
            | none =>
              obtain ⟨es, w', h1, h2, h3⟩ := ih (errs ++ ents) w1 fun m hm => (hpres m).trans (ht m hm)
              refine ⟨ents ++ es, w', by rw [hl]; simp only [h1]; simp, h2.trans hout, fun hnd => ?_⟩
              rw [hclean, ← hsame (hnd rfl), List.append_eq_nil_iff, h3 fun h => (List.nodup_cons.1 (hnd h)).2]
              simp
        · rw [if_neg hfix] at hl
          obtain ⟨es, w', h1, h2, h3⟩ := ih (errs ++ ents) { w with ff := ff } ht
          refine ⟨ents ++ es, w', by rw [hl, h1]; simp, h2, fun hnd => ?_⟩
          rw [List.append_eq_nil_iff, h3 fun h => (List.nodup_cons.1 (hnd h)).2, List.forall_mem_cons,
            cleanIf_file hf hfail hc, hnil]
          have : autoFix = true → withoutID (plugins c) ≠ [] → acc.createErr = none ∧ acc.writeErr = none := by
            intro h1 h2
            exact absurd (by simp [h1, h2]) hfix
          constructor
          · rintro ⟨⟨a, b, d⟩, e⟩; exact ⟨⟨a, b, d, this⟩, e⟩
          · rintro ⟨⟨a, b, d, -⟩, e⟩; exact ⟨⟨a, b, d⟩, e⟩

/-! ### The loop of format -/

/-- `format` returns at most one entry. -/
theorem formatRun_ret (ws : Bool) (args : List Bytes) (w : World) :
    ∃ es w', formatRun ws args w = (.ret es, w') ∧ es.length ≤ 1 ∧ (ws = true → w'.out = w.out) := by
  induction args generalizing w with
  | nil => exact ⟨[], w, by simp [formatRun], by simp, fun _ => rfl⟩
  | cons n args ih =>
    cases hfail : fails w.fs n with
    | true =>
      obtain ⟨e, ff, -, hr⟩ := format_failing hfail ws args
      exact ⟨[e], _, hr, by simp, fun _ => rfl⟩
    | false =>
      cases hf : w.fs n with
      | missing e => simp [fails, hf] at hfail
      | dir =>
        have : formatRun ws (n :: args) w = formatRun ws args w := by
          conv => lhs; unfold formatRun
          rw [hf]
        rw [this]
        exact ih w
      | file content acc =>
        obtain ⟨c, ff, hc, hr⟩ := format_fine hf hfail ws args
        rw [hr]
        cases ws
        · simp only [Bool.false_eq_true, if_false]
          obtain ⟨es, w', h1, h2, -⟩ := ih { w with ff := ff, out := w.out ++ c.str }
          exact ⟨es, w', h1, h2, fun h => nomatch h⟩
        · simp only [if_true]
          have hout := rewrite_out n c.str acc { w with ff := ff }
          cases hrw : rewrite n c.str acc { w with ff := ff } with
          | mk r w1 =>
            rw [hrw] at hout
            cases r with
            | some e => exact ⟨[e], w1, rfl, by simp, fun _ => hout⟩
            | none =>
              obtain ⟨es, w', h1, h2, h3⟩ := ih w1
              exact ⟨es, w', h1, h2, fun _ => (h3 rfl).trans hout⟩

theorem rewritable_congr {fs fs' : FS} {name : Bytes} (h : fs' name = fs name) :
    Rewritable fs' name ↔ Rewritable fs name := by simp [Rewritable, h]

/-- `format -w` with distinct arguments returns no entry iff all of them can be rewritten. -/
theorem formatRun_rewritable (args : List Bytes) (w : World) (hnd : args.Nodup) :
    (formatRun true args w).1 = .ret [] ↔ ∀ n ∈ args, Rewritable w.fs n := by
  induction args generalizing w with
  | nil => simp [formatRun]
  | cons n args ih =>
    rw [List.nodup_cons] at hnd
    cases hfail : fails w.fs n with
    | true =>
      obtain ⟨e, ff, -, hr⟩ := format_failing hfail true args
      rw [hr]
      constructor
      · intro h; cases h
      · intro h
        have h := h n (List.mem_cons_self ..)
        cases hf : w.fs n with
        | missing e => simp [Rewritable, hf] at h
        | dir => simp [fails, hf] at hfail
        | file content acc =>
          simp only [Rewritable, hf] at h
          rw [fails_file hf, h.1, h.2.1] at hfail
          simp at hfail
    | false =>
      cases hf : w.fs n with
      | missing e => simp [fails, hf] at hfail
      | dir =>
        have : formatRun true (n :: args) w = formatRun true args w := by
          conv => lhs; unfold formatRun
          rw [hf]
        rw [this, ih w hnd.2, List.forall_mem_cons]
        simp [Rewritable, hf]
      | file content acc =>
        obtain ⟨c, ff, hc, hr⟩ := format_fine hf hfail true args
        rw [hr, if_pos rfl]
        have hoth := rewrite_other n c.str acc { w with ff := ff }
        have hnone := rewrite_none n c.str acc { w with ff := ff }
        have hR : Rewritable w.fs n ↔ acc.createErr = none ∧ acc.writeErr = none := by
          rw [fails_file hf] at hfail
          simp only [Bool.or_eq_false_iff, Option.isSome_eq_false_iff, Option.isNone_iff_eq_none, Bool.not_eq_false'] at hfail
          simp [Rewritable, hf, hfail.1, hfail.2]
        cases hrw : rewrite n c.str acc { w with ff := ff } with
        | mk r w1 =>
          rw [hrw] at hoth hnone
          rw [List.forall_mem_cons, hR, ← hnone]
          cases r with
          | some e => simp
          | none =>
            simp only [true_and]
            rw [ih w1 hnd.2]
            constructor <;> intro h m hm
            · exact (rewritable_congr (hoth m fun e => hnd.1 (e ▸ hm))).1 (h m hm)
            · exact (rewritable_congr (hoth m fun e => hnd.1 (e ▸ hm))).2 (h m hm)

/-! ### C68 -/

theorem endWith_ret (f : List Bytes → Bytes) (es : List Bytes) :
    (endWith f (.ret es)).status = some (if es.isEmpty then 0 else 1) := by
  cases es <;> rfl

/-- **C68** `check` exits with 2 if some argument does not exist (it crashes), otherwise with 1 if some argument
cannot be read or does not parse, otherwise with 0. -/
theorem C68_check (args : List Bytes) (w : World) :
    (execute none (.check args) w).1.status =
      some (if args.any (fun n => !present w.fs n) then 2 else if args.any (fails w.fs) then 1 else 0) := by
  simp only [execute]
  by_cases hm : args.any (fun n => !present w.fs n) = true
  · rw [if_pos hm]
    simp only [List.any_eq_true, Bool.not_eq_true'] at hm
    rw [C40_violated_check args w hm]
    rfl
  · rw [if_neg hm]
    have hp : ∀ n ∈ args, present w.fs n = true := by
      intro n hn
      cases h : present w.fs n with
      | true => rfl
      | false => exact absurd (List.any_eq_true.2 ⟨n, hn, by simp [h]⟩) hm
    obtain ⟨es, ff, h1, h2⟩ := C39_reports args w hp
    rw [h1, endWith_ret]
    have := h2.length_eq
    cases es with
    | nil =>
      have : args.filter (fails w.fs) = [] := List.length_eq_zero_iff.1 this
      rw [List.filter_eq_nil_iff] at this
      have h0 : ¬ args.any (fails w.fs) = true := by simpa using this
      rw [if_neg h0]
      rfl
    | cons e es =>
      obtain ⟨n, hn⟩ := List.exists_mem_of_length_pos (l := args.filter (fails w.fs)) (by rw [this]; simp)
      rw [List.mem_filter] at hn
      have h0 : args.any (fails w.fs) = true := List.any_eq_true.2 ⟨n, hn⟩
      rw [if_pos h0]
      rfl

/-- **C68** `format` exits with 1 if some argument does not exist, cannot be read or does not parse, otherwise
with 0. -/
theorem C68_format (args : List Bytes) (w : World) :
    (execute none (.format false args) w).1.status = some (if args.any (fails w.fs) then 1 else 0) := by
  simp only [execute]
  by_cases hm : args.any (fails w.fs) = true
  · rw [if_pos hm]
    obtain ⟨n, pre, post, rfl, hn, hpre⟩ : ∃ n pre post, args = pre ++ n :: post ∧ fails w.fs n = true ∧
        ∀ m ∈ pre, fails w.fs m = false := by
      induction args with
      | nil => cases hm
      | cons a args ih =>
        cases ha : fails w.fs a with
        | true => exact ⟨a, [], args, rfl, ha, by simp⟩
        | false =>
          obtain ⟨n, pre, post, rfl, hn, hpre⟩ := ih (by simpa [ha] using hm)
          exact ⟨n, a :: pre, post, rfl, hn, by simpa [ha] using hpre⟩
    obtain ⟨e, ff, -, hr⟩ := C41_stops pre post n w hpre hn
    rw [hr, endWith_ret]
    rfl
  · rw [if_neg hm]
    obtain ⟨ff, hr⟩ := C41_prints_all args w (by
      intro n hn
      cases h : fails w.fs n with
      | false => rfl
      | true => exact absurd (List.any_eq_true.2 ⟨n, hn, h⟩) hm)
    rw [hr, endWith_ret]
    rfl

/-- **C68** `format -w` with distinct arguments exits with 0 iff every argument is a directory or a file that can be
read, parses and can be written; otherwise with 1. -/
theorem C68_format_write (args : List Bytes) (w : World) (hnd : args.Nodup) :
    ((execute none (.format true args) w).1.status = some 0 ↔ ∀ n ∈ args, Rewritable w.fs n) ∧
    ((execute none (.format true args) w).1.status = some 1 ↔ ∃ n ∈ args, ¬ Rewritable w.fs n) := by
  have h0 := formatRun_rewritable args w hnd
  obtain ⟨es, w', h1, -, -⟩ := formatRun_ret true args w
  have hneg : (∃ n ∈ args, ¬ Rewritable w.fs n) ↔ ¬ ∀ n ∈ args, Rewritable w.fs n := by grind
  rw [hneg]
  simp only [execute]
  rw [h1] at h0 ⊢
  rw [endWith_ret, ← h0]
  cases es <;> simp

/-- **C68** `lint` exits with 2 iff some argument does not exist (it crashes), with 0 iff it has nothing to say about any
argument, and otherwise with 1. -/
theorem C68_lint (args : List Bytes) (w : World) :
    ((execute none (.lint false args) w).1.status = some 0 ↔ ∀ n ∈ args, LintClean w.fs n) ∧
    ((execute none (.lint false args) w).1.status = some 2 ↔ ∃ n ∈ args, present w.fs n = false) ∧
    ((execute none (.lint false args) w).1.status = some 1 ↔
      (∀ n ∈ args, present w.fs n = true) ∧ ∃ n ∈ args, ¬ LintClean w.fs n) := by
  simp only [execute]
  by_cases hm : ∃ n ∈ args, present w.fs n = false
  · rw [C40_violated_lint false args w hm]
    obtain ⟨n, hn, hp⟩ := hm
    refine ⟨⟨fun h => (by cases h), fun h => ?_⟩, ⟨fun _ => ⟨n, hn, hp⟩, fun _ => rfl⟩, ⟨fun h => (by cases h), fun h => ?_⟩⟩
    · have h := h n hn
      cases hf : w.fs n with
      | missing e => simp [LintClean, hf] at h
      | dir => simp [present, hf] at hp
      | file a b => simp [present, hf] at hp
    · rw [h.1 n hn] at hp; cases hp
  · have hp : ∀ n ∈ args, present w.fs n = true := by grind
    obtain ⟨es, w', h1, -, h3⟩ := lintLoop_status false args [] w hp
    have h3 := h3 (fun h => nomatch h)
    simp only [CleanIf, Bool.false_eq_true, if_false] at h3
    simp only [lintRun, h1, List.nil_append, endWith_ret, ← h3]
    refine ⟨by cases es <;> simp, ⟨fun h => ?_, fun h => absurd h hm⟩, ?_⟩
    · cases es <;> simp at h
    · have : (∃ n ∈ args, ¬ LintClean w.fs n) ↔ ¬ ∀ n ∈ args, LintClean w.fs n := by grind
      rw [this, ← h3]
      cases es with
      | nil => simp
      | cons e es => exact ⟨fun _ => ⟨hp, by simp⟩, fun _ => rfl⟩

/-- **C68** `lint --auto-fix-id` with distinct arguments: as `lint`, but plugins without an id are fine if their file can
be written. -/
theorem C68_lint_fix (args : List Bytes) (w : World) (hnd : args.Nodup) :
    ((execute none (.lint true args) w).1.status = some 0 ↔ ∀ n ∈ args, FixClean w.fs n) ∧
    ((execute none (.lint true args) w).1.status = some 2 ↔ ∃ n ∈ args, present w.fs n = false) ∧
    ((execute none (.lint true args) w).1.status = some 1 ↔
      (∀ n ∈ args, present w.fs n = true) ∧ ∃ n ∈ args, ¬ FixClean w.fs n) := by
  simp only [execute]
  by_cases hm : ∃ n ∈ args, present w.fs n = false
  · rw [C40_violated_lint true args w hm]
    obtain ⟨n, hn, hp⟩ := hm
    refine ⟨⟨fun h => (by cases h), fun h => ?_⟩, ⟨fun _ => ⟨n, hn, hp⟩, fun _ => rfl⟩, ⟨fun h => (by cases h), fun h => ?_⟩⟩
    · have h := h n hn
      cases hf : w.fs n with
      | missing e => simp [FixClean, hf] at h
      | dir => simp [present, hf] at hp
      | file a b => simp [present, hf] at hp
    · rw [h.1 n hn] at hp; cases hp
  · have hp : ∀ n ∈ args, present w.fs n = true := by grind
    obtain ⟨es, w', h1, -, h3⟩ := lintLoop_status true args [] w hp
    have h3 := h3 (fun _ => hnd)
    simp only [CleanIf, if_true] at h3
    simp only [lintRun, h1, List.nil_append, endWith_ret, ← h3]
    refine ⟨by cases es <;> simp, ⟨fun h => ?_, fun h => absurd h hm⟩, ?_⟩
    · cases es <;> simp at h
    · have : (∃ n ∈ args, ¬ FixClean w.fs n) ↔ ¬ ∀ n ∈ args, FixClean w.fs n := by grind
      rw [this, ← h3]
      cases es with
      | nil => simp
      | cons e es => exact ⟨fun _ => ⟨hp, by simp⟩, fun _ => rfl⟩

/-- **C68** Whatever the command line, the configuration file and the files are, the process ends: with status 0 and
nothing on the standard error, with status 1 and a message on the standard error, or, iff the command is `check` or
`lint` and one of its arguments does not exist, with a crash. -/
theorem C68_ends (conf : Option Bytes) (cl : CommandLine) (w : World) :
    (execute conf cl w).1 = .exited 0 [] ∨
    (∃ text, (execute conf cl w).1 = .exited 1 (b!"error" ++ text)) ∨
    ((execute conf cl w).1 = .panicked ∧ conf = none ∧
      ((∃ args, cl = .check args) ∨ ∃ fix args, cl = .lint fix args) ∧ ∃ n ∈ cl.args, present w.fs n = false) := by
  have key : ∀ f es, endWith f (.ret es) = .exited 0 [] ∨ ∃ text, endWith f (.ret es) = .exited 1 (b!"error" ++ text) := by
    intro f es
    cases es with
    | nil => exact .inl rfl
    | cons e es => exact .inr ⟨b!": " ++ f (e :: es), by simp [endWith, exitCodeError]⟩
  cases conf with
  | some e => exact .inr (.inl ⟨b!" processing config file: " ++ e, by simp [execute, exitCodeError]⟩)
  | none =>
    cases cl with
    | rejected e => exact .inr (.inl ⟨b!": " ++ e, by simp [execute, exitCodeError]⟩)
    | text t => exact .inl rfl
    | format ws args =>
      obtain ⟨es, w', h1, -, -⟩ := formatRun_ret ws args w
      simp only [execute, h1]
      rcases key List.flatten es with h | h
      · exact .inl h
      · exact .inr (.inl h)
    | check args =>
      simp only [execute]
      by_cases hm : ∃ n ∈ args, present w.fs n = false
      · rw [C40_violated_check args w hm]
        exact .inr (.inr ⟨rfl, by trivial, .inl ⟨args, rfl⟩, hm⟩)
      · obtain ⟨es, ff, h1, -⟩ := C39_reports args w (by grind)
        rw [h1]
        rcases key multiErr es with h | h
        · exact .inl h
        · exact .inr (.inl h)
    | lint fix args =>
      simp only [execute]
      by_cases hm : ∃ n ∈ args, present w.fs n = false
      · rw [C40_violated_lint fix args w hm]
        exact .inr (.inr ⟨rfl, by trivial, .inr ⟨fix, args, rfl⟩, hm⟩)
      · obtain ⟨es, w', h1, -, -⟩ := lintLoop_status fix args [] w (by grind)
        simp only [lintRun, h1, List.nil_append]
        rcases key multiErr es with h | h
        · exact .inl h
        · exact .inr (.inl h)

/-- **C68** A configuration file that cannot be read or a command line that is not understood: status 1, and no command
is run. -/
theorem C68_nothing_done (conf : Option Bytes) (cl : CommandLine) (w : World)
    (h : conf.isSome = true ∨ ∃ e, cl = .rejected e) :
    (execute conf cl w).1.status = some 1 ∧ (execute conf cl w).2 = w := by
  cases conf with
  | some e => exact ⟨rfl, rfl⟩
  | none =>
    rcases h with h | ⟨e, rfl⟩
    · cases h
    · exact ⟨rfl, rfl⟩

/-- **C68** `check`, `lint` and `format -w` print nothing on the standard output; `format` prints the configurations of
all its arguments if it exits with 0. -/
theorem C68_stdout (w : World) :
    (∀ args, (execute none (.check args) w).1.status ≠ some 2 → (execute none (.check args) w).2.out = w.out) ∧
    (∀ fix args, (execute none (.lint fix args) w).1.status ≠ some 2 → (execute none (.lint fix args) w).2.out = w.out) ∧
    (∀ args, (execute none (.format true args) w).2.out = w.out) ∧
    (∀ args, (execute none (.format false args) w).1.status = some 0 →
      (execute none (.format false args) w).2.out = w.out ++ args.flatMap (printed w.fs)) := by
  refine ⟨fun args h => ?_, fun fix args h => ?_, fun args => ?_, fun args h => ?_⟩
  · simp only [execute] at h ⊢
    by_cases hm : ∃ n ∈ args, present w.fs n = false
    · rw [C40_violated_check args w hm] at h
      exact absurd rfl h
    · obtain ⟨es, ff, h1, -⟩ := C39_reports args w (by grind)
      rw [h1]
  · simp only [execute] at h ⊢
    by_cases hm : ∃ n ∈ args, present w.fs n = false
    · rw [C40_violated_lint fix args w hm] at h
      exact absurd rfl h
    · obtain ⟨es, w', h1, h2, -⟩ := lintLoop_status fix args [] w (by grind)
      simp only [lintRun, h1, h2]
  · obtain ⟨es, w', h1, -, h2⟩ := formatRun_ret true args w
    simp only [execute, h1, h2 rfl]
  · rw [C68_format] at h
    obtain ⟨ff, hr⟩ := C41_prints_all args w (by
      intro n hn
      cases hf : fails w.fs n with
      | false => rfl
      | true =>
        rw [if_pos (List.any_eq_true.2 ⟨n, hn, hf⟩)] at h
        simp at h)
    simp only [execute, hr]

theorem splitOn_before (c : UInt8) (a s l : Bytes) (ls : List Bytes) (ha : c ∉ a) (h : splitOn c s = l :: ls) :
    splitOn c (a ++ s) = (a ++ l) :: ls := by
  induction a with
  | nil => exact h
  | cons x a ih =>
    simp only [List.mem_cons, not_or] at ha
    simp only [List.cons_append, splitOn]
    rw [if_neg (Ne.symm ha.1), ih ha.2]

/-- How an error list appears on the standard error, line by line: the number of errors, then every message, the first
of its lines behind a bullet, the others indented, and an empty line after each. -/
def errorLines (es : List Bytes) : List Bytes :=
  (b!"error: " ++ errorCount es.length) :: (es.flatMap (fun e => bulleted (messageLines e) ++ [[]]) ++ [[]])

theorem stderr_lines (es : List Bytes) (h : es ≠ []) : splitOn 10 (b!"error: " ++ multiErr es) = errorLines es :=
  splitOn_before 10 _ _ _ _ (by decide) (C47_lines es h)

/-- **C68** When `check` exits with 1, the standard error lists the failing arguments, and only them, in order, each
with its name, its error and the farthest-failure report. -/
theorem C68_check_stderr (args : List Bytes) (w : World)
    (h : (execute none (.check args) w).1.status = some 1) :
    ∃ es stderr, (execute none (.check args) w).1 = .exited 1 stderr ∧ splitOn 10 stderr = errorLines es ∧
      List.Forall₂ (Describes w.fs) (args.filter (fails w.fs)) es := by
  have hp : ∀ n ∈ args, present w.fs n = true := by
    intro n hn
    cases hp : present w.fs n with
    | true => rfl
    | false =>
      rw [C68_check, if_pos (List.any_eq_true.2 ⟨n, hn, by simp [hp]⟩)] at h
      simp at h
  obtain ⟨es, ff, h1, h2⟩ := C39_reports args w hp
  simp only [execute, h1] at h ⊢
  cases es with
  | nil => cases h
  | cons e es => exact ⟨e :: es, _, rfl, stderr_lines _ (by simp), h2⟩

/-- **C68** When `lint` exits with 1, the standard error lists, for every argument in order, its failure, or its
warnings, its plugins without id and its duplicate ids. -/
theorem C68_lint_stderr (args : List Bytes) (w : World)
    (h : (execute none (.lint false args) w).1.status = some 1) :
    ∃ ess stderr, (execute none (.lint false args) w).1 = .exited 1 stderr ∧
      splitOn 10 stderr = errorLines ess.flatten ∧ List.Forall₂ (LintReports false w.fs) args ess := by
  obtain ⟨ess, ff, h1, h2⟩ := C44_reports args w ((C68_lint args w).2.2.1 h).1
  simp only [execute, h1] at h ⊢
  refine ⟨ess, b!"error: " ++ multiErr ess.flatten, ?_, ?_, h2⟩
  · cases he : ess.flatten with
    | nil => rw [he] at h; cases h
    | cons e es => rfl
  · cases he : ess.flatten with
    | nil => rw [he] at h; cases h
    | cons e es => exact stderr_lines _ (by simp)

/-- **C68** When `format` exits with 1, the standard error describes the first failing argument, and the standard
output has the configurations of the arguments before it. -/
theorem C68_format_stderr (args : List Bytes) (w : World)
    (h : (execute none (.format false args) w).1.status = some 1) :
    ∃ pre name post e, args = pre ++ name :: post ∧ (∀ n ∈ pre, fails w.fs n = false) ∧ fails w.fs name = true ∧
      (execute none (.format false args) w).1 = .exited 1 (b!"error: " ++ e) ∧ Describes w.fs name e ∧
      (execute none (.format false args) w).2.out = w.out ++ pre.flatMap (printed w.fs) := by
  rw [C68_format] at h
  have hm : args.any (fails w.fs) = true := by
    cases hm : args.any (fails w.fs) with
    | true => rfl
    | false => rw [hm] at h; simp at h
  clear h
  obtain ⟨n, pre, post, rfl, hn, hpre⟩ : ∃ n pre post, args = pre ++ n :: post ∧ fails w.fs n = true ∧
      ∀ m ∈ pre, fails w.fs m = false := by
    induction args with
    | nil => cases hm
    | cons a args ih =>
      cases ha : fails w.fs a with
      | true => exact ⟨a, [], args, rfl, ha, by simp⟩
      | false =>
        obtain ⟨n, pre, post, rfl, hn, hpre⟩ := ih (by simpa [ha] using hm)
        exact ⟨n, a :: pre, post, rfl, hn, by simpa [ha] using hpre⟩
  obtain ⟨e, ff, hd, hr⟩ := C41_stops pre post n w hpre hn
  refine ⟨pre, n, post, e, rfl, hpre, hn, ?_, hd, ?_⟩
  · simp [execute, hr, endWith, exitCodeError]
  · simp only [execute, hr]

/-- **C68** The commands agree: `format` exits with 0 iff `check` does, and if `lint` does, both do. -/
theorem C68_agree (args : List Bytes) (w : World) :
    ((execute none (.format false args) w).1.status = some 0 ↔ (execute none (.check args) w).1.status = some 0) ∧
    ((execute none (.lint false args) w).1.status = some 0 → (execute none (.check args) w).1.status = some 0) := by
  have hmiss : args.any (fun n => !present w.fs n) = true → args.any (fails w.fs) = true := by
    intro h
    obtain ⟨n, hn, hp⟩ := List.any_eq_true.1 h
    refine List.any_eq_true.2 ⟨n, hn, ?_⟩
    cases hf : w.fs n with
    | missing e => simp [fails, hf]
    | dir => simp [present, hf] at hp
    | file a b => simp [present, hf] at hp
  constructor
  · rw [C68_format, C68_check]
    cases h1 : args.any (fun n => !present w.fs n) <;> cases h2 : args.any (fails w.fs) <;> simp_all
  · intro h
    have h := (C68_lint args w).1.1 h
    have h2 : ¬ args.any (fails w.fs) = true := by
      intro h'
      obtain ⟨n, hn, hf⟩ := List.any_eq_true.1 h'
      have := cleanIf_fails (autoFix := false) (by simpa [CleanIf] using h n hn)
      rw [hf] at this; cases this
    rw [C68_check, if_neg (fun h1 => h2 (hmiss h1)), if_neg h2]

/-- **C68** On paths that can be formatted, also if they are named more than once, `format -w` exits with 0, and
`check` exits with 0 before and afterwards. -/
theorem C68_format_check (args : List Bytes) (w : World) (h : ∀ n ∈ args, Formattable w.fs n) :
    (execute none (.check args) w).1.status = some 0 ∧ (execute none (.format true args) w).1.status = some 0 ∧
    (execute none (.check args) (execute none (.format true args) w).2).1.status = some 0 := by
  have key : ∀ w : World, (∀ n ∈ args, Formattable w.fs n) → (execute none (.check args) w).1.status = some 0 := by
    intro w h
    have h2 : ¬ args.any (fails w.fs) = true := by
      intro h'
      obtain ⟨n, hn, hf⟩ := List.any_eq_true.1 h'
      rw [formattable_fails (h n hn)] at hf; cases hf
    refine (C68_agree args w).1.1 ?_
    rw [C68_format, if_neg h2]
  obtain ⟨w', h1, h2, -⟩ := C66_run args w h
  refine ⟨key w h, by simp only [execute, h1]; rfl, ?_⟩
  simp only [execute, h1]
  refine key w' fun n hn => ?_
  rw [h2]
  exact formattable_reformatted args (h n hn)

/-- Concrete runs: all three commands succeed on a file with ids. -/
example :
    let w : World := ⟨fun n => if n = b!"a" then .file b!"input { aa { id => xx } }" {} else .dir, [], [], []⟩
    (execute none (.check [b!"a", b!"d"]) w).1 = .exited 0 [] ∧
    (execute none (.lint false [b!"a", b!"d"]) w).1 = .exited 0 [] ∧
    (execute none (.format false [b!"a"]) w).2.out = b!"input {\n  aa {\n    id => xx\n  }\n}\n" := by
  decide +kernel

/-- Concrete runs: a plugin without an id, a missing file, an unreadable one. -/
example :
    (execute none (.lint false [b!"good"]) demoWorld).1 =
      .exited 1 b!"error: 1 error occurred:\n\t* good: no IDs found for:\n\t  1:9 [8]: aa\n\n" ∧
    (execute none (.lint true [b!"good"]) demoWorld).1 = .exited 0 [] ∧
    (execute none (.check [b!"good", b!"godo"]) demoWorld).1.status = some 2 ∧
    (execute none (.format false [b!"good", b!"godo"]) demoWorld).1 = .exited 1 b!"error: godo: no such file" ∧
    (execute none (.check [b!"secret", b!"dir"]) demoWorld).1 =
      .exited 1 b!"error: 1 error occurred:\n\t* secret: denied\n\n" ∧
    (execute (some b!"bad") (.check [b!"good"]) demoWorld).1 = .exited 1 b!"error processing config file: bad" := by
  decide +kernel

/-- The hypotheses of the last theorem are met (also with a path named twice). -/
example : ∀ n ∈ [b!"f", b!"d", b!"f"], Formattable sessionFS n := by
  intro n hn
  simp only [List.mem_cons, List.not_mem_nil, or_false] at hn
  rcases hn with rfl | rfl | rfl
  · exact session_sample.2.2
  · exact trivial
  · exact session_sample.2.2

/-- `format -w` and `lint --auto-fix-id` on distinct arguments, one of them not writable. -/
example :
    let w : World := ⟨fun n => if n = b!"a" then .file b!"input { aa { } }" {}
      else .file b!"input { aa { } }" { createErr := some b!"denied" }, [], [], []⟩
    [b!"a", b!"b"].Nodup ∧ (execute none (.format true [b!"a", b!"b"]) w).1.status = some 1 ∧
    (execute none (.lint true [b!"a", b!"b"]) w).1.status = some 1 ∧
    (execute none (.lint true [b!"a"]) w).1.status = some 0 := by
  decide +kernel

end Verif.Props
