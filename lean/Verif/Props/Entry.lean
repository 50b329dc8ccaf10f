import Verif.Proofs.Entry
import Verif.Proofs.EntryVal
import Verif.Spec.Fatal
import Verif.Props.Exact
import Verif.Props.Options
import Verif.Props.Treetop
import Verif.Props.Cost
/-
Properties C60–C63: the entry points `ParseReader` and `ParseFile` and the options `Statistics`,
`MaxExpressions`, `Recover` and `Entrypoint`.
-/
namespace Verif.Props
open Verif Spec
open Spec.Treetop

/-! ### Lookup of the entry point -/

theorem known_iff (name : Bytes) : Known name ↔ ∃ r, Rule.ofName name = some r := by
  have hn : entry.map (fun x => encode x.1) = Rule.all.map Rule.name := by decide +kernel
  have h1 : Known name ↔ name ∈ Rule.all.map Rule.name := by
    rw [← hn]
    unfold Known
    simp only [List.mem_map]
    exact ⟨fun ⟨x, h, e⟩ => ⟨x, h, e.symm⟩, fun ⟨x, h, e⟩ => ⟨x, h, e.symm⟩⟩
  rw [h1]
  unfold Rule.ofName
  constructor
  · intro h
    obtain ⟨r, hr, rfl⟩ := List.mem_map.1 h
    cases hf : Rule.all.find? fun x => x.name == r.name with
    | some x => exact ⟨x, rfl⟩
    | none => exact absurd (List.find?_eq_none.1 hf r hr) (by simp)
  · rintro ⟨r, hr⟩
    have h2 := List.find?_some hr
    have h3 := List.mem_of_find?_eq_some hr
    exact List.mem_map.2 ⟨r, h3, by simpa using h2⟩

theorem ofName_name (r : Rule) : Rule.ofName r.name = some r := by cases r <;> decide +kernel

theorem call_known {s : Settings} {r : Rule} (h : Rule.ofName s.entrypoint = some r) (k : Nat) (filename data : Bytes) (ff : List FF) :
    parseCall s k filename data ff = finishCall s.recover filename ff k (Entry.out s.opts r k data ff) := by
  unfold parseCall
  rw [h]
  rfl

theorem call_unknown {s : Settings} (h : ¬ Known s.entrypoint) (k : Nat) (filename data : Bytes) (ff : List FF) :
    parseCall s k filename data ff = (.returned (.done .nil [⟨⟨1, 0, 0⟩, none, b!"invalid entrypoint"⟩]), ff, k) := by
  unfold parseCall
  cases hr : Rule.ofName s.entrypoint with
  | some r => exact absurd ((known_iff _).2 ⟨r, hr⟩) h
  | none => rfl

/-! ### C60 -/

/-- With the default entry point and the default recovery a call is `parse`. -/
theorem C60_parse (s : Settings) (filename data : Bytes) (ff : List FF) (he : s.entrypoint = b!"init") (hr : s.recover = true) :
    (parseCall s 0 filename data ff).1 = .returned (parse s.opts filename data ff).1 ∧
      (parseCall s 0 filename data ff).2.1 = (parse s.opts filename data ff).2 := by
  have h : Rule.ofName s.entrypoint = some .init := by rw [he]; exact ofName_name .init
  rw [call_known h, hr, parse_finish, Entry.out_init]
  have ht := Entry.out_term s.opts .init 0 data ff
  rw [Entry.out_init] at ht
  exact Entry.finishCall_finish filename ff 0 _ ht

/-- **C48** `Parse(filename, data, opts...)` for any list of options that leaves the entry point and `Recover` as they are: it
is the parse with the last value given to each option, and the limit of `MaxExpressions` counts from zero. -/
theorem C48_parse (l : List POpt) (filename data : Bytes) (ff : List FF)
    (he : lastSet setsEntry b!"init" l = b!"init") (hr : lastSet setsRecover true l = true) :
    (parseOpts l filename data ff).1 = .returned (parse
      { ignoreComments := lastSet setsIgnore false l
        excWarn := lastSet setsExc false l
        allowInvalid := lastSet setsInvalid false l
        maxExpr := limitOf (lastSet setsMax 0 l) } filename data ff).1 := by
  obtain ⟨r1, -, -, r2, -⟩ := C48_last_wins_rest l
  have h := (C60_parse (setOptions Settings.default l) filename data ff (r1.trans he) (r2.trans hr)).1
  rw [← C48_last_wins l]
  exact h

-- The hypotheses hold for a list with repeated options and an own key; the limit is in force.
example : let l : List POpt := [.maxExpressions 9, .globalStore b!"k" (.other 7), .ignoreComments true, .maxExpressions 40,
      .ignoreComments false, .entrypoint [], .recover false, .recover true]
    lastSet setsEntry b!"init" l = b!"init" ∧ lastSet setsRecover true l = true ∧ limitOf (lastSet setsMax 0 l) = some 40 ∧
    (parse { maxExpr := some 40 } [] b!"input { stdin { } }" []).1.errs.length = 1 ∧
    (parse {} [] b!"input { stdin { } }" []).1.errs = [] := by
  refine ⟨?_, ?_, ?_, ?_, ?_⟩ <;> decide +kernel

/-- **C60** `ParseReader` is `Parse` of everything the reader delivers, in whatever pieces; if reading fails the
error is that of the reader, with a nil value, and nothing else happens. -/
theorem C60_reader (s : Settings) (cnt : Nat) (filename : Bytes) (r : Reader) (ff : List FF) :
    (∀ data, r.chunks.flatten = data → r.err = none →
      parseReader s cnt filename r ff =
        (.parse (parseCall s cnt filename data ff).1, (parseCall s cnt filename data ff).2)) ∧
    (∀ e, r.err = some e → parseReader s cnt filename r ff = (.ioErr .nil e, ff, cnt)) := by
  refine ⟨?_, ?_⟩
  · rintro data rfl h
    unfold parseReader Reader.readAll
    rw [h]
  · intro e h
    unfold parseReader Reader.readAll
    rw [h]

/-- Two ways to deliver the same bytes. -/
example : (⟨[b!"filter", b!" {", b!"}"], none⟩ : Reader).chunks.flatten = b!"filter {}" ∧
    (⟨[b!"filter {}"], none⟩ : Reader).chunks.flatten = b!"filter {}" := by decide

/-- **C60** `ParseFile`: an error of `Open` is returned and nothing is read.  Otherwise the contents are parsed (or the
error of reading is met) as by `ParseReader`; if the file can be closed that is the result.  If it cannot, the error of
`Close` takes the place of the error, if any, and the value stays; a panic is not affected. -/
theorem C60_file (s : Settings) (cnt : Nat) (filename : Bytes) (f : OsFile) (ff : List FF) :
    (∀ e, f.openErr = some e → parseFileCall s cnt filename f ff = (.ioErr .nil e, ff, cnt)) ∧
    (f.openErr = none → f.closeErr = none → parseFileCall s cnt filename f ff = parseReader s cnt filename f.reader ff) ∧
    (∀ e, f.openErr = none → f.closeErr = some e →
      (∀ v es, (parseReader s cnt filename f.reader ff).1 = .parse (.returned (.done v es)) →
        parseFileCall s cnt filename f ff = (.ioErr v e, (parseReader s cnt filename f.reader ff).2)) ∧
      (∀ e', f.reader.err = some e' → parseFileCall s cnt filename f ff = (.ioErr .nil e, ff, cnt)) ∧
      (∀ m, (parseReader s cnt filename f.reader ff).1 = .parse (.panicked m) →
        parseFileCall s cnt filename f ff = parseReader s cnt filename f.reader ff)) := by
  refine ⟨fun e h => ?_, fun h1 h2 => ?_, fun e h1 h2 => ⟨fun v es h => ?_, fun e' h => ?_, fun m h => ?_⟩⟩
  · unfold parseFileCall; rw [h]
  · unfold parseFileCall
    rw [h1, h2]
    simp only
    have : ∀ x, closeFile none x = x := by
      intro x
      cases x with
      | parse r => cases r <;> rfl
      | ioErr v e => rfl
    rw [this]
  · unfold parseFileCall
    rw [h1, h2]
    simp only
    rw [h]
    rfl
  · unfold parseFileCall
    rw [h1, h2, (C60_reader s cnt filename f.reader ff).2 e' h]
    rfl
  · unfold parseFileCall
    rw [h1, h2]
    simp only
    rw [h]
    exact Prod.ext h.symm rfl

/-- A file that can be read in part only, and then not be closed. -/
example : parseFileCall Settings.default 0 b!"f" ⟨none, ⟨[b!"fil"], some b!"read f: input/output error"⟩, some b!"close f: bad file"⟩ [] =
    (.ioErr .nil b!"close f: bad file", [], 0) := rfl

/-- **C60** So the whole: `ParseFile` on a readable file is `Parse` on its contents. -/
theorem C60_contents (s : Settings) (filename : Bytes) (chunks : List Bytes) (ff : List FF) (he : s.entrypoint = b!"init")
    (hr : s.recover = true) :
    ∃ n, parseFileCall s 0 filename ⟨none, ⟨chunks, none⟩, none⟩ ff =
      (.parse (.returned (parse s.opts filename chunks.flatten ff).1), (parse s.opts filename chunks.flatten ff).2, n) := by
  obtain ⟨h1, h2⟩ := C60_parse s filename chunks.flatten ff he hr
  refine ⟨(parseCall s 0 filename chunks.flatten ff).2.2, ?_⟩
  rw [(C60_file s 0 filename _ ff).2.1 rfl rfl, (C60_reader s 0 filename _ ff).1 _ rfl rfl]
  simp only
  rw [h1, ← h2]

example : (Settings.default).entrypoint = b!"init" ∧ (Settings.default).recover = true := ⟨rfl, rfl⟩

/-- **C60** Violated: the error says what was wrong with the file.  If closing fails the parse error is lost. -/
theorem C60_violated : ∃ (data : Bytes) (es : List PErr), (parse {} b!"f" data []).1 = .done .nil es ∧ es ≠ [] ∧
    (parseFileCall Settings.default 0 b!"f" ⟨none, ⟨[data], none⟩, some b!"close f: input/output error"⟩ []).1 =
      .ioErr .nil b!"close f: input/output error" := by
  refine ⟨b!"filter {", (parse {} b!"f" b!"filter {" []).1.errs, ?_, ?_, ?_⟩
  · have hv : (parse {} b!"f" b!"filter {" []).1.value.kind = .nil ∧
        (parse {} b!"f" b!"filter {" []).1.errs.length ≠ 0 := by decide +kernel
    obtain ⟨v, es, h, ⟨c, rfl, -⟩ | ⟨rfl, -⟩⟩ := C13_shape {} b!"f" b!"filter {" []
    · rw [h] at hv; cases hv.1
    · rw [h]; rfl
  · have : (parse {} b!"f" b!"filter {" []).1.errs.length ≠ 0 := by decide +kernel
    intro h; rw [h] at this; exact this rfl
  · have h1 := (C60_parse Settings.default b!"f" b!"filter {" [] rfl rfl).1
    have hv : (parse {} b!"f" b!"filter {" []).1.value.kind = .nil := by decide +kernel
    unfold parseFileCall
    simp only
    rw [(C60_reader Settings.default 0 b!"f" _ []).1 b!"filter {" (by simp) rfl]
    simp only
    rw [h1]
    have h2 : (Settings.default).opts = {} := rfl
    rw [h2]
    obtain ⟨v, es, h, ⟨c, rfl, -⟩ | ⟨rfl, -⟩⟩ := C13_shape {} b!"f" b!"filter {" []
    · rw [h] at hv; cases hv
    · rw [h]; rfl

/-! ### C61 -/

theorem limit_zero (s : Settings) : ({ s with maxExprCnt := 0 } : Settings).opts = { s.opts with maxExpr := none } := rfl

theorem limit_some {s : Settings} (h : s.maxExprCnt ≠ 0) : s.opts = { s.opts with maxExpr := some s.maxExprCnt.toNat } := by
  unfold Settings.opts limitOf
  rw [if_neg h]

theorem limit_none {s : Settings} (h : s.maxExprCnt = 0) : s.opts = { s.opts with maxExpr := none } := by
  unfold Settings.opts limitOf
  rw [if_pos h]

theorem over_count {rc : Bool} {filename : Bytes} {ff : List FF} {c : Nat} {r : Out} (h : r ≠ .timeout) (m : Nat) :
    r.over m ↔ m < (finishCall rc filename ff c r).2.2 := by
  cases r with
  | timeout => exact absurd rfl h
  | _ => exact Iff.rfl

/-- **C61** Without a limit the result does not depend on the `Stats` in use, and every call adds its number of
expressions to `ExprCnt`. -/
theorem C61_count (s : Settings) (k : Nat) (filename data : Bytes) (ff : List FF) (hm : s.maxExprCnt = 0) :
    parseCall s k filename data ff = ((parseCall s 0 filename data ff).1, (parseCall s 0 filename data ff).2.1,
      (parseCall s 0 filename data ff).2.2 + k) := by
  by_cases hk : Known s.entrypoint
  · obtain ⟨r, hr⟩ := (known_iff _).1 hk
    rw [call_known hr, call_known hr, limit_none hm]
    have h := Entry.out_shift s.opts none r k data ff
    simp only [Option.map_none] at h
    rw [h]
    exact Entry.shift_finish k _ _ _ _ _ _ _ (Entry.out_term _ _ _ _ _)
  · rw [call_unknown hk, call_unknown hk]
    simp

/-- **C61** The number of expressions is at most linear in the length of the input. -/
theorem C61_linear (s : Settings) (filename data : Bytes) (ff : List FF) (hm : s.maxExprCnt = 0) (he : s.entrypoint = b!"init") :
    (parseCall s 0 filename data ff).2.2 ≤ 270000 * (data.length + 1) := by
  have h : Rule.ofName s.entrypoint = some .init := by rw [he]; exact ofName_name .init
  obtain ⟨n, h1, h2⟩ := C54_count s.opts data ff
  rw [call_known h, limit_none hm, Entry.out_init]
  unfold exprCnt at h1
  cases hr : evalInit (parseFuel data) { s.opts with maxExpr := none } data ff with
  | timeout => rw [hr] at h1; cases h1
  | _ =>
    rw [hr] at h1
    simp only [Option.some.injEq] at h1
    subst h1
    exact h2

/-- **C61** A limit that leaves room for the expressions of this call, on top of those counted before, changes nothing. -/
theorem C61_enough (s : Settings) (k : Nat) (filename data : Bytes) (ff : List FF)
    (h : k + (parseCall { s with maxExprCnt := 0 } 0 filename data ff).2.2 ≤ s.maxExprCnt.toNat) :
    parseCall s k filename data ff = parseCall { s with maxExprCnt := 0 } k filename data ff := by
  by_cases hm : s.maxExprCnt = 0
  · have : ({ s with maxExprCnt := 0 } : Settings) = s := by cases s; simp_all
    rw [this]
  by_cases hk : Known s.entrypoint
  · obtain ⟨r, hr⟩ := (known_iff _).1 hk
    have hr0 : Rule.ofName ({ s with maxExprCnt := 0 } : Settings).entrypoint = some r := hr
    rw [call_known hr0, limit_zero] at h
    rw [call_known hr, call_known hr0, limit_zero, limit_some hm]
    have h1 := Entry.out_shift s.opts (some s.maxExprCnt.toNat) r k data ff
    have h2 := Entry.out_shift s.opts none r k data ff
    simp only [Option.map_some, Option.map_none] at h1 h2
    rw [h1, h2, Entry.out_cap s.opts r 0 data ff _ ?_]
    rw [over_count (Entry.out_term _ _ _ _ _) (rc := s.recover) (filename := filename) (ff := ff) (c := 0)]
    simp only at h
    omega
  · rw [call_unknown hk, call_unknown (s := { s with maxExprCnt := 0 }) hk]

/-- **C61** A limit that does not: the call ends with the error of the limit, or with a panic with its message if there is no
recovery, and the counter stops one behind the limit (or behind the value it had). -/
theorem C61_short (s : Settings) (k : Nat) (filename data : Bytes) (ff : List FF) (hm : s.maxExprCnt ≠ 0) (hk : Known s.entrypoint)
    (h : s.maxExprCnt.toNat < k + (parseCall { s with maxExprCnt := 0 } 0 filename data ff).2.2) :
    (parseCall s k filename data ff).2.2 = max k s.maxExprCnt.toNat + 1 ∧
    (s.recover = true → ∃ es e, (parseCall s k filename data ff).1 = .returned (.done .nil (es ++ [e])) ∧
      e.msg = b!"max number of expresssions parsed") ∧
    (s.recover = false → (parseCall s k filename data ff).1 = .panicked b!"max number of expresssions parsed") := by
  obtain ⟨r, hr⟩ := (known_iff _).1 hk
  have hr0 : Rule.ofName ({ s with maxExprCnt := 0 } : Settings).entrypoint = some r := hr
  rw [call_known hr0, limit_zero] at h
  rw [call_known hr]
  obtain ⟨t, h1, h2⟩ := Entry.out_stop s.opts r data ff (s.maxExprCnt.toNat - k) (by
    rw [over_count (Entry.out_term _ _ _ _ _) (rc := s.recover) (filename := filename) (ff := ff) (c := 0)]
    have hp := Entry.out_pos s.opts r data ff
    rw [over_count (Entry.out_term _ _ _ _ _) (rc := s.recover) (filename := filename) (ff := ff) (c := 0)] at hp
    simp only at h hp ⊢
    omega)
  have h3 := Entry.out_shift s.opts (some s.maxExprCnt.toNat) r k data ff
  simp only [Option.map_some] at h3
  have h4 := Entry.out_reports s.opts r k data ff
  rw [← limit_some hm, h1] at h3
  rw [h3] at h4 ⊢
  refine ⟨?_, fun hrec => ?_, fun hrec => ?_⟩
  · show t.cnt + k = _
    omega
  · rw [hrec]
    simp only [VMap.out, finishCall, if_true] at h4 ⊢
    rw [show ∀ (x : St) (m : Bytes), (x.addErr m).errs = x.errs ++ [⟨x.pt.pos, x.rstack.head?, m⟩] from fun _ _ => rfl]
    rw [Entry.dedupe_keep]
    · exact ⟨_, _, rfl, rfl⟩
    · exact fun x hx => (h4.1 x hx).reports
    · exact h4.2.2.1.reports
    · intro x hx hxe
      have := h4.2.1 x hx
      rw [hxe] at this
      exact absurd this (by show maxExprMsg ∉ errMsgs; decide)
  · rw [hrec]; rfl

/-- The hypotheses of both are met: this file takes more than 100 expressions and less than 20000. -/
example : Known (Settings.default).entrypoint := (known_iff _).2 ⟨.init, ofName_name .init⟩

example : let n := (parseCall Settings.default 0 [] b!"filter { if [a] == 1 { b { c => \"d\" } } }" []).2.2
    100 < 0 + n ∧ 0 + n ≤ 20000 := by decide +kernel

/-- **C61** Violated: whether a file is within the limit depends on the file only.  A `Stats` that has been used for one file
makes the second parse of the same file fail. -/
theorem C61_violated : ∃ (s : Settings) (data : Bytes) (n : Nat) (v : Val), (parseCall s 0 [] data []).1 = .returned (.done v []) ∧
    (parseCall s 0 [] data []).2.2 = n ∧
    ∃ es e, (parseCall s n [] data []).1 = .returned (.done .nil (es ++ [e])) ∧ e.msg = b!"max number of expresssions parsed" := by
  let s : Settings := { Settings.default with maxExprCnt := 500 }
  have hn : (parseCall s 0 [] b!"filter { a { } }" []).2.2 ≤ 500 ∧
      500 < (parseCall s 0 [] b!"filter { a { } }" []).2.2 +
        (parseCall { s with maxExprCnt := 0 } 0 [] b!"filter { a { } }" []).2.2 := by decide +kernel
  have he : (parse s.opts [] b!"filter { a { } }" []).1.errs.length = 0 := by decide +kernel
  obtain ⟨c, hc⟩ := C13_nil_error s.opts [] b!"filter { a { } }" [] (List.length_eq_zero_iff.1 he)
  refine ⟨s, b!"filter { a { } }", _, .config c, ?_, rfl, ?_⟩
  · rw [(C60_parse s [] _ [] rfl rfl).1, hc]
  · exact (C61_short s _ [] b!"filter { a { } }" [] (by decide) ((known_iff _).2 ⟨.init, ofName_name .init⟩) hn.2).2.1 rfl

/-! ### C62 -/

theorem not_fatal {m : Bytes} (h : m ∈ errMsgs) : ¬ Fatal m := by
  unfold Fatal
  revert m
  decide

theorem noMatch_not_fatal (l : List Bytes) : ¬ Fatal (noMatchMsg l) := by
  unfold Fatal noMatchMsg
  rintro (h | h | h)
  · simp at h
  · simp at h
  · simp at h

/-- **C62** With `Recover(false)` a call does the same as with `Recover(true)`, except that it panics with the message of the
last error where `Recover(true)` returns nil and an error list ending in one of the fatal errors; all other errors are
returned either way. -/
theorem C62_recover (s : Settings) (k : Nat) (filename data : Bytes) (ff : List FF) :
    (parseCall { s with recover := false } k filename data ff).2 = (parseCall { s with recover := true } k filename data ff).2 ∧
    ∃ v es, (parseCall { s with recover := true } k filename data ff).1 = .returned (.done v es) ∧
      (((∀ e ∈ es, ¬ Fatal e.msg) ∧ (parseCall { s with recover := false } k filename data ff).1 = .returned (.done v es)) ∨
        ∃ es' e, v = .nil ∧ es = es' ++ [e] ∧ (∀ x ∈ es', ¬ Fatal x.msg) ∧ Fatal e.msg ∧
          (parseCall { s with recover := false } k filename data ff).1 = .panicked e.msg) := by
  by_cases hk : Known s.entrypoint
  · obtain ⟨r, hr⟩ := (known_iff _).1 hk
    have hf : ∀ b, parseCall { s with recover := b } k filename data ff = finishCall b filename ff k (Entry.out s.opts r k data ff) :=
      fun b => call_known (s := { s with recover := b }) hr k filename data ff
    rw [hf, hf]
    have h := Entry.out_reports s.opts r k data ff
    cases ho : Entry.out s.opts r k data ff with
    | timeout => exact absurd ho (Entry.out_term _ _ _ _ _)
    | ok v t =>
      rw [ho] at h
      exact ⟨rfl, v, _, rfl, .inl ⟨fun e he => not_fatal (h.2 e (dedupe_mem he)), rfl⟩⟩
    | fail t =>
      rw [ho] at h
      refine ⟨rfl, .nil, _, rfl, .inl ⟨fun e he => ?_, rfl⟩⟩
      have he := dedupe_mem he
      split at he
      · simp only [St.addErrAt, List.mem_append, List.mem_singleton] at he
        rcases he with he | rfl
        · exact not_fatal (h.2.1 e he)
        · exact noMatch_not_fatal _
      · exact not_fatal (h.2.1 e he)
    | panic m t =>
      rw [ho] at h
      have hm : Fatal m := by
        rcases h.2.2.2 with rfl | rfl | hg
        · exact .inl rfl
        · exact .inr (.inl rfl)
        · refine .inr (.inr ?_)
          unfold getFarthestFailure at hg
          split at hg
          · cases hg
          · injection hg with hg
            rw [← hg, ffHeader]
            simp
      refine ⟨rfl, .nil, dedupe filename [] (t.errs ++ [⟨t.pt.pos, t.rstack.head?, m⟩]), rfl, .inr ?_⟩
      have hn : ∀ x ∈ t.errs, x.msg ≠ m := fun x hx he => not_fatal (h.2.1 x hx) (by rw [he]; exact hm)
      refine ⟨dedupe filename [] t.errs, ⟨t.pt.pos, t.rstack.head?, m⟩, rfl, ?_, fun x hx => not_fatal (h.2.1 x (dedupe_mem hx)), hm, rfl⟩
      exact Entry.dedupe_keep (fun x hx => (h.1 x hx).reports) h.2.2.1.reports hn
  · have hf : ∀ b, parseCall { s with recover := b } k filename data ff = _ :=
      fun b => call_unknown (s := { s with recover := b }) hk k filename data ff
    rw [hf, hf]
    refine ⟨rfl, _, _, rfl, .inl ⟨?_, rfl⟩⟩
    intro e he
    rw [List.mem_singleton] at he
    subst he
    unfold Fatal
    decide

/-- **C62** An input that is accepted is accepted without recovery too, and never panics. -/
theorem C62_accepted (s : Settings) (k : Nat) (filename data : Bytes) (ff : List FF) (v : Val)
    (h : (parseCall { s with recover := true } k filename data ff).1 = .returned (.done v [])) :
    parseCall { s with recover := false } k filename data ff = parseCall { s with recover := true } k filename data ff := by
  obtain ⟨h1, v', es, h2, h3⟩ := C62_recover s k filename data ff
  rw [h2] at h
  injection h with h
  injection h with h4 h5
  subst h4; subst h5
  rcases h3 with ⟨-, h3⟩ | ⟨es', e, -, h3, -⟩
  · exact Prod.ext (by rw [h3, h2]) h1
  · simp at h3

/-- Both cases occur. -/
example : let s : Settings := { Settings.default with recover := false }
    (match (parseCall s 0 [] b!"filter { a {" []).1 with | .panicked m => m.take 21 | .returned _ => []) = b!"Parsing error at pos " ∧
    (match (parseCall s 0 [] b!"filter a" []).1 with | .panicked _ => [] | .returned r => r.errs.map fun e => e.msg.take 14) =
      [b!"no match found"] := by decide +kernel

/-! ### C63 -/

theorem entry_rule {x : List Char × PEx TRule} (h : x ∈ entry) : ∃ r : Rule, encode x.1 = r.name ∧ x.2 = Tt.tr r := by
  have : entry = [(.init : Rule), .config, .pluginSection, .branchOrPlugin, .plugin, .attribute, .value, .array, .hash,
    .hashentries, .hashentry, .branch, .ifCond, .elseIf, .elseCond, .condition, .expression, .negativeExpression, .inExpression,
    .notInExpression, .rvalue, .compareExpression, .regexpExpression].map fun r => (r.name.map (fun b => Char.ofNat b.toNat), Tt.tr r) := rfl
  rw [this, List.mem_map] at h
  obtain ⟨r, -, rfl⟩ := h
  exact ⟨r, by cases r <;> decide +kernel, rfl⟩

/-- A successful call succeeds without limit and with any `Stats`. -/
theorem call_ok {s : Settings} {k : Nat} {filename data : Bytes} {ff : List FF} {v : Val}
    (h : (parseCall s k filename data ff).1 = .returned (.done v [])) :
    (parseCall { s with maxExprCnt := 0 } 0 filename data ff).1 = .returned (.done v []) := by
  by_cases hk : Known s.entrypoint
  · by_cases hm : s.maxExprCnt = 0
    · have : ({ s with maxExprCnt := 0 } : Settings) = s := by cases s; simp_all
      rw [this]
      rw [C61_count s k filename data ff hm] at h
      exact h
    · by_cases hc : k + (parseCall { s with maxExprCnt := 0 } 0 filename data ff).2.2 ≤ s.maxExprCnt.toNat
      · rw [C61_enough s k filename data ff hc, C61_count _ k filename data ff rfl] at h
        exact h
      · exfalso
        obtain ⟨-, h1, h2⟩ := C61_short s k filename data ff hm hk (by omega)
        cases hr : s.recover with
        | true =>
          obtain ⟨es, e, h3, -⟩ := h1 hr
          rw [h3] at h
          injection h with h
          injection h with _ h
          simp at h
        | false => rw [h2 hr] at h; cases h
  · rw [call_unknown hk] at h
    injection h with h
    injection h with _ h
    cases h

/-- What a call with a given entry point does on valid text, without limit. -/
theorem call_runs {s : Settings} {r : Rule} (hr : Rule.ofName s.entrypoint = some r) (hm : s.maxExprCnt = 0) (k : Nat)
    (filename data : Bytes) (ff : List FF) (hv : ValidUTF8 data) (v : Val) :
    (parseCall s k filename data ff).1 = .returned (.done v []) ↔ ∃ b ws, RunsP s.opts (pfOf data) (gram r) data [] v b ws := by
  have ho : s.opts.maxExpr = none := by rw [limit_none hm]
  rw [← Entry.out_runsP (r := r) (k := k) (ff := ff) ho hv, call_known hr]
  constructor
  · exact Entry.finishCall_ok
  · rintro ⟨t, h1, h2⟩
    rw [h1]
    simp only [finishCall, CallRes.returned.injEq, ParseRes.done.injEq, true_and]
    exact (dedupe_nil_iff _ _).2 h2

/-- **C63** An unknown entry point is reported as the only error, nothing is parsed, `farthestFailure` and the statistics stay. -/
theorem C63_unknown (s : Settings) (k : Nat) (filename data : Bytes) (ff : List FF) (h : ¬ Known s.entrypoint) :
    parseCall s k filename data ff = (.returned (.done .nil [⟨⟨1, 0, 0⟩, none, b!"invalid entrypoint"⟩]), ff, k) :=
  call_unknown h k filename data ff

example : ¬ Known b!"Config" := by
  rw [known_iff]
  rintro ⟨r, h⟩
  have : Rule.ofName b!"Config" = none := by decide +kernel
  rw [this] at h; cases h

theorem rule_matches {o : Opts} {r : Rule} {text : List Char} {x : Res} (h : Verif.run o (gram r) (encode text) [] = x) (hn : x ≠ .timeout) :
    Agr x (Matches changed (Tt.tr r) text) := by
  obtain ⟨n, hn'⟩ := reval_of_run o (e := gram r) (b := encode text) (fr := []) (by rw [h]; exact hn)
  rw [← h, ← hn' n (Nat.le_refl _)]
  exact (reval_agr o n (gram r) text [] (gram_small r)).imp fun _ h => Tt.mid_tr r _ _ (Tt.unf_imp 4 _ _ _ (by
    have := Tt.plain_changed h
    rwa [show (gram r).erase = plain r from rfl, Tt.plain_mid] at this))

/-- **C63** A call with an entry point succeeds only if a beginning of the text — not necessarily all of it — matches the
expression the entry point stands for in the grammar of Logstash with the listed changes. -/
theorem C63_prefix (s : Settings) (k : Nat) (filename : Bytes) (text : List Char) (ff : List FF) (v : Val)
    (x : List Char × PEx TRule) (hx : x ∈ entry) (he : s.entrypoint = encode x.1)
    (h : (parseCall s k filename (encode text) ff).1 = .returned (.done v [])) :
    ∃ rest, Matches changed x.2 text (some rest) := by
  obtain ⟨r, hr, hx2⟩ := entry_rule hx
  have h0 := call_ok h
  have hr0 : Rule.ofName ({ s with maxExprCnt := 0 } : Settings).entrypoint = some r := by
    show Rule.ofName s.entrypoint = _
    rw [he, hr]; exact ofName_name r
  obtain ⟨b, ws, f, h1⟩ := (call_runs hr0 rfl 0 filename (encode text) ff ⟨text, rfl⟩ v).1 h0
  have h2 := rule_matches h1.run (by simp)
  obtain ⟨cs, -, h2⟩ := h2
  exact ⟨cs, by rw [hx2]; exact h2⟩

/-- **C63** If a beginning of the text matches, the call does not report "no match found". -/
theorem C63_matches (s : Settings) (k : Nat) (filename : Bytes) (text : List Char) (ff : List FF) (v : Val) (es : List PErr)
    (x : List Char × PEx TRule) (hx : x ∈ entry) (he : s.entrypoint = encode x.1) (hm : s.maxExprCnt = 0) (rest : List Char)
    (hmatch : Matches changed x.2 text (some rest)) (h : (parseCall s k filename (encode text) ff).1 = .returned (.done v es)) :
    ∀ e ∈ es, ¬ b!"no match found" <+: e.msg := by
  obtain ⟨r, hr, hx2⟩ := entry_rule hx
  have hr0 : Rule.ofName s.entrypoint = some r := by rw [he, hr]; exact ofName_name r
  have ho : s.opts.maxExpr = none := by rw [limit_none hm]
  have hf : Fine s.opts (encode text) := fine_of_valid (.inr ⟨text, rfl⟩)
  have h1 := Entry.eval_run r k ff ho hf
  have hrep := Entry.out_reports s.opts r k (encode text) ff
  have known : ∀ m ∈ errMsgs, ¬ b!"no match found" <+: m := by decide
  rw [call_known hr0] at h
  rw [Entry.out_eq] at h hrep
  cases hev : eval s.opts gram (parseFuel (encode text)) (gram r) (Entry.st0 s.opts r k (encode text) ff) with
  | ok w t =>
    rw [hev] at h hrep
    simp only [finishCall, CallRes.returned.injEq, ParseRes.done.injEq] at h
    obtain ⟨-, rfl⟩ := h
    exact fun e he => known _ (hrep.2 e (dedupe_mem he))
  | timeout => rw [hev] at h; cases h
  | panic m t =>
    rw [hev] at h hrep
    cases hrec : s.recover with
    | false => rw [hrec] at h; cases h
    | true =>
      rw [hrec] at h
      simp only [finishCall, if_true, CallRes.returned.injEq, ParseRes.done.injEq] at h
      obtain ⟨-, rfl⟩ := h
      intro e he
      have he := dedupe_mem he
      simp only [St.addErr, St.addErrAt, List.mem_append, List.mem_singleton] at he
      rcases he with he | rfl
      · exact known _ (hrep.2.1 e he)
      · rcases hrep.2.2.2 with rfl | rfl | hg
        · show ¬ _ <+: maxExprMsg; decide
        · show ¬ _ <+: convMsg; decide
        · unfold getFarthestFailure at hg
          split at hg
          · cases hg
          · injection hg with hg
            simp only
            rw [← hg, ffHeader]
            simp
  | fail t =>
    rw [hev] at h hrep h1
    simp only [finishCall, CallRes.returned.injEq, ParseRes.done.injEq] at h
    obtain ⟨-, rfl⟩ := h
    by_cases hte : t.errs = []
    · exfalso
      simp only [proj, if_pos hte] at h1
      have h2 := rule_matches h1.symm (by simp)
      rw [← hx2] at h2
      have := Matches.det hmatch h2
      cases this
    · intro e he
      have he := dedupe_mem he
      rw [if_neg (by simpa using hte)] at he
      exact known _ (hrep.2.1 e he)

/-- **C63** So a text no beginning of which matches is rejected. -/
theorem C63_rejects (s : Settings) (k : Nat) (filename : Bytes) (text : List Char) (ff : List FF) (v : Val)
    (x : List Char × PEx TRule) (hx : x ∈ entry) (he : s.entrypoint = encode x.1) (hn : Matches changed x.2 text none) :
    (parseCall s k filename (encode text) ff).1 ≠ .returned (.done v []) := by
  intro h
  obtain ⟨rest, h1⟩ := C63_prefix s k filename text ff v x hx he h
  cases Matches.det h1 hn

/-- **C63** The entry point "config" returns what `Parse` returns, without the warnings. -/
theorem C63_config (s : Settings) (k : Nat) (filename data : Bytes) (ff : List FF) (c : Config) (he : s.entrypoint = b!"config")
    (hv : ValidUTF8 data) (h : (parseCall s k filename data ff).1 = .returned (.done (.config c) [])) :
    c.warnings = [] ∧ ∃ ws, (parse { s.opts with maxExpr := none } filename data ff).1 = .done (.config { c with warnings := ws }) [] := by
  have h0 := call_ok h
  have hr0 : Rule.ofName ({ s with maxExprCnt := 0 } : Settings).entrypoint = some .config := by
    show Rule.ofName s.entrypoint = _
    rw [he]; exact ofName_name .config
  obtain ⟨b, ws, h1⟩ := (call_runs hr0 rfl 0 filename data ff hv _).1 h0
  obtain ⟨rfl, sc, ss, ft, -, -, h2, -⟩ := config_p (posFn_pfOf data) (Nat.zero_add _) h1
  injection h2 with h2
  refine ⟨by rw [h2], ?_⟩
  obtain ⟨w, ws', h3⟩ := Entry.init_of_config h1
  refine ⟨w, ?_⟩
  obtain ⟨t, h4, h5⟩ := (Entry.out_runsP (r := .init) (k := 0) (ff := ff) rfl hv).2 ⟨_, _, h3⟩
  rw [Entry.out_init, limit_zero] at h4
  rw [parse_finish, h4]
  simp only [finish, ParseRes.done.injEq, true_and]
  exact (dedupe_nil_iff _ _).2 h5

/-- **C63** And it does so for every file with a section. -/
theorem C63_config_complete (s : Settings) (k : Nat) (filename data : Bytes) (ff : List FF) (c : Config) (he : s.entrypoint = b!"config")
    (hm : s.maxExprCnt = 0) (hv : s.allowInvalidUTF8 = false ∨ ValidUTF8 data)
    (h : (parse s.opts filename data ff).1 = .done (.config c) []) (hne : c.input ≠ [] ∨ c.filter ≠ [] ∨ c.output ≠ []) :
    (parseCall s k filename data ff).1 = .returned (.done (.config { c with warnings := [] }) []) := by
  have hvalid : ValidUTF8 data := by
    rcases hv with hv | hv
    · exact C03_valid s.opts filename data ff hv (by rw [h]; rfl)
    · exact hv
  have hr : Rule.ofName s.entrypoint = some .config := by rw [he]; exact ofName_name .config
  obtain ⟨b, ws, h1⟩ := runsP_of_parse hvalid h
  rw [call_runs hr hm k filename data ff hvalid, limit_none hm]
  rcases Entry.config_of_init h1 with ⟨c0, b2, ws', h2, w, rfl⟩ | ⟨h2, h3, h4⟩
  · obtain ⟨-, sc, ss, ft, -, -, h3, -⟩ := config_p (posFn_pfOf data) (Nat.zero_add _) h2
    injection h3 with h3
    have hw : c0.warnings = [] := by rw [h3]
    refine ⟨b2, ws', ?_⟩
    have : ({ c0 with warnings := [] } : Config) = c0 := by rw [← hw]
    simp only
    rw [this]
    exact h2
  · simp [h2, h3, h4] at hne

/-- **C63** What a call with another entry point returns: the value of a piece of text at the beginning of the input, with
the positions of the input. -/
theorem C63_value (s : Settings) (k : Nat) (filename data : Bytes) (ff : List FF) (v : Val) (hv : ValidUTF8 data)
    (hi : s.entrypoint ≠ b!"init") (hc : s.entrypoint ≠ b!"config")
    (h : (parseCall s k filename data ff).1 = .returned (.done v [])) :
    ∃ t rest, data = t ++ rest ∧ Yields false s.opts.ignoreComments (posAt data) s.entrypoint t v := by
  have h0 := call_ok h
  have hk : Known s.entrypoint := by
    false_or_by_contra
    rename_i hk
    rw [call_unknown hk] at h
    simp at h
  obtain ⟨r, hr⟩ := (known_iff _).1 hk
  have hrn : r.name = s.entrypoint := by
    have h2 := List.find?_some hr
    simpa using h2
  have hr0 : Rule.ofName ({ s with maxExprCnt := 0 } : Settings).entrypoint = some r := hr
  obtain ⟨b, ws, h1⟩ := (call_runs hr0 rfl 0 filename data ff hv _).1 h0
  obtain ⟨t, h2, h3⟩ := yields_p (posFn_pfOf data) (fun e => hi (by rw [← hrn, e]; rfl)) (fun e => hc (by rw [← hrn, e]; rfl)) rfl h1
  exact ⟨t, b, h2, by rw [← hrn]; exact h3⟩

/-- **C63** And it returns this value for every such piece, whatever follows a piece that ends in a bracket. -/
theorem C63_value_complete (s : Settings) (k : Nat) (filename t rest : Bytes) (ff : List FF) (v : Val) (hv : ValidUTF8 (t ++ rest))
    (hm : s.maxExprCnt = 0) (hy : Yields true s.opts.ignoreComments (posAt (t ++ rest)) s.entrypoint t v) (hf : Follows s.entrypoint rest) :
    (parseCall s k filename (t ++ rest) ff).1 = .returned (.done v []) := by
  obtain ⟨r, hr, hi, hc⟩ : ∃ r : Rule, r.name = s.entrypoint ∧ r ≠ .init ∧ r ≠ .config := by
    revert hy
    generalize s.entrypoint = nm
    intro hy
    cases hy
    · exact ⟨.pluginSection, rfl, nofun, nofun⟩
    · exact ⟨.branchOrPlugin, rfl, nofun, nofun⟩
    · exact ⟨.branch, rfl, nofun, nofun⟩
    · exact ⟨.plugin, rfl, nofun, nofun⟩
    · exact ⟨.attribute, rfl, nofun, nofun⟩
    · exact ⟨.value, rfl, nofun, nofun⟩
    · exact ⟨.value, rfl, nofun, nofun⟩
    · exact ⟨.array, rfl, nofun, nofun⟩
    · exact ⟨.hash, rfl, nofun, nofun⟩
    · exact ⟨.hashentries, rfl, nofun, nofun⟩
    · exact ⟨.hashentry, rfl, nofun, nofun⟩
    · exact ⟨.ifCond, rfl, nofun, nofun⟩
    · exact ⟨.elseIf, rfl, nofun, nofun⟩
    · exact ⟨.elseCond, rfl, nofun, nofun⟩
    · exact ⟨.condition, rfl, nofun, nofun⟩
    · exact ⟨.expression, rfl, nofun, nofun⟩
    · exact ⟨.negativeExpression, rfl, nofun, nofun⟩
    · exact ⟨.negativeExpression, rfl, nofun, nofun⟩
    · exact ⟨.inExpression, rfl, nofun, nofun⟩
    · exact ⟨.notInExpression, rfl, nofun, nofun⟩
    · exact ⟨.rvalue, rfl, nofun, nofun⟩
    · exact ⟨.compareExpression, rfl, nofun, nofun⟩
    · exact ⟨.regexpExpression, rfl, nofun, nofun⟩
  rw [call_runs (r := r) (by rw [← hr]; exact ofName_name r) hm k filename _ ff hv]
  rw [← hr] at hy hf
  obtain ⟨ws', h⟩ := yields_q (o := s.opts) (ws := []) (posFn_pfOf (t ++ rest)) hi hc rfl hf hy
  exact ⟨rest, ws', h⟩

/-- A comparison that is followed by a block, and an array that anything may follow. -/
example : (∃ v, Yields true false (posAt b!"[a]==5{ }") b!"compareExpression" b!"[a]==5" v) ∧ Follows b!"compareExpression" b!"{ }" ∧
    (∃ v, Yields true false (posAt b!"[5]]] rest") b!"array" b!"[5]" v) ∧ Follows b!"array" b!"]] rest" := by
  have h5 : NumOk b!"5" := ⟨⟨[], b!"5", [], rfl, .inl rfl, by decide, by decide, .inl rfl⟩, by decide +kernel⟩
  refine ⟨⟨_, .cmp (l := .sel [b!"a"]) (g1 := .empty) (op := .eq) (g2 := .empty) (r := .num b!"5")
      ⟨⟨by simp, by decide⟩, gap_empty_ok, nofun, gap_empty_ok, h5⟩⟩, ⟨fun h => absurd h (by decide), fun _ => .inr ⟨_, .inl rfl⟩, fun h => absurd h (by decide)⟩,
    ⟨_, .array (es := [.mk .empty .empty (.num b!"5")]) (ft := .empty) ⟨?_, gap_empty_ok⟩⟩, fun h => absurd h (by decide),
    fun h => absurd h (by decide), fun h => absurd h (by decide)⟩
  exact ⟨gap_empty_ok, gap_empty_ok, h5, (fun h => nomatch h), trivial⟩

/-- A file with a warning, and what the entry points make of it. -/
example : let data := b!"filter { a #x\n { } }"
    let s : Settings := { Settings.default with entrypoint := b!"config", globalStore := storeSet (fun _ => .nil) excKey (.bool true) }
    (match (parse s.opts [] data []).1 with | .done (.config c) es => (c.filter.length, c.warnings.length, es.length) | _ => (0, 0, 0)) = (1, 1, 0) ∧
    (match (parseCall s 0 [] data []).1 with | .returned (.done (.config c) es) => (c.filter.length, c.warnings.length, es.length) | _ => (0, 0, 0)) = (1, 0, 0) := by
  decide +kernel

/-- Only a beginning has to match: the entry point "plugin" takes the plugin and ignores the rest. -/
example : let s : Settings := { Settings.default with entrypoint := b!"plugin" }
    (match (parseCall s 0 [] b!" mutate { } }}} what follows" []).1 with | .returned (.done (.plugin p) es) => (p.name, es.length) | _ => ([], 1)) =
      (b!"mutate", 0) := by decide +kernel

end Verif.Props
