import Verif.Props.Format
import Verif.Props.Exact
import Verif.Proofs.FixIDs
/-
C46: what `lint --auto-fix-id` writes parses, and what `lint` says about it.  (The violations are in
`Verif.Props.App`.)
-/
namespace Verif.Props
open Verif Verif.Spec

/-- The configuration with the ids added is printable, and printed as valid UTF-8. -/
theorem fixIDs_printable (content : Bytes) (c : Config) (h : configOf content = some c) (hc : Printable c)
    (hq : ∀ p ∈ withoutID (plugins c), QuotesEscaped 34 p.name) : Printable (fixIDs c) ∧ ValidUTF8 (fixIDs c).str := by
  have hfix : ∀ p ∈ plugins c, FixOk p := by
    intro p hp hn
    exact hq p (by simp [withoutID, hp, hn])
  have hP : Printable (fixIDs c) := fixIDs_ok hfix hc
  refine ⟨hP, ?_⟩
  have hparse := configOf_parse h [] []
  have hv := C03_valid {} [] content [] rfl (by rw [hparse]; rfl)
  obtain ⟨k, c0, h1, h2, h3, h4⟩ := C02_sentence {} [] content [] (by rw [hparse]; rfl)
  rw [hparse] at h3
  injection h3 with h3
  injection h3 with h3
  subst h3
  rw [← h2] at hv
  have ht := file_tx false h1 hv
  rw [← h4] at ht
  exact config_valid hP (fixIDs_tx ((configTx_content c).1 ht))

/-- **C46** If the configuration of a file is printable and every double quote in the name of a plugin
without id is escaped, the text `lint --auto-fix-id` writes parses, and the result is, up to positions
and comments, the configuration with the ids added (`fixIDs`). -/
theorem C46_parses (content : Bytes) (c : Config) (h : configOf content = some c) (hc : Printable c)
    (hq : ∀ p ∈ withoutID (plugins c), QuotesEscaped 34 p.name) :
    ∃ c', configOf (fixIDs c).str = some c' ∧ skeleton c' = skeleton (deref (fixIDs c)) := by
  obtain ⟨hP, hvalid⟩ := fixIDs_printable content c h hc hq
  obtain ⟨c', h5, h6⟩ := C16_configuration {} [] [] (fixIDs c) rfl (.inr hvalid) hP
  exact ⟨c', by unfold configOf; rw [h5], h6⟩

private theorem repeated_nil : ∀ (ps E : List Plugin), (ps.map idOf).Nodup → (∀ p ∈ ps, ∀ q ∈ E, idOf q ≠ idOf p) →
    repeatedID E ps = []
  | [], _, _, _ => rfl
  | p :: ps, E, hn, hE => by
    rw [List.map_cons, List.nodup_cons] at hn
    have h1 : ¬ ∃ q ∈ E, idOf q = idOf p := fun ⟨q, hq, he⟩ => hE p (by simp) q hq he
    rw [repeatedID, repeated_nil ps (E ++ [p]) hn.2]
    · simp [h1]
    · intro r hr q hq
      rcases List.mem_append.1 hq with hq | hq
      · exact hE r (List.mem_cons_of_mem _ hr) q hq
      · obtain rfl := List.mem_singleton.1 hq
        exact fun he => hn.1 (by rw [he]; exact List.mem_map_of_mem hr)

/-- **C46** If, in addition, no plugin has an attribute `id` that is not a string, the existing ids are
distinct and none of them has the form of a made-up one, then `lint` has nothing to report about the
file written by `lint --auto-fix-id`: neither ids nor comments in exceptional places. -/
theorem C46_clean (content : Bytes) (c : Config) (h : configOf content = some c) (hc : Printable c)
    (hq : ∀ p ∈ withoutID (plugins c), QuotesEscaped 34 p.name)
    (hs : ∀ p ∈ plugins c, ∀ m, p.id ≠ .notString m)
    (hex : ∀ p ∈ plugins c, ∀ q ∈ plugins c, ∀ k, idOf p ≠ some (madeUpID k q))
    (hdist : ((plugins c).filterMap idOf).Nodup)
    (name : Bytes) (acc : Access) (w : World) (hf : w.fs name = .file (fixIDs c).str acc) (ho : acc.openErr = none) :
    (lintRun false [name] w).1 = .ret [] := by
  obtain ⟨c', h1, h2⟩ := C46_parses content c h hc hq
  have hv : valid (fixIDs c).str = true := valid_configOf.2 ⟨c', h1⟩
  have hfail : fails w.fs name = false := by rw [fails_file hf]; simp [ho, hv]
  obtain ⟨ess, ff, h3, h4⟩ := C44_reports [name] w (by simp [present, hf])
  rw [h3]
  obtain ⟨es, rest, hr, hn, rfl⟩ := List.forall₂_cons_left_iff.1 h4
  cases hn
  simp only [LintReports, hf, hfail, Bool.false_eq_true, if_false] at hr
  obtain ⟨d, hd, rfl⟩ := hr
  have hdc : configOf (fixIDs c).str = some { d with warnings := [] } := by
    unfold lintConfigOf at hd
    split at hd
    · rename_i heq
      rw [Option.some.injEq] at hd
      rw [← hd]
      exact lint_config heq
    · cases hd
  have heq : { d with warnings := [] } = c' := by rw [h1] at hdc; injection hdc with hdc; exact hdc.symm
  have hsk : skeleton d = skeleton (deref (fixIDs c)) := by rw [← h2, ← heq]; rfl
  have hids : (plugins d).map idOf = (plugins (fixIDs c)).map idOf := by
    rw [← ids_skeleton, hsk, ids_skeleton, plugins_deref]
  have hall : ∀ p ∈ plugins d, ∃ i, idOf p = some i := by
    intro p hp
    have h5 : idOf p ∈ (plugins (fixIDs c)).map idOf := by rw [← hids]; exact List.mem_map_of_mem hp
    obtain ⟨q, hq1, hq2⟩ := List.mem_map.1 h5
    have h6 := C45_all_have_ids c hs
    simp only [withoutID, List.filter_eq_nil_iff, Option.isNone_iff_eq_none] at h6
    have h7 := h6 q hq1
    rw [hq2] at h7
    exact Option.ne_none_iff_exists'.1 h7
  have hnd : ((plugins d).map idOf).Nodup := by rw [hids]; exact C45_no_duplicates c hs hex hdist
  have hw : d.warnings = [] := by
    obtain ⟨hP, hvalid⟩ := fixIDs_printable content c h hc hq
    obtain ⟨c2, h10, -, h11⟩ := C53_formatted { excWarn := true } [] [] (fixIDs c) rfl hvalid hP
    unfold lintConfigOf at hd
    rw [h10] at hd
    simp only [Option.some.injEq] at hd
    rw [← hd, h11]
  have h8 : withoutID (plugins d) = [] := by
    simp only [withoutID, List.filter_eq_nil_iff, Option.isNone_iff_eq_none]
    intro p hp hn
    obtain ⟨i, hi⟩ := hall p hp
    rw [hn] at hi; cases hi
  have h9 : repeatedID [] (plugins d) = [] := repeated_nil (plugins d) [] hnd (by simp)
  simp [listing, h8, h9, hw]

/-- **C46** Both together, on the file system: `lint --auto-fix-id` on such a file, followed by `lint`. -/
theorem C46_run (content : Bytes) (c : Config) (h : configOf content = some c) (hc : Printable c)
    (hq : ∀ p ∈ withoutID (plugins c), QuotesEscaped 34 p.name)
    (hs : ∀ p ∈ plugins c, ∀ m, p.id ≠ .notString m)
    (hex : ∀ p ∈ plugins c, ∀ q ∈ plugins c, ∀ k, idOf p ≠ some (madeUpID k q))
    (hdist : ((plugins c).filterMap idOf).Nodup) (hne : withoutID (plugins c) ≠ [])
    (name : Bytes) (acc : Access) (w : World) (hf : w.fs name = .file content acc) (ho : acc.openErr = none)
    (hw : acc.createErr = none ∧ acc.writeErr = none) :
    (lintRun true [name] w).2.fs name = .file (fixIDs c).str acc ∧
    (lintRun false [name] (lintRun true [name] w).2).1 = .ret [] := by
  have hv : valid content = true := valid_configOf.2 ⟨c, h⟩
  have hfail : fails w.fs name = false := by rw [fails_file hf]; simp [ho, hv]
  obtain ⟨d, es, ff, h1, -, h3⟩ := lint_fine hf hfail true [] []
  have hdc : { d with warnings := [] } = c := by rw [h] at h1; injection h1 with h1; exact h1.symm
  have hp : plugins d = plugins c := by rw [← hdc]; rfl
  have hfx : (fixIDs d).str = (fixIDs c).str := by rw [← hdc]; rfl
  have hfs : (lintRun true [name] w).2.fs name = .file (fixIDs c).str acc := by
    unfold lintRun
    rw [h3, hp, hfx]
    have : (true && !(withoutID (plugins c)).isEmpty) = true := by
      cases hx : withoutID (plugins c) with
      | nil => exact absurd hx hne
      | cons a l => rfl
    rw [this, if_pos rfl, rewrite_ok hw]
    simp only [lintLoop, World.effect]
    rw [run_twice hf]
    simp
  exact ⟨hfs, C46_clean content c h hc hq hs hex hdist name acc _ hfs ho⟩

/-- **C46** Violated: the name of a plugin can smuggle further attributes into the configuration.  The
plugin `'a" type => "b'` gets an id and an attribute `type`. -/
theorem C46_violated_injection : ∃ content c c', configOf content = some c ∧ configOf (fixIDs c).str = some c' ∧
    (plugins c).map (fun p => p.attrs.map (·.name)) = [[]] ∧
    (plugins (fixIDs c)).map (fun p => p.attrs.map (·.name)) = [[b!"id"]] ∧
    (plugins c').map (fun p => p.attrs.map (·.name)) = [[b!"id", b!"type"]] := by
  obtain ⟨c, h, hp⟩ := config_witness (content := b!"input { 'a\" type => \"b' { } }")
    (fun c => (plugins c).map (fun p => p.attrs.map (·.name)) = [[]] ∧
      (plugins (fixIDs c)).map (fun p => p.attrs.map (·.name)) = [[b!"id"]] ∧
      (configOf (fixIDs c).str).any (fun c' => (plugins c').map (fun p => p.attrs.map (·.name)) = [[b!"id", b!"type"]]))
    (by decide +kernel)
  simp only [decide_eq_true_eq] at hp
  obtain ⟨c', h', hp'⟩ := config_witness _ hp.2.2
  exact ⟨_, c, c', h, h', hp.1, hp.2.1, by simpa using hp'⟩

/-- The comment in front of the brace is reported by `lint`, and gone after `lint --auto-fix-id`. -/
example :
    let w : World := ⟨fun _ => .file b!"input # c\n{ aa { } }" {}, [], [], []⟩
    (lintRun false [b!"x"] w).1 =
      .ret [b!"exceptional comment at 1:6 [5]", b!"x: no IDs found for:\n2:3 [12]: aa\n"] ∧
    (lintRun false [b!"x"] (lintRun true [b!"x"] w).2).1 = .ret [] := by
  decide +kernel

/-- A concrete run: a file with two plugins without id is rewritten, and `lint` reports nothing
afterwards. -/
example :
    let w : World := ⟨fun _ => .file b!"input { aa { id => one } 'b b' { } } # c\noutput { if [x] { cc { y => 1 } } }" {}, [], [], []⟩
    let w' := (lintRun true [b!"x"] w).2
    (lintRun false [b!"x"] w).1 = .ret [b!"x: no IDs found for:\n1:26 [25]: 'b b'\n2:19 [59]: cc\n"] ∧
    (lintRun true [b!"x"] w).1 = .ret [] ∧ (lintRun false [b!"x"] w').1 = .ret [] ∧
    w'.fs b!"x" = .file b!"input {\n  aa {\n    id => one\n  }\n\n  'b b' {\n    id => \"'b b'-2\"\n  }\n}\n# c\noutput {\n  if [x] {\n    cc {\n      y => 1\n      id => \"cc-3\"\n    }\n  }\n}\n" {} := by
  decide +kernel

end Verif.Props
