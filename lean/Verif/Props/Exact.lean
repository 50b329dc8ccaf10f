import Verif.Props.Located
import Verif.Props.Layout
import Verif.Props.Format
import Verif.Proofs.PrintExc
import Verif.Proofs.CompletePosBlock
import Verif.Proofs.RunPosDet
/-
Properties C04, C15 and C53, for a given file: the configuration `Parse` returns for the text of a
given tree, with all positions and warnings.
-/
namespace Verif.Props
open Verif Spec

/-- The run behind a parse with a nil error. -/
theorem runsP_of_parse {o : Opts} {filename data : Bytes} {ff : List FF} {c : Config} (hvalid : ValidUTF8 data)
    (hc : (parse o filename data ff).1 = .done (.config c) []) :
    ∃ b ws, RunsP { o with maxExpr := none } (pfOf data) G.init data [] (.config c) b ws := by
  have h : (parse o filename data ff).1.errs = [] := by rw [hc]; rfl
  have hn : parse o filename data ff = parse { o with maxExpr := none } filename data ff := by
    rcases C11_limit o filename data ff with h1 | ⟨es, e, h1, _⟩
    · exact h1
    · rw [h1] at h; simp [ParseRes.errs] at h
  rw [hn, parse_finish] at hc
  cases he : evalInit (parseFuel data) { o with maxExpr := none } data ff with
  | timeout => rw [he] at hc; cases hc
  | fail t => rw [he] at hc; simp [finish] at hc
  | panic m t => rw [he] at hc; simp [finish] at hc
  | ok v t =>
    rw [he] at hc
    simp only [finish, ParseRes.done.injEq, dedupe_nil_iff] at hc
    obtain ⟨t', h', rfl⟩ := evalInit_ok he
    have hcl : Clean { o with maxExpr := none } data (initSt { o with maxExpr := none } data ff) :=
      ⟨initSt_errs ff (fine_of_valid (.inr hvalid)), by rw [initSt_rest]; exact fine_of_valid (.inr hvalid),
        PtOk.init _ data ff hvalid⟩
    have hg := eval_rp (o := { o with maxExpr := none }) (data := data) rfl _ _ _ _ _ (gram_warnOk .init) hcl h' hc.2
    have hg1 := hg.1
    rw [initSt_rest, initSt_warns, hc.1] at hg1
    exact ⟨_, _, _, hg1⟩

/-- **C15, C04** The configuration `Parse` returns for the text of a given tree, in full. -/
theorem C15_exact (o : Opts) (filename : Bytes) (ff : List FF) (k : CFile) (hm : o.maxExpr = none)
    (hv : ValidUTF8 k.text) (hk : k.Ok) (hc : k.Clear) :
    (parse o filename k.text ff).1 = .done (.config (k.astAt o.ignoreComments o.excWarn (posAt k.text))) [] := by
  obtain ⟨c, h1, -⟩ := C15_accepts o filename ff k hm (.inr hv) hk hc
  obtain ⟨b, ws, h2⟩ := runsP_of_parse hv h1
  obtain ⟨ws', h3⟩ := initQ (o := { o with maxExpr := none }) (posFn_pfOf k.text) hk hc (Nat.zero_add _)
  have := (h2.det h3).1
  rw [h1, this]

/-- **C04** Every accepted file is the text of a well-formed tree none of whose plugins can be taken
for a branch, and any such tree tells the configuration in full. -/
theorem C04_tree (o : Opts) (filename data : Bytes) (ff : List FF)
    (hv : o.allowInvalid = false ∨ ValidUTF8 data)
    (h : (parse o filename data ff).1.errs = []) :
    (∃ k : CFile, k.Ok ∧ k.Clear ∧ k.text = data) ∧
    ∀ k : CFile, k.Ok → k.Clear → k.text = data →
      (parse o filename data ff).1 = .done (.config (k.astAt o.ignoreComments o.excWarn (posAt data))) [] := by
  have hvalid : ValidUTF8 data := by
    rcases hv with hv | hv
    · exact C03_valid o filename data ff hv h
    · exact hv
  refine ⟨?_, ?_⟩
  · obtain ⟨k, _, h1, h2, h3, _⟩ := C02_tree o filename data ff h
    exact ⟨k, h1, h2, h3⟩
  · rintro k h1 h2 rfl
    have hn : parse o filename k.text ff = parse { o with maxExpr := none } filename k.text ff := by
      rcases C11_limit o filename k.text ff with h1 | ⟨es, e, h1, _⟩
      · exact h1
      · rw [h1] at h; simp [ParseRes.errs] at h
    rw [hn]
    exact C15_exact { o with maxExpr := none } filename ff k rfl hvalid h1 h2

/-- **C56** The grammar is unambiguous: two trees for the same file denote the same configuration,
with the same positions, comments and warnings. -/
theorem C56_unambiguous (k k' : CFile) (hv : ValidUTF8 k.text) (h : k.Ok) (hc : k.Clear) (h' : k'.Ok) (hc' : k'.Clear)
    (ht : k.text = k'.text) (ign w : Bool) : k.astAt ign w (posAt k.text) = k'.astAt ign w (posAt k.text) := by
  have h1 := C15_exact { ignoreComments := ign, excWarn := w } [] [] k rfl hv h hc
  have h2 := C15_exact { ignoreComments := ign, excWarn := w } [] [] k' rfl (ht ▸ hv) h' hc'
  rw [← ht, h1] at h2
  injection h2 with h2
  injection h2

/-- **C53** The warnings `Parse` returns for the text of a given tree. -/
theorem C53_given (o : Opts) (filename : Bytes) (ff : List FF) (k : CFile) (c : Config) (hm : o.maxExpr = none)
    (hv : ValidUTF8 k.text) (hk : k.Ok) (hc : k.Clear)
    (h : (parse o filename k.text ff).1 = .done (.config c) []) :
    c.warnings = warningsOf o.excWarn (posAt k.text) k.exc := by
  rw [C15_exact o filename ff k hm hv hk hc] at h
  injection h with h
  injection h with h
  rw [← h]; rfl

/-- **C53** Formatted text has no comments in exceptional places: parsing it gives no warnings, with or
without the option. -/
theorem C53_formatted (o : Opts) (filename : Bytes) (ff : List FF) (c : Config) (hm : o.maxExpr = none)
    (hv : ValidUTF8 c.str) (hc : Printable c) :
    ∃ c', (parse o filename c.str ff).1 = .done (.config c') [] ∧ skeleton c' = skeleton (deref c) ∧ c'.warnings = [] := by
  obtain ⟨c', h1, h2⟩ := C16_configuration o filename ff c hm (.inr hv) hc
  refine ⟨c', h1, h2, ?_⟩
  obtain ⟨h3, h4, h5, -⟩ := fileC_ok hc
  rw [← h3] at hv h1
  rw [C53_given o filename ff (fileC c) c' hm hv h4 h5 h1]
  exact quiet_warnings _ _ (fileC_quiet c)

end Verif.Props
