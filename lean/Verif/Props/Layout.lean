import Verif.Props.Language
import Verif.Proofs.CompleteBlock
import Verif.Proofs.Strip
import Verif.Proofs.AMapComp
/-
C15: layout is irrelevant.
-/
namespace Verif.Props
open Verif Verif.Spec

/-- **C15** `Parse` accepts every sentence of the language, and returns the configuration the sentence
denotes: every well-formed tree none of whose plugins looks like a branch. -/
theorem C15_accepts (o : Opts) (filename : Bytes) (ff : List FF) (k : CFile) (hm : o.maxExpr = none)
    (hv : o.allowInvalid = true ∨ ValidUTF8 k.text) (hk : k.Ok) (hc : k.Clear) :
    ∃ c, (parse o filename k.text ff).1 = .done (.config c) [] ∧ content c = k.ast o.ignoreComments := by
  obtain ⟨fr, hr⟩ := init_complete (o := o) hk hc
  obtain ⟨v, h1, h2⟩ := (parse_run filename ff hm (fine_of_valid hv)).2 _ _ _ hr
  obtain ⟨c, h3⟩ := C13_nil_error o filename k.text ff (by rw [h1]; rfl)
  rw [h1] at h3
  injection h3 with h3
  subst h3
  refine ⟨c, h1, ?_⟩
  simp only [er, valMap] at h2
  injection h2

/-- **C15** Changing the layout of a file (the whitespace and the comments between its tokens) does
not change the configuration, up to source positions and comments. -/
theorem C15_layout (o : Opts) (f f' : Bytes) (ff ff' : List FF) (k k' : CFile) (hm : o.maxExpr = none)
    (hv : o.allowInvalid = true ∨ (ValidUTF8 k.text ∧ ValidUTF8 k'.text)) (hk : k.Ok) (hk' : k'.Ok)
    (hc : k.Clear) (hs : k.strip = k'.strip) :
    ∃ c c', (parse o f k.text ff).1 = .done (.config c) [] ∧ (parse o f' k'.text ff').1 = .done (.config c') [] ∧
      skeleton c = skeleton c' := by
  have hc' : k'.Clear := by rw [← file_clear, ← hs, file_clear]; exact hc
  obtain ⟨c, h1, h2⟩ := C15_accepts o f ff k hm (hv.imp_right And.left) hk hc
  obtain ⟨c', h1', h2'⟩ := C15_accepts o f' ff' k' hm (hv.imp_right And.right) hk' hc'
  refine ⟨c, c', h1, h1', ?_⟩
  rw [← skeleton_content c, h2, ← skeleton_content c', h2', file_skel, file_skel, ← file_strip k, hs, file_strip]

/-- **C15** The same for every accepted file: it is the text of a tree, and every other layout of
this tree is accepted and denotes the same configuration. -/
theorem C15_relayout (o : Opts) (f : Bytes) (ff : List FF) (data : Bytes) (hm : o.maxExpr = none)
    (h : (parse o f data ff).1.errs = []) :
    ∃ (k : CFile) (c : Config), k.Ok ∧ k.text = data ∧ (parse o f data ff).1 = .done (.config c) [] ∧
      ∀ (k' : CFile) (f' : Bytes) (ff' : List FF), k'.Ok → k'.strip = k.strip →
        (o.allowInvalid = true ∨ ValidUTF8 k'.text) →
        ∃ c', (parse o f' k'.text ff').1 = .done (.config c') [] ∧ skeleton c' = skeleton c := by
  obtain ⟨k, c, k1, hc, k2, k3, k4⟩ := C02_tree o f data ff h
  refine ⟨k, c, k1, k2, k3, fun k' f' ff' hk' hs hv => ?_⟩
  have hc' : k'.Clear := by rw [← file_clear, hs, file_clear]; exact hc
  obtain ⟨c', h1', h2'⟩ := C15_accepts o f' ff' k' hm hv hk' hc'
  refine ⟨c', h1', ?_⟩
  rw [← skeleton_content c, k4, ← skeleton_content c', h2', file_skel, file_skel, ← file_strip k', hs, file_strip]

/-- **C56** The accepted files are exactly the texts of well-formed trees none of whose plugins can
be taken for a branch. -/
theorem C56_language (o : Opts) (f : Bytes) (ff : List FF) (data : Bytes) (hm : o.maxExpr = none) :
    (parse o f data ff).1.errs = [] ↔
      (o.allowInvalid = true ∨ ValidUTF8 data) ∧ ∃ k : CFile, k.Ok ∧ k.Clear ∧ k.text = data := by
  constructor
  · intro h
    refine ⟨?_, ?_⟩
    · cases ho : o.allowInvalid with
      | true => exact .inl rfl
      | false => exact .inr (C03_valid o f data ff ho h)
    · obtain ⟨k, _, h1, h2, h3, _⟩ := C02_tree o f data ff h
      exact ⟨k, h1, h2, h3⟩
  · rintro ⟨hv, k, h1, h2, rfl⟩
    obtain ⟨c, h3, _⟩ := C15_accepts o f ff k hm hv h1 h2
    rw [h3]; rfl

/-! ### Concrete cases -/

/-- `filter{if 5{x{}}}`, and the same with a plugin named `y` after the branch; gaps are parameters. -/
def C15_tree (g g' : Gap) (name : Bytes) : CFile :=
  .config ⟨g, .filter, g', [.branch g' .blank (.mk (.cmp (.sel [b!"a"]) g .eq g' (.num b!"5")) []) g
    [.plugin g' (.mk ⟨.bareword, b!"x"⟩ g [] g')] g [] .none, .plugin g (.mk ⟨.bareword, name⟩ g' [] g)], g⟩ [] g'

theorem C15_tree_ok (name : Bytes) (hn : name ≠ [] ∧ name.all isNameChar = true) {g g' : Gap} (hg : g.Ok) (hg' : g'.Ok) : (C15_tree g g' name).Ok := by
  have hb : Gap.blank.Ok := ⟨by simp [Gap.blank], by decide⟩
  have h5 : NumOk b!"5" := ⟨⟨[], b!"5", [], rfl, .inl rfl, by decide, by decide, .inl rfl⟩, by decide +kernel⟩
  have hs : SelOk [b!"a"] := ⟨by decide, by decide⟩
  simp only [C15_tree, CFile.Ok, CSection.Ok, itemsOk, CItem.Ok, CPlugin.Ok, CCond.Ok, CExpr.Ok, moreOk, elifsOk, CElse.Ok, attrsOk,
    CRval.Ok, StrLit.Name, Gap.OkEnd]
  have hx : isNameChar 120 = true := by decide
  simp [hg, hg', hb, h5, hs, hn, hx]

/-- The tree is a sentence whose plugins do not look like branches, in every layout. -/
example : let g : Gap := ⟨[⟨b!" \n", b!" remark # x", false, true⟩], b!"\t"⟩
    (C15_tree g .empty b!"y").Ok ∧ (C15_tree g .empty b!"y").Clear ∧ (C15_tree .empty .blank b!"y").Ok ∧
      (C15_tree g .empty b!"y").strip = (C15_tree .empty .blank b!"y").strip ∧
      (C15_tree g .empty b!"y").text ≠ (C15_tree .empty .blank b!"y").text := by
  refine ⟨C15_tree_ok _ (by decide) ⟨?_, by decide⟩ ⟨by simp [Gap.empty], by decide⟩, ?_,
    C15_tree_ok _ (by decide) ⟨by simp [Gap.empty], by decide⟩ ⟨by simp [Gap.blank], by decide⟩, by simp [C15_tree, CFile.strip, CSection.strip, itemsStrip, CItem.strip, CPlugin.strip, CCond.strip, CExpr.strip, CRval.strip, elifsStrip, CElse.strip, moreStrip, attrsStrip], by decide +kernel⟩
  · intro l hl
    simp only [List.mem_singleton] at hl
    subst hl
    exact ⟨⟨by decide, by decide⟩, rfl⟩
  · simp only [C15_tree, CFile.Clear, itemsClear, CItem.Clear, elifsClear, CElse.Clear, notElse, CPlugin.name, CItem.isOpen, StrLit.text,
      StrLit.quote]
    have hx : ¬ IfLike b!"x" := by rintro ⟨c, r, -, h, -⟩; simp at h
    have hy : ¬ IfLike b!"y" := by rintro ⟨c, r, -, h, -⟩; simp at h
    simp [hx, hy]

/-- Did the parse succeed, and how many elements has each block of the filter sections? -/
def filterShape : ParseRes → Option (List Nat)
  | .done (.config c) [] => some (c.filter.map fun s => s.bops.length)
  | _ => none

/-- Did the parse succeed, and which elements of the blocks of the filter sections are branches? -/
def filterBranches : ParseRes → Option (List (List Bool))
  | .done (.config c) [] => some (c.filter.map fun s => s.bops.map fun
      | .branch .. => true
      | _ => false)
  | _ => none

/-- A plugin whose name is almost that of a branch. -/
def C56_plugin (name : Bytes) : CFile :=
  .config ⟨.empty, .filter, .empty, [.plugin .empty (.mk ⟨.bareword, name⟩ .empty [] .empty)], .empty⟩ [] .empty

/-- **C15** A well-formed file is read differently when its second plugin is renamed to `else` (one
element instead of two). -/
theorem C15_clear_needed :
    (∀ g g' : Gap, g.Ok → g'.Ok → (C15_tree g g' b!"else").Ok) ∧
    filterShape (parse {} [] (C15_tree .empty .empty b!"y").text []).1 = some [2] ∧
    filterShape (parse {} [] (C15_tree .empty .empty b!"else").text []).1 = some [1] := by
  refine ⟨fun g g' h h' => C15_tree_ok _ (by decide) h h', ?_, ?_⟩ <;> decide +kernel

/-- **C56** On the boundary: a plugin named `if5` or `if1in2and3` is read as a branch, one named
`iff` or `if5in` is a plugin; and a name that starts with `if` and a number that is too large makes
`Parse` fail. -/
theorem C56_boundary :
    filterBranches (parse {} [] (C56_plugin b!"if5").text []).1 = some [[true]] ∧
    filterBranches (parse {} [] (C56_plugin b!"if1in2and3").text []).1 = some [[true]] ∧
    filterBranches (parse {} [] b!"filter{if5{a => 1}}" []).1 = none ∧
    filterBranches (parse {} [] (C56_plugin b!"iff").text []).1 = some [[false]] ∧
    filterBranches (parse {} [] (C56_plugin b!"if5in").text []).1 = some [[false]] ∧
    filterBranches (parse {} [] (C56_plugin (b!"if" ++ List.replicate 400 57 ++ b!"x")).text []).1 = none := by
  refine ⟨?_, ?_, ?_, ?_, ?_, ?_⟩ <;> decide +kernel

end Verif.Props
