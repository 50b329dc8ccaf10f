import Verif.Props.Engine
import Verif.Proofs.Collect
import Verif.Proofs.RunParse
/-
C02, C14, C19, C37: what `Parse` accepts, and what it returns, in terms of the concrete syntax
trees of `Verif.Spec.Cst`.
-/
namespace Verif.Props
open Verif Verif.Spec

/-- **C02** If `Parse` returns a nil error, the input is, byte for byte, the text of a well-formed
concrete syntax tree none of whose plugins can be taken for a branch, and the returned configuration
is the one the tree denotes (up to source positions and warnings). -/
theorem C02_tree (o : Opts) (filename data : Bytes) (ff : List FF)
    (h : (parse o filename data ff).1.errs = []) :
    ∃ (k : CFile) (c : Config), k.Ok ∧ k.Clear ∧ k.text = data ∧
      (parse o filename data ff).1 = .done (.config c) [] ∧ content c = k.ast o.ignoreComments := by
  have hv : o.allowInvalid = true ∨ ValidUTF8 data := by
    cases ho : o.allowInvalid with
    | true => exact .inl rfl
    | false => exact .inr (C03_valid o filename data ff ho h)
  obtain ⟨c, hc⟩ := C13_nil_error o filename data ff h
  have hn : parse o filename data ff = parse { o with maxExpr := none } filename data ff := by
    rcases C11_limit o filename data ff with h1 | ⟨es, e, h1, _⟩
    · exact h1
    · rw [h1] at h; simp [ParseRes.errs] at h
  have hc' := hc
  rw [hn] at hc'
  obtain ⟨b, fr, hr⟩ := (parse_run (o := { o with maxExpr := none }) filename ff rfl (fine_of_valid hv)).1 _ hc'
  obtain ⟨-, k, k1, k2, k3, k4⟩ := init_sound ⟨fr, hr⟩
  refine ⟨k, c, k1, k4, k2.symm, hc, ?_⟩
  simp only [er, valMap] at k3
  injection k3

/-- **C02** The same without the condition on plugin names. -/
theorem C02_sentence (o : Opts) (filename data : Bytes) (ff : List FF)
    (h : (parse o filename data ff).1.errs = []) :
    ∃ (k : CFile) (c : Config), k.Ok ∧ k.text = data ∧
      (parse o filename data ff).1 = .done (.config c) [] ∧ content c = k.ast o.ignoreComments := by
  obtain ⟨k, c, h1, -, h2⟩ := C02_tree o filename data ff h
  exact ⟨k, c, h1, h2⟩

/-- **C14** The sections of each type are exactly the sections of that type written in the file, in
order: keyword for keyword and block for block. -/
theorem C14_sections (o : Opts) (filename data : Bytes) (ff : List FF)
    (h : (parse o filename data ff).1.errs = []) :
    ∃ (k : CFile) (c : Config), k.Ok ∧ k.text = data ∧ (parse o filename data ff).1 = .done (.config c) [] ∧
      c.input.map (fun s => AMap.noPos.bops s.bops) =
        (k.secs.filter (·.ptype = .input)).map (fun s => itemsAst o.ignoreComments s.items) ∧
      c.filter.map (fun s => AMap.noPos.bops s.bops) =
        (k.secs.filter (·.ptype = .filter)).map (fun s => itemsAst o.ignoreComments s.items) ∧
      c.output.map (fun s => AMap.noPos.bops s.bops) =
        (k.secs.filter (·.ptype = .output)).map (fun s => itemsAst o.ignoreComments s.items) ∧
      (∀ s ∈ c.input, s.ptype = .input) ∧ (∀ s ∈ c.filter, s.ptype = .filter) ∧
      (∀ s ∈ c.output, s.ptype = .output) := by
  obtain ⟨k, c, k1, k2, k3, k4⟩ := C02_sentence o filename data ff h
  refine ⟨k, c, k1, k2, k3, ?_⟩
  have key : ∀ (l : List Section) (t : PluginType), l.map AMap.noPos.sect = (k.sections o.ignoreComments).filter (·.ptype = t) →
      l.map (fun s => AMap.noPos.bops s.bops) =
        (k.secs.filter (·.ptype = t)).map (fun s => itemsAst o.ignoreComments s.items) ∧ ∀ s ∈ l, s.ptype = t := by
    intro l t hl
    constructor
    · have h1 := congrArg (List.map Section.bops) hl
      rw [List.map_map] at h1
      rw [show (fun s : Section => AMap.noPos.bops s.bops) = Section.bops ∘ AMap.noPos.sect from rfl, h1]
      have key2 : ∀ (l : List CSection) (first : Bool), ((l.map (CSection.ast o.ignoreComments first)).filter (·.ptype = t)).map Section.bops =
          (l.filter (·.ptype = t)).map (fun s => itemsAst o.ignoreComments s.items) := by
        intro l first
        induction l with
        | nil => rfl
        | cons s l ih =>
          simp only [List.map_cons, List.filter_cons, show (CSection.ast o.ignoreComments first s).ptype = s.ptype from rfl]
          split
          · simp only [List.map_cons, ih]; rfl
          · exact ih
      cases k with
      | empty g => rfl
      | config s ss ft =>
        have h1 := key2 [s] true
        have h2 := key2 ss false
        rw [CFile.sections, CFile.secs]
        rw [show ∀ (a : Section) (l : List Section), a :: l = [a] ++ l from fun _ _ => rfl,
          show s :: ss = [s] ++ ss from rfl, List.filter_append, List.filter_append, List.map_append, List.map_append, ← h1, ← h2]
        rfl
    · intro s hs
      have : AMap.noPos.sect s ∈ l.map AMap.noPos.sect := List.mem_map_of_mem hs
      rw [hl] at this
      have := (List.mem_filter.1 this).2
      exact of_decide_eq_true this
  have ki := key c.input .input (congrArg Config.input k4)
  have kf := key c.filter .filter (congrArg Config.filter k4)
  have ko := key c.output .output (congrArg Config.output k4)
  exact ⟨ki.1, kf.1, ko.1, ki.2, kf.2, ko.2⟩

/-- **C19** In a file without plugins as array elements no array element is lost: section by
section the arrays of the AST have as many elements as the arrays written in the file. -/
theorem C19_elements (o : Opts) (filename data : Bytes) (ff : List FF)
    (h : (parse o filename data ff).1.errs = []) :
    ∃ (k : CFile) (c : Config), k.Ok ∧ k.text = data ∧ (parse o filename data ff).1 = .done (.config c) [] ∧
      ((∀ t, ∀ es ∈ k.arrays t, ∀ e ∈ es, e.isPlug = false) →
        (sectsArrays c.input).map List.length = (k.arrays .input).map List.length ∧
        (sectsArrays c.filter).map List.length = (k.arrays .filter).map List.length ∧
        (sectsArrays c.output).map List.length = (k.arrays .output).map List.length) := by
  obtain ⟨k, c, k1, k2, k3, k4⟩ := C02_sentence o filename data ff h
  refine ⟨k, c, k1, k2, k3, fun hp => ?_⟩
  have key : ∀ (l : List Section) (t : PluginType), l.map AMap.noPos.sect = (k.sections o.ignoreComments).filter (·.ptype = t) →
      (sectsArrays l).map List.length = (k.arrays t).map List.length := by
    intro l t hl
    rw [← sectsArrays_map AMap.noPos, hl, sectsArrays, filter_sections, CFile.arrays, secs_arrays _ _ (hp t)]
  exact ⟨key c.input .input (congrArg Config.input k4), key c.filter .filter (congrArg Config.filter k4),
    key c.output .output (congrArg Config.output k4)⟩

/-- Lengths of the arrays in the input sections of a parse result without errors. -/
def inputArrays : ParseRes → Option (List Nat)
  | .done (.config c) [] => some ((sectsArrays c.input).map List.length)
  | _ => none

/-- The tree of `input{p{a=>[foo{}]}}`. -/
def C19_tree : CFile :=
  .config ⟨.empty, .input, .empty, [.plugin .empty (.mk ⟨.bareword, b!"p"⟩ .empty
    [.mk [] .empty ⟨.bareword, b!"a"⟩ .empty .empty
      (.arr [.mk .empty .empty (.plug (.mk ⟨.bareword, b!"foo"⟩ .empty [] .empty))] .empty)] .empty)], .empty⟩ [] .empty

/-- **C19** Violated when the first element of an array is a plugin: the file has an array of one
element, `Parse` reports no error, and the array of the AST is empty. -/
theorem C19_violated : C19_tree.text = b!"input{p{a=>[foo{}]}}" ∧
    (C19_tree.arrays .input).map List.length = [1] ∧
    inputArrays (parse {} [] C19_tree.text []).1 = some [0] := by
  refine ⟨by decide +kernel, rfl, ?_⟩
  decide +kernel

/-- **C37** Every condition of a parsed configuration, also nested ones, starts with an expression,
and `Condition.Pos` is the position of that expression. -/
theorem C37_conditions (o : Opts) (filename data : Bytes) (ff : List FF) (c : Config)
    (h : (parse o filename data ff).1 = .done (.config c) []) (cond : Condition) (hc : cond ∈ configConds c) :
    ∃ e r p, cond = e :: r ∧ e.pos = some p ∧ condPos cond = some p := by
  obtain ⟨k, c', k1, k2, k3, k4⟩ := C02_sentence o filename data ff (by rw [h]; rfl)
  rw [h] at k3
  injection k3 with k3
  injection k3 with k3
  subst k3
  have h1 : configConds (content c) = (configConds c).map AMap.noPos.cond := configConds_map _ c
  have h2 : AMap.noPos.cond cond ∈ configConds (k.ast o.ignoreComments) := by
    rw [← k4, h1]; exact List.mem_map_of_mem hc
  obtain ⟨e, r, h3, h4⟩ := file_conds _ k _ h2
  cases cond with
  | nil => simp [AMap.cond] at h3
  | cons e' r' =>
    simp only [AMap.cond, List.cons.injEq] at h3
    obtain ⟨rfl, -⟩ := h3
    cases e' with
    | nil => simp [AMap.expr] at h4
    | _ => exact ⟨_, _, _, rfl, rfl, rfl⟩

/-! ### Concrete cases -/

/-- A file with all three section types, nested conditions, arrays, hashes and comments. -/
def sample : Bytes := b!"# head\ninput { stdin { } }\nfilter {\n  if [a][b] == \"x\" and !([c] in [1, \"y\"]) {\n    # why\n    mutate { add => { \"k\" => [ \"v\", w1 ] } n => -1.5 }\n  } else if [d] =~ /z/ { drop {} } else { aa {} }\n}\ninput { file { path => '/x' } }\n# foot"

example : (parse {} b!"f" sample []).1.errs = [] := by decide +kernel
example : inputArrays (parse {} b!"f" b!"input { p { a => [1, [2, 3, 'x']] } }" []).1 = some [2, 3] := by decide +kernel
example : (match (parse {} b!"f" sample []).1 with
    | .done (.config c) [] => (c.input.length, c.filter.length, c.output.length, (configConds c).map List.length)
    | _ => (0, 0, 0, [])) = (2, 1, 0, [2, 1, 1]) := by decide +kernel

end Verif.Props
