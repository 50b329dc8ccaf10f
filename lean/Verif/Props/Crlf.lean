import Verif.Proofs.CrlfSame
import Verif.Props.Concat
/-
C78: the line ends of Windows.
-/
namespace Verif.Props
open Verif Verif.Spec

/-- **C78** A file without carriage returns that `Parse` accepts is also accepted with the line ends of Windows. The
configuration is the same, with all its comments, except that in names and literals, too, every newline has become carriage
return and newline. -/
theorem C78_crlf (o : Opts) (f f' data : Bytes) (ff ff' : List FF) (c : Config) (hm : o.maxExpr = none)
    (h : (parse o f data ff).1 = .done (.config c) []) (hr : 13 ∉ data) :
    ∃ c', (parse o f' (crlf data) ff').1 = .done (.config c') [] ∧ content c' = crlfConfig (content c) := by
  obtain ⟨k, k1, k2, k3, k4⟩ := tree_of o h
  subst k3
  have hv : o.allowInvalid = true ∨ ValidUTF8 k.crlf.text := by
    rw [file_crlf_text k1 hr]
    exact (utf8_both (o := o) (by rw [h]; rfl) (by rw [h]; rfl)).imp_right fun h => validUTF8_crlf h.1
  obtain ⟨c', h1, h2⟩ := C15_accepts o f' ff' k.crlf hm hv (file_crlf_ok k1 hr) (file_crlf_clear k1 k2)
  rw [file_crlf_text k1 hr] at h1
  exact ⟨c', h1, by rw [h2, file_crlf_ast, k4]⟩

/-- **C78** If no name and no literal contains a newline, the configuration is the same. -/
theorem C78_same (o : Opts) (f f' data : Bytes) (ff ff' : List FF) (c : Config) (hm : o.maxExpr = none)
    (h : (parse o f data ff).1 = .done (.config c) []) (hr : 13 ∉ data) (hl : ∀ t ∈ configLits (content c), 10 ∉ t) :
    ∃ c', (parse o f' (crlf data) ff').1 = .done (.config c') [] ∧ content c' = content c := by
  obtain ⟨c', h1, h2⟩ := C78_crlf o f f' data ff ff' c hm h hr
  obtain ⟨k, -, -, -, k4⟩ := tree_of o h
  rw [k4] at hl
  exact ⟨c', h1, by rw [h2, k4, file_same _ _ hl]⟩

/-- A file with comments and a string of two lines, and its text with the line ends of Windows. -/
example : let A := b!"# a\n\nfilter {\n  # b\n  if [x] {\n    m { t => \"u\nv\" } # c\n  }\n}\n# d"
    (parse {} [] A []).1.errs = [] ∧ 13 ∉ A ∧
    crlf A = b!"# a\r\n\r\nfilter {\r\n  # b\r\n  if [x] {\r\n    m { t => \"u\r\nv\" } # c\r\n  }\r\n}\r\n# d" :=
  ⟨by decide +kernel, by decide, by decide⟩

/-- A file whose literals contain no newline. -/
example : let A := b!"# a\n\nfilter {\n  # b\n  if [x] {\n    m { t => \"u v\" }\n  }\n}\n"
    (match (parse {} [] A []).1 with
      | .done (.config c) [] => decide (configLits (content c) = [b!"[x]", b!"m", b!"t", b!"\"u v\""])
      | _ => false) = true ∧ 13 ∉ A := by
  refine ⟨by decide +kernel, by decide⟩

/-- **C78** A second conversion makes the file wrong: the first of two carriage returns at the end of a comment is no line end.
Without comments a second conversion does no harm. -/
theorem C78_violated_twice :
    (parse {} [] (crlf b!"# a\ninput {}\n") []).1.errs = [] ∧ (parse {} [] (crlf (crlf b!"# a\ninput {}\n")) []).1.errs ≠ [] ∧
    (parse {} [] (crlf (crlf b!"input {\n}\n")) []).1.errs = [] :=
  ⟨by decide +kernel, by decide +kernel, by decide +kernel⟩

end Verif.Props
