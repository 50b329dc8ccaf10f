import Verif.Proofs.DepthLim
import Verif.Proofs.DepthLow
import Verif.Props.Exact
/-
C70: how deep the recursion of the parser goes.
-/
namespace Verif.Props
open Verif Spec

/-- **C70** A stack with room for 46 calls of `parseExpr` per opening bracket of the input, and 27 more, is enough, whatever the
length of the input: the result is that of the unlimited stack. -/
theorem C70_depth (o : Opts) (filename data : Bytes) (ff : List FF) (d : Nat) (h : 46 * openers data + 27 ≤ d) :
    parseDepth d o filename data ff = some (parse o filename data ff) :=
  parseDepth_enough d o filename data ff h

/-- 27 calls are enough for a file without an opening bracket. -/
example (ff : List FF) : parseDepth 27 {} b!"f" b!"# a comment\n\n  # another, \"longer\" one" ff =
    some (parse {} b!"f" b!"# a comment\n\n  # another, \"longer\" one" ff) :=
  C70_depth {} _ _ ff 27 (by decide)

/-- **C70** A smaller stack gives the same result or overflows; a larger one changes nothing. -/
theorem C70_same (o : Opts) (filename data : Bytes) (ff : List FF) (d d' : Nat) (h : d ≤ d') :
    (parseDepth d o filename data ff = none ∨ parseDepth d o filename data ff = some (parse o filename data ff)) ∧
    (∀ r, parseDepth d o filename data ff = some r → parseDepth d' o filename data ff = some r) := by
  refine ⟨?_, fun r hr => parseDepth_mono h hr⟩
  cases hr : parseDepth d o filename data ff with
  | none => exact .inl rfl
  | some r =>
    have h1 := parseDepth_mono (Nat.le_add_right d (46 * openers data + 27)) hr
    rw [C70_depth o filename data ff _ (Nat.le_add_left _ _)] at h1
    exact .inr h1.symm

/-- Both cases occur. -/
example : parseDepth 20 {} b!"f" b!"input{}" [] = none ∧ (parseDepth 40 {} b!"f" b!"input{}" []).isSome = true := by
  decide +kernel

/-- **C70** With `MaxExpressions(m)` a stack with room for `m + 1` calls is enough for every input. -/
theorem C70_limited (o : Opts) (m : Nat) (ho : o.maxExpr = some m) (filename data : Bytes) (ff : List FF) (d : Nat) (h : m + 1 ≤ d) :
    parseDepth d o filename data ff = some (parse o filename data ff) :=
  parseDepth_mono h (parseDepth_limited ho filename data ff)

/-- A hundred nested arrays and a limit of 500. -/
example (ff : List FF) : parseDepth 501 { maxExpr := some 500 } b!"f" (nestedArrays 100) ff =
    some (parse { maxExpr := some 500 } b!"f" (nestedArrays 100) ff) :=
  C70_limited _ 500 rfl _ _ _ _ (by decide)

/-- **C70, violated without the option.** No stack is large enough for all inputs: for every size there is a valid configuration,
whose length is linear in the size, that `Parse` accepts on a larger stack and that overflows this one.  (Every nested array takes at least ten
calls.) -/
theorem C70_violated (o : Opts) (ho : o.maxExpr = none) (filename : Bytes) (ff : List FF) (k : Nat) :
    (∃ c, (parse o filename (nestedArrays k) ff).1 = .done (.config c) []) ∧
    (nestedArrays k).length = 2 * k + 18 ∧
    ∀ d, d ≤ 10 * (k + 1) + 32 → parseDepth d o filename (nestedArrays k) ff = none := by
  refine ⟨?_, ?_, fun d hd => nested_none ho filename ff k d hd⟩
  · have := C15_exact o filename ff (nestFile k) ho (by rw [nestFile_text]; exact nested_utf8 k) (nestFile_ok k) (nestFile_clear k)
    rw [nestFile_text] at this
    exact ⟨_, this⟩
  · simp [nestedArrays]
    omega

/-- Two kilobytes and a stack of 10000 calls. -/
example (ff : List FF) : (nestedArrays 1000).length = 2018 ∧ parseDepth 10000 {} b!"f" (nestedArrays 1000) ff = none :=
  ⟨(C70_violated {} rfl b!"f" ff 1000).2.1, (C70_violated {} rfl b!"f" ff 1000).2.2 10000 (by decide)⟩

end Verif.Props
