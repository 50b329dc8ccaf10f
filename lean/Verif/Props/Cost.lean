import Verif.Proofs.CostFile
import Verif.Model.Options
/-
Property C54: parsing takes a number of steps linear in the length of the input.

The parser counts the expressions it evaluates (`Stats.ExprCnt`, logstash_config.go:12281-12286,
increased once in every call of `parseExpr`, :12706); the option `MaxExpressions` (:11850-11867)
turns the excess of that count into an error.  So the statement about time has an observable
form: a limit that is linear in the input is never reached.
-/
namespace Verif.Props
open Verif

/-- `Stats.ExprCnt` after a call of `Parse` with the options `o` and a fresh `Stats`
(logstash_config.go:12281-12286, 12706). -/
def exprCnt (o : Opts) (data : Bytes) (ff : List FF) : Option Nat :=
  match evalInit (parseFuel data) o data ff with
  | .ok _ s => some s.cnt
  | .fail s => some s.cnt
  | .panic _ s => some s.cnt
  | .timeout => none

/-- **C54** A limit of at least 270000 expressions per byte (and as much again) changes nothing: value,
errors and farthest-failure report are those of the parse without limit, for every input — accepted
or not, UTF-8 or not — and every combination of the other options. -/
theorem C54_linear (o : Opts) (filename data : Bytes) (ff : List FF) (m : Nat)
    (hm : 270000 * (data.length + 1) ≤ m) :
    parse { o with maxExpr := some m } filename data ff = parse { o with maxExpr := none } filename data ff := by
  unfold parse parseWith
  rw [evalInit_cap _ _ _ _ _ (evalInit_cost _ _ _ _ (Nat.le_refl _) _ hm)]

/-- **C54** The number of expressions evaluated is at most linear in the length of the input. -/
theorem C54_count (o : Opts) (data : Bytes) (ff : List FF) :
    ∃ n, exprCnt { o with maxExpr := none } data ff = some n ∧ n ≤ 270000 * (data.length + 1) := by
  have h := evalInit_cost (parseFuel data) o data ff (Nat.le_refl _) _ (Nat.le_refl _)
  unfold exprCnt
  cases hr : evalInit (parseFuel data) { o with maxExpr := none } data ff with
  | timeout => rw [hr] at h; exact absurd trivial h
  | ok v s => rw [hr] at h; exact ⟨_, rfl, Nat.le_of_not_lt h⟩
  | fail s => rw [hr] at h; exact ⟨_, rfl, Nat.le_of_not_lt h⟩
  | panic x s => rw [hr] at h; exact ⟨_, rfl, Nat.le_of_not_lt h⟩

/-- **C54** The same count with such a limit set. -/
theorem C54_limited (o : Opts) (data : Bytes) (ff : List FF) (m : Nat) (hm : 270000 * (data.length + 1) ≤ m) :
    ∃ n, exprCnt { o with maxExpr := some m } data ff = some n ∧ n ≤ 270000 * (data.length + 1) := by
  have h := C54_count o data ff
  unfold exprCnt at h ⊢
  rw [evalInit_cap _ _ _ _ _ (evalInit_cost _ _ _ _ (Nat.le_refl _) _ hm)]
  exact h

/-- The hypothesis is met by a limit a user might set, and the limit is really there: the same
file with the limit 100 is rejected with an error that is not there without it. -/
example : 270000 * ((b!"filter { if [a] == 1 { b { c => \"d\" } } }").length + 1) ≤ 100000000 := by
  decide +kernel

example :
    let data := b!"filter { if [a] == 1 { b { c => \"d\" } } }"
    ((parse { maxExpr := some 100 } [] data []).1.errs.map (·.msg) = [maxExprMsg]) ∧
    (parse { maxExpr := some 100000000 } [] data []).1.errs.length = 0 ∧
    (exprCnt {} data []).isSome = true := by
  decide +kernel

end Verif.Props
