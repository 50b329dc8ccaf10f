import Verif.Model.Parse
/-
The parser on a stack of bounded size: how deep the calls of `parseExpr` nest.

`eval` of Model/Peg.lean spends one unit of fuel per nested call of `parseExpr` and bounds the repetitions by the same
number.  Here the two are separate, so that the first is the depth of the recursion and nothing else.
-/
namespace Verif

/-- `parseExpr` (logstash_config.go:12694-12757) with at most `d` nested calls of itself; `L` bounds the number of
iterations of a repetition (which are loops in the code, not calls).  `timeout` means that one of the bounds is
exceeded. -/
def evalDepth (o : Opts) (G : Gram) (L : Nat) : Nat → Ex → St → Out
  | 0, _, _ => .timeout
  | d + 1, e, s =>
    if tooMany o (s.cnt + 1) then .panic maxExprMsg { s with cnt := s.cnt + 1 }
    else step o G (evalDepth o G L d) L e { s with cnt := s.cnt + 1 }

/-- `Parse` (logstash_config.go:12019-12021, 12586-12651) when the stack has room for `d` nested calls of `parseExpr`:
`none` if that is not enough.  A repetition never runs more often than the input has bytes, and once more to
fail. -/
def parseDepth (d : Nat) (o : Opts) (filename data : Bytes) (ff : List FF) : Option (ParseRes × List FF) :=
  match evalRule (evalDepth o gram (data.length + 1) d) gram .init ((St.start data ff).firstRead o) with
  | .ok v s => some (.done v (dedupe filename [] s.errs), s.ff)
  | .fail s =>
    let s := if s.errs.isEmpty then s.addErrAt (noMatchMsg s.mfExp) s.mfPos else s
    some (.done .nil (dedupe filename [] s.errs), s.ff)
  | .panic m s => some (.done .nil (dedupe filename [] (s.addErr m).errs), s.ff)
  | .timeout => none

end Verif
