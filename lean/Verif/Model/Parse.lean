import Verif.Model.Peg
/-
The entry points `Parse`, `ParseReader` and `ParseFile`
(logstash_config.go:11992-12021), i.e. `newParser` (:12233-12262) and `parse`
(:12586-12651).
-/
namespace Verif

/-- Name of a rule, as printed in error messages (`rule.name`). -/
def Rule.name : Rule → Bytes
  | .init => b!"init" | .config => b!"config" | .pluginSection => b!"pluginSection"
  | .branchOrPlugin => b!"branchOrPlugin" | .plugin => b!"plugin" | .attribute => b!"attribute"
  | .value => b!"value" | .array => b!"array" | .hash => b!"hash"
  | .hashentries => b!"hashentries" | .hashentry => b!"hashentry" | .branch => b!"branch"
  | .ifCond => b!"ifCond" | .elseIf => b!"elseIf" | .elseCond => b!"elseCond"
  | .condition => b!"condition" | .expression => b!"expression"
  | .negativeExpression => b!"negativeExpression" | .inExpression => b!"inExpression"
  | .notInExpression => b!"notInExpression" | .rvalue => b!"rvalue"
  | .compareExpression => b!"compareExpression" | .regexpExpression => b!"regexpExpression"

/-- `parserError.Error` with the prefix built by `addErrAt`
(logstash_config.go:12229-12231, 12428-12450). -/
def PErr.text (filename : Bytes) (e : PErr) : Bytes :=
  let pre := if filename.isEmpty then [] else filename ++ b!":"
  pre ++ intToBytes e.pos.line ++ b!":" ++ intToBytes e.pos.col ++ b!" (" ++
    intToBytes e.pos.offset ++ b!")" ++
    (match e.rule with | some r => b!": rule " ++ r.name | none => []) ++ b!": " ++ e.msg

/-- `dedupe` (logstash_config.go:12188-12198): keep the first error of each
text. -/
def dedupe (filename : Bytes) : List Bytes → List PErr → List PErr
  | _, [] => []
  | seen, e :: es =>
    if seen.contains (e.text filename) then dedupe filename seen es
    else e :: dedupe filename (e.text filename :: seen) es

/-- `errList.Error` (logstash_config.go:12200-12217). -/
def errText (filename : Bytes) (es : List PErr) : Bytes :=
  joinSep b!"\n" (es.map (PErr.text filename))

/-- The result of `Parse`: the value (`nil` or an `ast.Config` for the grammar at
hand) and the error list (empty = nil error).  `diverges` stands for a parse that
does not terminate. -/
inductive ParseRes
  | done (v : Val) (errs : List PErr)
  | diverges
deriving Inhabited

/-- Lexicographic order of byte strings (`sort.Strings`). -/
def bytesLE : Bytes → Bytes → Bool
  | [], _ => true
  | _ :: _, [] => false
  | a :: as, b :: bs => if a < b then true else if b < a then false else bytesLE as bs

/-- Insert into a sorted duplicate-free list. -/
def insertUniq (x : Bytes) : List Bytes → List Bytes
  | [] => [x]
  | y :: ys => if x = y then y :: ys else if bytesLE x y then x :: y :: ys
    else y :: insertUniq x ys

/-- `listJoin(list, ", ", "or")` (logstash_config.go:12653-12662). -/
def listJoin : List Bytes → Bytes
  | [] => []
  | [x] => x
  | x :: y :: r => joinSep b!", " ((x :: y :: r).dropLast) ++ b!" or " ++ (x :: y :: r).getLast!

/-- The message of a failed parse without recorded errors
(logstash_config.go:12628-12646). -/
def noMatchMsg (exp : List Bytes) : Bytes :=
  let sorted := (exp.filter (· != b!"!.")).foldr insertUniq []
  b!"no match found, expected: " ++
    listJoin (if exp.contains b!"!." then sorted ++ [b!"EOF"] else sorted)

/-- The parser before the first `read` (`newParser`, logstash_config.go:12233-12262):
line 1, column 0, offset 0, empty state.  `ff` is whatever earlier parses left in
the package variable `farthestFailure`. -/
def St.start (data : Bytes) (ff : List FF) : St :=
  { pt := ⟨1, 0, 0, data⟩, curPos := Pos.zero, curText := [], warns := [], errs := [], ff := ff,
    hist := [], frame := [], rstack := [], cnt := 0, mfPos := ⟨1, 1, 0⟩, mfExp := [], mfInv := false }

/-- The first `read` of `parse` (logstash_config.go:12622): the point does not move
(width 0), the column becomes 1 — or the line is increased when the input starts
with a newline. -/
def St.firstRead (o : Opts) (s : St) : St :=
  let s := { s with pt := s.pt.moveTo 0 s.pt.rest }
  if s.pt.invalid && !o.allowInvalid then s.addErr invalidEncoding else s

/-- Fuel used by `parse`: linear in the length of the input. -/
def parseFuel (data : Bytes) : Nat := 60 * (data.length + 2)

/-- The evaluation of the start rule by `parse` (logstash_config.go:12620-12627). -/
def evalInit (fuel : Nat) (o : Opts) (data : Bytes) (ff : List FF) : Out :=
  evalRule (eval o gram fuel) gram .init ((St.start data ff).firstRead o)

/-- `parse` (logstash_config.go:12586-12651) with `Recover(true)`, run with explicit
fuel.  Returns the result and the final content of `farthestFailure`. -/
def parseWith (fuel : Nat) (o : Opts) (filename data : Bytes) (ff : List FF) :
    ParseRes × List FF :=
  match evalInit fuel o data ff with
  | .ok v s => (.done v (dedupe filename [] s.errs), s.ff)
  | .fail s =>
    let s := if s.errs.isEmpty then s.addErrAt (noMatchMsg s.mfExp) s.mfPos else s
    (.done .nil (dedupe filename [] s.errs), s.ff)
  | .panic m s => (.done .nil (dedupe filename [] (s.addErr m).errs), s.ff)
  | .timeout => (.diverges, ff)

/-- `Parse(filename, b, opts...)` (logstash_config.go:12019-12021). -/
def parse (o : Opts) (filename data : Bytes) (ff : List FF) : ParseRes × List FF :=
  parseWith (parseFuel data) o filename data ff

/-- The value and error list of a terminating parse. -/
def ParseRes.value : ParseRes → Val
  | .done v _ => v
  | .diverges => .nil

/-- The error list of a parse. -/
def ParseRes.errs : ParseRes → List PErr
  | .done _ e => e
  | .diverges => []

/-- `Parse` succeeded with configuration `c`: nil error and an `ast.Config`. -/
def ParsesTo (o : Opts) (data : Bytes) (c : Config) : Prop :=
  ∀ filename ff, (parse o filename data ff).1 = .done (.config c) []

end Verif
