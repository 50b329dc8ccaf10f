import Verif.Model.Parse
import Verif.Model.Options
/-
The entry points `Parse`, `ParseReader` and `ParseFile` with every option that changes what they do:
`Recover`, `Entrypoint`, `Statistics` and `MaxExpressions`, besides those `parse` knows.

Simplifications: of `Stats` only `ExprCnt` is kept (`ChoiceAltCnt` is in Model/Stats.lean), as a natural number (it
would take 2^64 evaluations to overflow it); `Memoize` and `Debug` are ignored here.
-/
namespace Verif

/-- The rules of the grammar (`g.rules`, logstash_config.go:16-11830). -/
def Rule.all : List Rule :=
  [.init, .config, .pluginSection, .branchOrPlugin, .plugin, .attribute, .value, .array, .hash,
    .hashentries, .hashentry, .branch, .ifCond, .elseIf, .elseCond, .condition, .expression,
    .negativeExpression, .inExpression, .notInExpression, .rvalue, .compareExpression,
    .regexpExpression]

/-- `p.rules[name]` (logstash_config.go:12577-12582, 12616). -/
def Rule.ofName (name : Bytes) : Option Rule := Rule.all.find? fun r => r.name == name

/-- How a call ends: it returns a value and an error, or a panic leaves it (with `Recover(false)`). -/
inductive CallRes
  | returned (r : ParseRes)
  | panicked (msg : Bytes)

/-- The text of `errInvalidEntrypoint` (logstash_config.go:11841). -/
def invalidEntrypoint : Bytes := b!"invalid entrypoint"

/-- The end of `parse` (logstash_config.go:12598-12615, 12624-12650): the result, and `farthestFailure` and
`ExprCnt` afterwards.  Without `Recover` the panic goes on to the caller. -/
def finishCall (recover : Bool) (filename : Bytes) (ff : List FF) (cnt : Nat) :
    Out → CallRes × List FF × Nat
  | .ok v s => (.returned (.done v (dedupe filename [] s.errs)), s.ff, s.cnt)
  | .fail s =>
    (.returned (.done .nil (dedupe filename []
      (if s.errs.isEmpty then s.addErrAt (noMatchMsg s.mfExp) s.mfPos else s).errs)), s.ff, s.cnt)
  | .panic m s =>
    (if recover then .returned (.done .nil (dedupe filename [] (s.addErr m).errs)) else .panicked m,
      s.ff, s.cnt)
  | .timeout => (.returned .diverges, ff, cnt)

/-- `Parse(filename, data, opts...)` (logstash_config.go:12019-12021, 12586-12651) with the settings the
options give and `cnt` in the field `ExprCnt` of the `Stats` in use; `ff` is `farthestFailure`.  An unknown
entry point is reported before the first `read`. -/
def parseCall (s : Settings) (cnt : Nat) (filename data : Bytes) (ff : List FF) :
    CallRes × List FF × Nat :=
  match Rule.ofName s.entrypoint with
  | none =>
    (.returned (.done .nil (dedupe filename [] ((St.start data ff).addErr invalidEntrypoint).errs)), ff, cnt)
  | some r =>
    finishCall s.recover filename ff cnt
      (evalRule (eval s.opts gram (parseFuel data)) gram r
        ({ St.start data ff with cnt := cnt }.firstRead s.opts))

/-- `Parse` with a list of options; without `Statistics` the counter starts at zero
(logstash_config.go:12234-12236, 12252). -/
def parseOpts (l : List POpt) (filename data : Bytes) (ff : List FF) : CallRes × List FF × Nat :=
  parseCall (setOptions Settings.default l) 0 filename data ff

/-- An `io.Reader`: what the successive calls of `Read` deliver, and the error that ends them (`none`
is `io.EOF`). -/
structure Reader where
  chunks : List Bytes
  err : Option Bytes

/-- `ioutil.ReadAll` (called from logstash_config.go:12009): the bytes read until the end or an error. -/
def Reader.readAll (r : Reader) : Bytes × Option Bytes := (r.chunks.flatten, r.err)

/-- How `ParseReader` and `ParseFile` end: as `Parse`, or with an error of the operating system and the
value next to it. -/
inductive ReadRes
  | parse (r : CallRes)
  | ioErr (v : Val) (e : Bytes)

/-- `ParseReader` (logstash_config.go:12008-12015). -/
def parseReader (s : Settings) (cnt : Nat) (filename : Bytes) (r : Reader) (ff : List FF) :
    ReadRes × List FF × Nat :=
  match r.readAll with
  | (_, some e) => (.ioErr .nil e, ff, cnt)
  | (b, none) =>
    let x := parseCall s cnt filename b ff
    (.parse x.1, x.2)

/-- A file as `ParseFile` sees it: the error of `os.Open`, what reading delivers, and the error of
`f.Close`. -/
structure OsFile where
  openErr : Option Bytes
  reader : Reader
  closeErr : Option Bytes

/-- The deferred function of `ParseFile` (logstash_config.go:11998-12002): an error of `Close` replaces the
error, the value stays; it changes nothing when a panic passes. -/
def closeFile (closeErr : Option Bytes) : ReadRes → ReadRes
  | .parse (.panicked m) => .parse (.panicked m)
  | .parse (.returned r) =>
    match closeErr with
    | none => .parse (.returned r)
    | some e => match r with
      | .done v _ => .ioErr v e
      | .diverges => .parse (.returned .diverges)
  | .ioErr v e => .ioErr v (closeErr.getD e)

/-- `ParseFile` (logstash_config.go:11993-12004). -/
def parseFileCall (s : Settings) (cnt : Nat) (filename : Bytes) (f : OsFile) (ff : List FF) :
    ReadRes × List FF × Nat :=
  match f.openErr with
  | some e => (.ioErr .nil e, ff, cnt)
  | none =>
    let x := parseReader s cnt filename f.reader ff
    (closeFile f.closeErr x.1, x.2)

end Verif
