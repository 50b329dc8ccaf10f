import Verif.Model.Actions
/-
The parser options (logstash_config.go:11855-11990, logstash_config_options.go) and how
`newParser` (logstash_config.go:12233-12262) turns a list of them into settings.
-/
namespace Verif

/-- A value in the global store: the nil interface (also: a missing key), a `bool`, or a
value of another type. -/
inductive GVal
  | nil
  | bool (b : Bool)
  | other (n : Nat)
deriving DecidableEq, Repr, Inhabited

/-- The fields of `parser` that options set (logstash_config.go:12285-12345).  `Stats` is a
parameter in `Model/Entry` and `Model/Stats`, the values of `InitState` in `Model/Debug`. -/
structure Settings where
  maxExprCnt : UInt64
  entrypoint : Bytes
  debug : Bool
  memoize : Bool
  allowInvalidUTF8 : Bool
  recover : Bool
  globalStore : Bytes → GVal

/-- The values of type `Option` that the option constructors build. -/
inductive POpt
  | maxExpressions (n : UInt64)
  | entrypoint (rule : Bytes)
  | debug (b : Bool)
  | memoize (b : Bool)
  | allowInvalidUTF8 (b : Bool)
  | recover (b : Bool)
  | globalStore (key : Bytes) (value : GVal)
  | ignoreComments (b : Bool)
  | exceptionalCommentsWarning (b : Bool)
deriving DecidableEq, Repr, Inhabited

/-- `v.(bool)` in the comma-ok form with the flag ignored. -/
def GVal.asBool : GVal → Bool
  | .bool b => b
  | _ => false

/-- `p.cur.globalStore[key] = value`. -/
def storeSet (f : Bytes → GVal) (key : Bytes) (v : GVal) : Bytes → GVal :=
  fun k => if k = key then v else f k

/-- The key constants (logstash_config_options.go:3, 16). -/
def ignoreKey : Bytes := b!"__ignoreComments"
/-- See `ignoreKey`. -/
def excKey : Bytes := b!"__exceptionalCommentWarning"

/-- Call an option on a parser: the changed settings and the option that undoes it
(logstash_config.go:11861-11988, logstash_config_options.go:8-29). -/
def POpt.apply (o : POpt) (s : Settings) : Settings × POpt :=
  match o with
  | .maxExpressions n => ({ s with maxExprCnt := n }, .maxExpressions s.maxExprCnt)
  | .entrypoint r =>
    ({ s with entrypoint := if r = [] then b!"init" else r }, .entrypoint s.entrypoint)
  | .debug b => ({ s with debug := b }, .debug s.debug)
  | .memoize b => ({ s with memoize := b }, .memoize s.memoize)
  | .allowInvalidUTF8 b => ({ s with allowInvalidUTF8 := b }, .allowInvalidUTF8 s.allowInvalidUTF8)
  | .recover b => ({ s with recover := b }, .recover s.recover)
  | .globalStore k v =>
    ({ s with globalStore := storeSet s.globalStore k v }, .globalStore k (s.globalStore k))
  | .ignoreComments b =>
    ({ s with globalStore := storeSet s.globalStore ignoreKey (.bool b) },
      .ignoreComments (s.globalStore ignoreKey).asBool)
  | .exceptionalCommentsWarning b =>
    ({ s with globalStore := storeSet s.globalStore excKey (.bool b) },
      .exceptionalCommentsWarning (s.globalStore excKey).asBool)

/-- The settings before any option (logstash_config.go:12238-12254). -/
def Settings.default : Settings :=
  { maxExprCnt := 0, entrypoint := b!"init", debug := false, memoize := false,
    allowInvalidUTF8 := false, recover := true, globalStore := fun _ => .nil }

/-- `setOptions` (logstash_config.go:12265-12269). -/
def setOptions (s : Settings) : List POpt → Settings
  | [] => s
  | o :: os => setOptions (o.apply s).1 os

/-- `MaxExpressions(0)` means no limit (logstash_config.go:12257-12259). -/
def limitOf (n : UInt64) : Option Nat := if n = 0 then none else some n.toNat

/-- The options as the rest of the model sees them: the comma-ok type
assertions on the two keys (logstash_config_helper.go:128, 142). -/
def Settings.opts (s : Settings) : Opts :=
  { ignoreComments := (s.globalStore ignoreKey).asBool
    excWarn := (s.globalStore excKey).asBool
    allowInvalid := s.allowInvalidUTF8
    maxExpr := limitOf s.maxExprCnt }

/-- The settings `Parse(…, opts...)` runs with. -/
def parserOpts (l : List POpt) : Opts := (setOptions Settings.default l).opts

end Verif
