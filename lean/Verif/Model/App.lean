import Verif.Model.Parse
import Verif.Model.AstUtil
/-
The commands of `mustache` (internal/app/**, internal/format/multierr.go).

The operating system is an explicit file system value; `cobra` and `viper` are not
modelled: the entry points are the three `Run(args)` methods.  `multierror.Append`
is appending to a list, a nil `*multierror.Error` is the empty list.
-/
namespace Verif

/-! ### internal/format/multierr.go -/

/-- `prefix` (internal/format/multierr.go:24-35): the first line gets a bullet, the
others an indentation; `fmt.Sprintln` adds the newline. -/
def bulletLines : Bool → List Bytes → Bytes
  | _, [] => []
  | first, l :: ls =>
    (if first then b!"\t* " else b!"\t  ") ++ l ++ b!"\n" ++ bulletLines false ls

/-- `prefix` (internal/format/multierr.go:24-35). -/
def bullet (s : Bytes) : Bytes := bulletLines true (splitOn 10 (trimRight 10 s))

/-- `MultiErr` (internal/format/multierr.go:9-22). -/
def multiErr (es : List Bytes) : Bytes :=
  match es with
  | [e] => b!"1 error occurred:\n" ++ bullet e ++ b!"\n"
  | _ => natToBytes es.length ++ b!" errors occurred:\n" ++ joinSep b!"\n" (es.map bullet) ++ b!"\n"

/-! ### The file system -/

/-- How the operating system reacts to accesses to an existing file: the errors of `os.Open` and
`os.Create` (e.g. for lack of permission), and the error of `f.WriteString` after some bytes have
been written (e.g. a full disk). -/
structure Access where
  openErr : Option Bytes := none
  createErr : Option Bytes := none
  writeErr : Option (Nat × Bytes) := none
deriving DecidableEq, Repr

/-- What a path refers to: `os.Stat` fails with a text, a directory, or a file with its content. -/
inductive Node
  | missing (statErr : Bytes)
  | dir
  | file (content : Bytes) (acc : Access)
deriving DecidableEq, Repr

/-- A file system: what each path refers to. -/
abbrev FS := Bytes → Node

/-- A primitive effect on the file system. -/
inductive Effect
  /-- `os.Create`: open for writing and truncate -/
  | truncate (name : Bytes)
  /-- `f.WriteString` -/
  | write (name data : Bytes)
deriving DecidableEq, Repr

/-- Perform an effect.  `write` appends to what the (just truncated) file holds. -/
def FS.run (fs : FS) (e : Effect) : FS :=
  match e with
  | .truncate n => fun m => if m = n then
      (match fs m with | .file _ a => .file [] a | x => x) else fs m
  | .write n d => fun m => if m = n then
      (match fs m with | .file old a => .file (old ++ d) a | x => x) else fs m

/-- Perform a list of effects. -/
def FS.runAll (fs : FS) : List Effect → FS
  | [] => fs
  | e :: es => (fs.run e).runAll es

/-- The world a command runs in: the file system, the package variable
`farthestFailure`, everything printed so far, and the effects performed so far. -/
structure World where
  fs : FS
  ff : List FF
  out : Bytes
  trace : List Effect

/-- Perform an effect in the world. -/
def World.effect (w : World) (e : Effect) : World :=
  { w with fs := w.fs.run e, trace := w.trace ++ [e] }

/-- Result of `ParseFile`: a value or the error text; `diverge` if the parse does not
return. -/
inductive FileRes
  | ok (v : Val)
  | err (text : Bytes)
  | diverge

/-- `ParseFile` (logstash_config.go:11993-12004): `os.Open`, then `ParseReader` with
the file name.  When the file cannot be opened `farthestFailure` keeps its old
content. -/
def parseFile (o : Opts) (name : Bytes) (w : World) : FileRes × World :=
  match w.fs name with
  | .missing e => (.err e, w)
  | .dir => (.err b!"is a directory", w)
  | .file content acc =>
    match acc.openErr with
    | some e => (.err e, w)
    | none =>
      let r := parse o name content w.ff
      match r.1 with
      | .done v [] => (.ok v, { w with ff := r.2 })
      | .done _ es => (.err (errText name es), { w with ff := r.2 })
      | .diverges => (.diverge, w)

/-- The error text shown for a file that failed to parse (check.go:33-39,
format.go:38-45, lint.go:40-46): the farthest failure is added unless the error
already contains it.  In `check` and `lint` the file name is then put in front once
more (`twice`). -/
def fileError (twice : Bool) (name err : Bytes) (ff : List FF) : Bytes :=
  let r := getFarthestFailure ff
  if r.2 && !containsSub err r.1 then
    let e := name ++ b!": " ++ err ++ b!"\n" ++ r.1
    if twice then name ++ b!": " ++ e else e
  else name ++ b!": " ++ err

/-- Outcome of a command: it returns (with the list of error texts, empty = nil), it
crashes with a nil dereference, or it does not return. -/
inductive CmdRes
  | ret (errs : List Bytes)
  | crash
  | hang
deriving DecidableEq, Repr

/-! ### check -/

/-- The loop of `Check.Run` (internal/app/check/check.go:23-44).  After a failing
`os.Stat` the loop does not `continue`: `stat.IsDir()` is called on a nil
interface. -/
def checkLoop : List Bytes → List Bytes → World → CmdRes × World
  | [], errs, w => (.ret errs, w)
  | name :: args, errs, w =>
    match w.fs name with
    | .missing _ => (.crash, w)
    | .dir => checkLoop args errs w
    | .file _ _ =>
      match parseFile { ignoreComments := true } name w with
      | (.ok _, w') => checkLoop args errs w'
      | (.err e, w') => checkLoop args (errs ++ [fileError true name e w'.ff]) w'
      | (.diverge, w') => (.hang, w')

/-- `Check.Run` (internal/app/check/check.go:20-50). -/
def checkRun (args : List Bytes) (w : World) : CmdRes × World := checkLoop args [] w

/-! ### format -/

/-- `fmt.Fprint(out, c)` / `c.(ast.Config)`: the printed configuration; `none` if the
value is not an `ast.Config` (the type assertion would panic). -/
def Val.confStr : Val → Option Bytes
  | .config c => some c.str
  | _ => none

/-- The function literals of `Format.Run` and `Lint.Run` that rewrite a file
(internal/app/format/format.go:48-62, internal/app/lint/lint.go:87-99): `os.Create`, which truncates,
then `f.WriteString`.  The result is the error text, if any. -/
def rewrite (name text : Bytes) (acc : Access) (w : World) : Option Bytes × World :=
  match acc.createErr with
  | some e => (some (b!"failed to open file for writting with automatically fixed ID: " ++ e), w)
  | none =>
    let w := w.effect (.truncate name)
    match acc.writeErr with
    | some (n, e) =>
      (some (b!"failed to write file with automatically fixed ID: " ++ e),
       w.effect (.write name (text.take n)))
    | none => (none, w.effect (.write name text))

/-- `Format.Run` (internal/app/format/format.go:27-73).  (That the value is an `ast.Config` is C13; the
crash branch is never taken.) -/
def formatRun (writeToSource : Bool) : List Bytes → World → CmdRes × World
  | [], w => (.ret [], w)
  | name :: args, w =>
    match w.fs name with
    | .missing e => (.ret [name ++ b!": " ++ e], w)
    | .dir => formatRun writeToSource args w
    | .file _ acc =>
      match parseFile {} name w with
      | (.diverge, w') => (.hang, w')
      | (.err e, w') => (.ret [fileError false name e w'.ff], w')
      | (.ok v, w') =>
        match v.confStr with
        | none => (.crash, w')
        | some text =>
          if writeToSource then
            match rewrite name text acc w' with
            | (some e, w'') => (.ret [e], w'')
            | (none, w'') => formatRun writeToSource args w''
          else formatRun writeToSource args { w' with out := w'.out ++ text }

/-! ### lint -/

/-- `validator` (internal/app/lint/lint.go:112-119); the set `allIDs` is a list. -/
structure Validator where
  count : Nat
  noIDs : List Bytes
  autoFix : Bool
  changed : Bool
  duplicateIDs : List Bytes
  allIDs : List Bytes
deriving DecidableEq, Repr

/-- `Plugin.Pos` (ast/ast.go:34-36). -/
def Plugin.start : Plugin → Pos
  | .mk p _ _ _ _ => p

/-- `fmt.Sprintf("%s: %s", pos, name)` (internal/app/lint/lint.go:135, 141). -/
def pluginRef (p : Plugin) : Bytes := posStr p.start ++ b!": " ++ p.name

/-- The plugin with the generated id attribute (internal/app/lint/lint.go:129-132);
`ast.NewStringAttribute` (ast/ast.go:415-421) leaves the position zero. -/
def addID (p : Plugin) (count : Nat) : Plugin :=
  match p with
  | .mk st n as c f =>
    .mk st n (as ++ [.str ⟨Pos.zero, b!"id", n ++ b!"-" ++ natToBytes count, .doubleQuoted, []⟩]) c f

/-- `validator.walk` (internal/app/lint/lint.go:121-145); `c.Plugin()` of a nil element
is a nil pointer, on which `ID` panics. -/
def walk : Callback Validator := fun v c =>
  let v := { v with count := v.count + 1 }
  match c.plugin with
  | none => none
  | some p =>
    match p.id with
    | .id i =>
      if v.allIDs.contains i then
        some ({ v with duplicateIDs := v.duplicateIDs ++ [pluginRef p] }, [])
      else some ({ v with allIDs := i :: v.allIDs }, [])
    | _ =>
      if v.autoFix then
        some ({ v with changed := true }, [.replace (.pluginPtr (addID p v.count))])
      else some ({ v with noIDs := v.noIDs ++ [pluginRef p] }, [])

mutual
/-- Size of a tree, an upper bound for the fuel of a traversal. -/
def BOP.size : BOP → Nat
  | .nil => 1
  | .plugin _ => 1
  | .pluginPtr _ => 1
  | .branch _ _ block _ _ elifs (.mk _ eblock _ _) =>
    1 + bopsSize block + elifsSize elifs + bopsSize eblock + 4
/-- See `BOP.size`. -/
def bopsSize : List BOP → Nat
  | [] => 1
  | b :: bs => 1 + b.size + bopsSize bs
/-- See `BOP.size`. -/
def elifsSize : List Elif → Nat
  | [] => 1
  | .mk _ _ block _ _ :: es => 2 + bopsSize block + elifsSize es
end

/-- The three section loops of `Lint.Run` (internal/app/lint/lint.go:59-67).  The
result of `ApplyPlugins` is thrown away there; since `walk` only replaces, the slice
is updated in place (see `Verif.Model.Heap`), so the section holds the result. -/
def lintSections (v : Validator) : List Section → Option (Validator × List Section)
  | [] => some (v, [])
  | s :: ss =>
    match applyPlugins walk (bopsSize s.bops + 1) v s.bops with
    | .done v' bops' =>
      match lintSections v' ss with
      | some (v'', ss') => some (v'', { s with bops := bops' } :: ss')
      | none => none
    | _ => none

/-- The walk over a whole configuration (internal/app/lint/lint.go:54-67). -/
def lintConfig (autoFix : Bool) (c : Config) : Option (Validator × Config) :=
  match lintSections ⟨0, [], autoFix, false, [], []⟩ c.input with
  | none => none
  | some (v1, is) =>
    match lintSections v1 c.filter with
    | none => none
    | some (v2, fs) =>
      match lintSections v2 c.output with
      | none => none
      | some (v3, os) => some (v3, { c with input := is, filter := fs, output := os })

/-- The report on missing ids (internal/app/lint/lint.go:69-76) or duplicate ids
(:77-84). -/
def idReport (name what : Bytes) (l : List Bytes) : List Bytes :=
  if l.isEmpty then [] else [name ++ what ++ l.flatMap (· ++ b!"\n")]

/-- `Lint.Run` (internal/app/lint/lint.go:27-110), the loop. -/
def lintLoop (autoFix : Bool) : List Bytes → List Bytes → World → CmdRes × World
  | [], errs, w => (.ret errs, w)
  | name :: args, errs, w =>
    match w.fs name with
    | .missing _ => (.crash, w)
    | .dir => lintLoop autoFix args errs w
    | .file _ acc =>
      match parseFile { excWarn := true } name w with
      | (.diverge, w') => (.hang, w')
      | (.err e, w') => lintLoop autoFix args (errs ++ [fileError true name e w'.ff]) w'
      | (.ok (.config c), w') =>
        match lintConfig autoFix c with
        | none => (.crash, w')
        | some (v, c') =>
          let errs := errs ++ c.warnings ++ idReport name b!": no IDs found for:\n" v.noIDs ++
            idReport name b!": duplicate IDs found in:\n" v.duplicateIDs
          if autoFix && v.changed then
            match rewrite name c'.str acc w' with
            | (some e, w'') => lintLoop autoFix args (errs ++ [e]) w''
            | (none, w'') => lintLoop autoFix args errs w''
          else lintLoop autoFix args errs w'
      | (.ok _, w') => (.crash, w')

/-- `Lint.Run` (internal/app/lint/lint.go:27-110). -/
def lintRun (autoFix : Bool) (args : List Bytes) (w : World) : CmdRes × World :=
  lintLoop autoFix args [] w

end Verif
