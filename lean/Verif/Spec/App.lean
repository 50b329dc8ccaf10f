import Verif.Model.App
import Verif.Spec.Traverse
/-
What the commands are supposed to do: which files fail, what is printed for a file, which plugins
have no id or a duplicate one, which configuration `--auto-fix-id` produces, which file system states
a crash can leave behind.
-/
namespace Verif.Spec
open Verif

/-- `Parse` with default options returns a nil error for this content. -/
def valid (content : Bytes) : Bool := (parse {} [] content []).1.errs.isEmpty

/-- The configuration `Parse` with default options returns. -/
def configOf (content : Bytes) : Option Config :=
  match (parse {} [] content []).1 with
  | .done (.config c) [] => some c
  | _ => none

/-- The path cannot be processed: it does not exist, cannot be opened, or does not parse.
Directories are skipped and never fail. -/
def fails (fs : FS) (name : Bytes) : Bool :=
  match fs name with
  | .missing _ => true
  | .dir => false
  | .file content acc => acc.openErr.isSome || !valid content

/-- The path exists. -/
def present (fs : FS) (name : Bytes) : Bool :=
  match fs name with
  | .missing _ => false
  | _ => true

/-- Why a path fails: the text of the operating system's or the parser's error. -/
def failureText (fs : FS) (name : Bytes) : Bytes :=
  match fs name with
  | .missing e => e
  | .dir => []
  | .file content acc =>
    match acc.openErr with
    | some e => e
    | none => errText name (parse {} name content []).1.errs

/-- An entry of the error list describes the failure of a path: it starts with the path and contains
the text of the failure and, if the parser failed, its farthest-failure report. -/
def Describes (fs : FS) (name entry : Bytes) : Prop :=
  name ++ b!": " <+: entry ∧ failureText fs name <:+: entry ∧
  ∀ content acc, fs name = .file content acc → acc.openErr = none →
    (getFarthestFailure (parse {} name content []).2).1 <:+: entry

/-- What `format` prints for a path: the printed configuration; nothing for a directory. -/
def printed (fs : FS) (name : Bytes) : Bytes :=
  match fs name with
  | .file content _ => match configOf content with
    | some c => c.str
    | none => []
  | _ => []

/-! ### Plugins and their ids -/

mutual
/-- The plugins of an element in source order. -/
def pluginsOne : BOP → List Plugin
  | .nil => []
  | .plugin p => [p]
  | .pluginPtr p => [p]
  | .branch _ _ block _ _ elifs (.mk _ eblock _ _) =>
    pluginsList block ++ pluginsElifs elifs ++ pluginsList eblock
/-- The plugins of a block in source order. -/
def pluginsList : List BOP → List Plugin
  | [] => []
  | b :: bs => pluginsOne b ++ pluginsList bs
/-- The plugins of the else-if blocks in source order. -/
def pluginsElifs : List Elif → List Plugin
  | [] => []
  | .mk _ _ block _ _ :: es => pluginsList block ++ pluginsElifs es
end

/-- The plugins of some sections in source order. -/
def pluginsSections (ss : List Section) : List Plugin := ss.flatMap fun s => pluginsList s.bops

/-- All plugins of a configuration: those of the input sections, of the filter sections and of the
output sections, each in source order. -/
def plugins (c : Config) : List Plugin :=
  pluginsSections c.input ++ pluginsSections c.filter ++ pluginsSections c.output

/-- The plugin has an id: `ID` returns one. -/
def idOf (p : Plugin) : Option Bytes :=
  match p.id with
  | .id i => some i
  | _ => none

/-- The plugins without an id. -/
def withoutID (ps : List Plugin) : List Plugin := ps.filter fun p => (idOf p).isNone

/-- The plugins of `ps` whose id is also the id of a plugin before it (in `earlier` or in `ps`). -/
def repeatedID (earlier : List Plugin) : List Plugin → List Plugin
  | [] => []
  | p :: ps =>
    (if (idOf p).isSome ∧ ∃ q ∈ earlier, idOf q = idOf p then [p] else []) ++
      repeatedID (earlier ++ [p]) ps

/-- The configuration `Parse` with `ExceptionalCommentsWarning(true)` returns. -/
def lintConfigOf (content : Bytes) : Option Config :=
  match (parse { excWarn := true } [] content []).1 with
  | .done (.config c) [] => some c
  | _ => none

/-- One message listing some plugins, none if there is nothing to list. -/
def listing (name what : Bytes) (ps : List Plugin) : List Bytes :=
  if ps = [] then [] else
    [name ++ what ++ ps.flatMap fun p => posStr p.start ++ b!": " ++ p.name ++ b!"\n"]

/-- The entries `lint` reports for one path. -/
def LintReports (autoFix : Bool) (fs : FS) (name : Bytes) (entries : List Bytes) : Prop :=
  match fs name with
  | .missing _ => False
  | .dir => entries = []
  | .file content _ =>
    if fails fs name then ∃ e, entries = [e] ∧ Describes fs name e
    else ∃ c, lintConfigOf content = some c ∧
      entries = c.warnings ++
        (if autoFix then [] else listing name b!": no IDs found for:\n" (withoutID (plugins c))) ++
        listing name b!": duplicate IDs found in:\n" (repeatedID [] (plugins c))

/-! ### Giving ids -/

mutual
/-- Replace every plugin, given its ordinal number `k + 1`, `k + 2`, … in source order. -/
def numberOne (f : Nat → Plugin → BOP) (k : Nat) : BOP → BOP
  | .nil => .nil
  | .plugin p => f (k + 1) p
  | .pluginPtr p => f (k + 1) p
  | .branch st cond block cm ft elifs (.mk est eblock ecm eft) =>
    .branch st cond (numberList f k block) cm ft
      (numberElifs f (k + (pluginsList block).length) elifs)
      (.mk est (numberList f (k + (pluginsList block).length + (pluginsElifs elifs).length) eblock)
        ecm eft)
/-- See `numberOne`. -/
def numberList (f : Nat → Plugin → BOP) (k : Nat) : List BOP → List BOP
  | [] => []
  | b :: bs => numberOne f k b :: numberList f (k + (pluginsOne b).length) bs
/-- See `numberOne`. -/
def numberElifs (f : Nat → Plugin → BOP) (k : Nat) : List Elif → List Elif
  | [] => []
  | .mk st cond block cm ft :: es =>
    .mk st cond (numberList f k block) cm ft :: numberElifs f (k + (pluginsList block).length) es
end

/-- See `numberOne`. -/
def numberSections (f : Nat → Plugin → BOP) (k : Nat) : List Section → List Section
  | [] => []
  | s :: ss => { s with bops := numberList f k s.bops } ::
      numberSections f (k + (pluginsList s.bops).length) ss

/-- Replace every plugin of a configuration, given its ordinal number in the order of `plugins`. -/
def numberConfig (f : Nat → Plugin → BOP) (c : Config) : Config :=
  { c with
    input := numberSections f 0 c.input
    filter := numberSections f (pluginsSections c.input).length c.filter
    output := numberSections f
      ((pluginsSections c.input).length + (pluginsSections c.filter).length) c.output }

/-- The id made up for a plugin: its name, a dash and its number. -/
def madeUpID (k : Nat) (p : Plugin) : Bytes := p.name ++ b!"-" ++ natToBytes k

/-- The plugin with one more attribute at the end, `id => "…"`. -/
def appendID (i : Bytes) : Plugin → Plugin
  | .mk st n as c f => .mk st n (as ++ [.str ⟨Pos.zero, b!"id", i, .doubleQuoted, []⟩]) c f

/-- What `--auto-fix-id` makes of the plugin with number `k`. -/
def fixPlugin (k : Nat) (p : Plugin) : BOP :=
  match idOf p with
  | some _ => .plugin p
  | none => .pluginPtr (appendID (madeUpID k p) p)

/-- What `--auto-fix-id` makes of a configuration. -/
def fixIDs (c : Config) : Config := numberConfig fixPlugin c

/-! ### Effects and crashes -/

/-- The effects of a command that goes through its arguments in order and rewrites some of them in
place: each rewritten file exists at that time, has some `content` and is truncated and then filled
with `text` such that `new content text` (with a prefix of it if the operating system reports a write
error). -/
inductive Rewrites (new : Bytes → Bytes → Prop) : List Bytes → FS → List Effect → Prop
  | stop (args : List Bytes) (fs : FS) : Rewrites new args fs []
  | skip (name : Bytes) (args : List Bytes) (fs : FS) (es : List Effect) :
      Rewrites new args fs es → Rewrites new (name :: args) fs es
  | rewrite (name : Bytes) (args : List Bytes) (fs : FS) (es : List Effect)
      (content text part : Bytes) (acc : Access) :
      fs name = .file content acc → new content text → part <+: text →
      (acc.writeErr = none → part = text) →
      Rewrites new args ((fs.run (.truncate name)).run (.write name part)) es →
      Rewrites new (name :: args) fs (.truncate name :: .write name part :: es)

/-- `format -w` rewrites a file to its printed configuration. -/
def formatted (content text : Bytes) : Prop := ∃ c, configOf content = some c ∧ text = c.str

/-- `lint --auto-fix-id` rewrites a file that has a plugin without id to its printed configuration
with ids. -/
def autoFixed (content text : Bytes) : Prop :=
  ∃ c, configOf content = some c ∧ withoutID (plugins c) ≠ [] ∧ text = (fixIDs c).str

/-- The file system states a crash can leave behind while the effects `es` are performed one after
the other, starting from `fs`: a write may have been performed partially. -/
inductive CrashState : FS → List Effect → FS → Prop
  | now (fs : FS) (es : List Effect) : CrashState fs es fs
  | torn (fs : FS) (name data part : Bytes) (es : List Effect) (h : part <+: data) :
      CrashState fs (.write name data :: es) (fs.run (.write name part))
  | later (fs fs' : FS) (e : Effect) (es : List Effect) (h : CrashState (fs.run e) es fs') :
      CrashState fs (e :: es) fs'

end Verif.Spec
