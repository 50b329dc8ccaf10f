import Verif.Spec.App
import Verif.Spec.Printable
import Verif.Spec.Strip
/-
Sessions: several commands one after the other on the same files.
-/
namespace Verif.Spec
open Verif

/-- A command line that does not add ids (internal/app/check/check.go:20, internal/app/format/format.go:27,
internal/app/lint/lint.go:27). -/
inductive Command
  | check (args : List Bytes)
  | format (writeToSource : Bool) (args : List Bytes)
  | lint (args : List Bytes)

/-- The paths of a command. -/
def Command.args : Command → List Bytes
  | .check a | .format _ a | .lint a => a

/-- Run a command. -/
def Command.run : Command → World → CmdRes × World
  | .check a, w => checkRun a w
  | .format ws a, w => formatRun ws a w
  | .lint a, w => lintRun false a w

/-- Run commands one after the other: what each returned, and the world afterwards. -/
def session : List Command → World → List CmdRes × World
  | [], w => ([], w)
  | c :: cs, w => ((c.run w).1 :: (session cs (c.run w).2).1, (session cs (c.run w).2).2)

/-- A path that can be formatted: a directory, or a file that can be read and written and whose
configuration can be printed faithfully. -/
def Formattable (fs : FS) (name : Bytes) : Prop :=
  match fs name with
  | .missing _ => False
  | .dir => True
  | .file content acc => acc = {} ∧ ∃ c, configOf content = some c ∧ Printable c

/-- A path `lint --auto-fix-id` can give ids to: a directory, or a file that can be read and written, whose
configuration can be printed faithfully, in which the names of the plugins without an id fit between double
quotes and no plugin has an attribute `id` that is not a string. -/
def Fixable (fs : FS) (name : Bytes) : Prop :=
  match fs name with
  | .missing _ => False
  | .dir => True
  | .file content acc => acc = {} ∧ ∃ c, configOf content = some c ∧ Printable c ∧
      (∀ p ∈ withoutID (plugins c), QuotesEscaped 34 p.name) ∧ ∀ p ∈ plugins c, ∀ m, p.id ≠ .notString m

/-- A path in which every plugin has an id: a directory, or a readable file that parses and whose plugins all
have one. -/
def AllIDs (fs : FS) (name : Bytes) : Prop :=
  match fs name with
  | .missing _ => False
  | .dir => True
  | .file content acc => acc.openErr = none ∧ ∃ c, configOf content = some c ∧ withoutID (plugins c) = []

/-- The text of the configuration of a file; a file that does not parse stays as it is. -/
def formatOnce (content : Bytes) : Bytes :=
  match configOf content with
  | some c => c.str
  | none => content

/-- Formatted several times. -/
def reformat (content : Bytes) : Nat → Bytes
  | 0 => content
  | n + 1 => reformat (formatOnce content) n

/-- What the file system is after every file named in `names` has been formatted as often as it is named. -/
def reformattedFS (fs : FS) (names : List Bytes) : FS := fun m =>
  match fs m with
  | .file content acc => .file (reformat content (names.count m)) acc
  | x => x

/-- `n` runs of `format -w` with the same arguments. -/
def formatTimes (args : List Bytes) (n : Nat) (w : World) : List CmdRes × World :=
  session (List.replicate n (.format true args)) w

/-- What a session keeps of a path: missing paths and directories stay what they are, a file keeps its access rights and its
configuration, up to positions and comments. -/
def Kept (a b : Node) : Prop :=
  match a, b with
  | .missing e, .missing e' => e = e'
  | .dir, .dir => True
  | .file x acc, .file y acc' => acc = acc' ∧ (y = x ∨ ∃ c c', configOf x = some c ∧ configOf y = some c' ∧ skeleton c' = skeleton c)
  | _, _ => False

/-- The file system after ids have been given to the files named. -/
def fixedFS (fs : FS) (names : List Bytes) : FS := fun m =>
  match fs m with
  | .file content acc => if m ∈ names then
      match configOf content with
      | some c => if (withoutID (plugins c)).isEmpty then .file content acc else .file (fixIDs c).str acc
      | none => .file content acc
    else .file content acc
  | x => x

end Verif.Spec
