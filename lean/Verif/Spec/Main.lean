import Verif.Spec.App
import Verif.Model.Main
/-
When the commands of `mustache` are supposed to succeed.
-/
namespace Verif.Spec
open Verif

/-- `lint` has nothing to say about a path: it is a directory, or a file that can be read, parses without
warnings, in which every plugin has an id and no id occurs twice. -/
def LintClean (fs : FS) (name : Bytes) : Prop :=
  match fs name with
  | .missing _ => False
  | .dir => True
  | .file content acc => acc.openErr = none ∧ ∃ c, lintConfigOf content = some c ∧ c.warnings = [] ∧
      (∀ p ∈ plugins c, ∃ i, idOf p = some i) ∧ ((plugins c).map idOf).Nodup

/-- `lint --auto-fix-id` has nothing to say about a path: it is a directory, or a file that can be read, parses
without warnings, in which no two plugins have the same id, and which can be written if some plugin has none. -/
def FixClean (fs : FS) (name : Bytes) : Prop :=
  match fs name with
  | .missing _ => False
  | .dir => True
  | .file content acc => acc.openErr = none ∧ ∃ c, lintConfigOf content = some c ∧ c.warnings = [] ∧
      ((plugins c).filterMap idOf).Nodup ∧
      ((∃ p ∈ plugins c, idOf p = none) → acc.createErr = none ∧ acc.writeErr = none)

/-- `format -w` can process a path: it is a directory, or a file that can be read, parses and can be written. -/
def Rewritable (fs : FS) (name : Bytes) : Prop :=
  match fs name with
  | .missing _ => False
  | .dir => True
  | .file content acc => acc.openErr = none ∧ valid content = true ∧ acc.createErr = none ∧ acc.writeErr = none

/-- The paths of a command. -/
def _root_.Verif.CommandLine.args : CommandLine → List Bytes
  | .rejected _ | .text _ => []
  | .check a | .format _ a | .lint _ a => a

end Verif.Spec
