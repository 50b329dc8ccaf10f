import Verif.Model.App
/-
The program `mustache`: cmd/mustache/main.go and internal/app/{app,check,format,lint}.go, which wire the
three commands to the command line, the standard streams and the exit status.

`cobra` (the splitting of the command line into a command, its flags and its arguments; the texts it prints
for `--help`, `--version` and for no command at all) and `viper` (reading `mustache.*` configuration files)
are dependencies and not modelled: what they find out is the input.
-/
namespace Verif

/-- What `cobra` makes of a command line (internal/app/app.go:51-69, check.go:9-18, format.go:9-20,
lint.go:9-20): it rejects it with an error; it prints a text itself (help, version) and is done; or one of
the three commands is run with its flag and its arguments. -/
inductive CommandLine
  | rejected (err : Bytes)
  | text (out : Bytes)
  | check (args : List Bytes)
  | format (writeToSource : Bool) (args : List Bytes)
  | lint (autoFixID : Bool) (args : List Bytes)

/-- How the process ends. -/
inductive Ending
  /-- `os.Exit(code)` (cmd/mustache/main.go:13), with what has been written to the standard error -/
  | exited (code : Nat) (stderr : Bytes)
  /-- an uncaught panic: the Go run time writes a report to the standard error and exits with 2 -/
  | panicked
  /-- the process does not end -/
  | runs
deriving DecidableEq, Repr

/-- The exit status the caller of the process sees; `none` while the process runs. -/
def Ending.status : Ending → Option Nat
  | .exited code _ => some code
  | .panicked => some 2
  | .runs => none

/-- `exitCodeNormal`, `exitCodeError` (internal/app/app.go:13-16). -/
def exitCodeNormal : Nat := 0
/-- See `exitCodeNormal`. -/
def exitCodeError : Nat := 1

/-- The end of `Execute` (internal/app/app.go:43-48): the error of the command, if any, is written to the
standard error and the status is 1, otherwise it is 0.  `errText` is `err.Error()` for the entries of the
command: `MultiErr` for `check` and `lint` (check.go:45-48, lint.go:104-107 of internal/app/check and
internal/app/lint), the error itself for `format`. -/
def endWith (errText : List Bytes → Bytes) : CmdRes → Ending
  | .ret [] => .exited exitCodeNormal []
  | .ret es => .exited exitCodeError (b!"error: " ++ errText es)
  | .crash => .panicked
  | .hang => .runs

/-- `Execute` (internal/app/app.go:18-49) and `main` (cmd/mustache/main.go:11-14).  `conf` is the error of
`viper.ReadInConfig`, unless it is `ConfigFileNotFoundError`.  What is written to the standard output is in
the world.  `runCheck` (internal/app/check.go:20-23), `runFormat` (internal/app/format.go:22-27), `runLint`
(internal/app/lint.go:22-27) pass the flag and the arguments on. -/
def execute (conf : Option Bytes) (cl : CommandLine) (w : World) : Ending × World :=
  match conf with
  | some e => (.exited exitCodeError (b!"error processing config file: " ++ e), w)
  | none =>
    match cl with
    | .rejected e => (.exited exitCodeError (b!"error: " ++ e), w)
    | .text t => (.exited exitCodeNormal [], { w with out := w.out ++ t })
    | .check args => ((endWith multiErr (checkRun args w).1), (checkRun args w).2)
    | .format ws args => ((endWith List.flatten (formatRun ws args w).1), (formatRun ws args w).2)
    | .lint fix args => ((endWith multiErr (lintRun fix args w).1), (lintRun fix args w).2)

end Verif
