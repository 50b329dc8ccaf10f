import Verif.Model.Print
/-
Error values (ast/errors.go).
-/
namespace Verif

/-- The error values the project distinguishes: an error without further structure, an
error wrapping another one for `errors.As`/`errors.Unwrap` (`fmt.Errorf("…%w")`,
`errors.Wrap`), and `notFoundError` (ast/errors.go:15-17), which has no `Unwrap`
method. -/
inductive GoErr
  | plain (msg : Bytes)
  | wrap (msg : Bytes) (inner : GoErr)
  | notFound (inner : GoErr)
deriving DecidableEq, Repr

/-- `Error()` (ast/errors.go:40-42 for `notFoundError`). -/
def GoErr.text : GoErr → Bytes
  | .plain m => m
  | .wrap m _ => m
  | .notFound e => b!"not found: " ++ e.text

/-- `NewNotFoundError` (ast/errors.go:20-28); `none` is the nil error. -/
def newNotFoundError : Option GoErr → Option GoErr
  | none => none
  | some e => some (.notFound e)

/-- `errors.As(e, &notFoundErr)`: walk the `Unwrap` chain until an error implements
`NotFounder`. -/
def GoErr.asNotFounder : GoErr → Bool
  | .notFound _ => true
  | .wrap _ e => e.asNotFounder
  | .plain _ => false

/-- `IsNotFoundError` (ast/errors.go:63-66); `errors.As(nil, …)` is false. -/
def isNotFoundError : Option GoErr → Bool
  | none => false
  | some e => e.asNotFounder

/-- The error returned by `Plugin.ID` (ast/ast.go:303-315), as an error value. -/
def Plugin.idErr (p : Plugin) : Option GoErr :=
  match idLoop p.attrs with
  | some (.id _) => none
  | some _ => some (.plain b!"attribut id is not of type string attribute")
  | none => newNotFoundError
      (some (.plain (b!"plugin " ++ p.name ++ b!" does not contain an id attribute")))

end Verif
