import Verif.Model.Parse
/-
The messages `Parse` can report (C55): for each message, the grammar rules that may report it.
The words are those of logstash_config.peg and logstash_config_helper.go.
-/
namespace Verif.Spec
open Verif

/-- The messages about a missing closing delimiter, by rule. -/
def closings : Rule → List Bytes
  | .plugin => [b!"expect closing curly bracket", b!"expect closing double quotes (\")", b!"expect closing single quote (')"]
  | .hash | .ifCond | .elseIf | .elseCond => [b!"expect closing curly bracket"]
  | .array => [b!"expect closing square bracket"]
  | .attribute | .value | .hashentry => [b!"expect closing double quotes (\")", b!"expect closing single quote (')"]
  | .rvalue | .regexpExpression => [b!"expect closing double quotes (\")", b!"expect closing single quote (')",
      b!"expect closing slash (/) for regexp"]
  | .negativeExpression => [b!"expect closing parenthesis"]
  | _ => []

/-- The messages of the semantic checks, by rule: a number too large for a float64, a plugin as an
element of an array, a plugin as a value in a hash. -/
def semantic : Rule → List Bytes
  | .value | .rvalue => [b!"strconv.ParseFloat: value out of range"]
  | .hashentry => [b!"strconv.ParseFloat: value out of range", b!"interface conversion"]
  | .array => [b!"Unsupported attribute type", b!"Argument is not an attribute"]
  | _ => []

/-- The messages of `GetFarthestFailure`. -/
def expectations : List Bytes :=
  [b!"expect plugin type (input, filter, output)", b!"expect closing curly bracket", b!"invalid value",
    b!"expect closing square bracket", b!"expect compare operator (==, !=, <=, >=, <, >)",
    b!"expect regexp comparison operator (=~, !~)", b!"expect boolean operator (and, or, xor, nand)",
    b!"expect in operator (in)", b!"expect not in operator (not in)", b!"invalid value for expression",
    b!"expect closing double quotes (\")", b!"expect closing single quote (')",
    b!"expect closing slash (/) for regexp", b!"expect closing parenthesis"]

/-- The messages the code of a rule may raise while the input is being matched, with or without a limit on the
number of expressions. -/
inductive Raises (lim : Bool) : Option Rule → Bytes → Prop
  /-- not UTF-8 (anywhere) -/
  | encoding (r : Option Rule) : Raises lim r b!"invalid encoding"
  /-- the limit of `MaxExpressions` -/
  | limit (r : Option Rule) : lim = true → Raises lim r b!"max number of expresssions parsed"
  /-- a delimiter is not closed -/
  | closing (r : Rule) (c m : Bytes) : c ∈ closings r → b!"Parsing error at pos " <+: m → b!"-> " ++ c ++ b!"\n" <:+ m →
      Raises lim (some r) m
  | semantic (r : Rule) (m : Bytes) : m ∈ semantic r → Raises lim (some r) m

/-- The messages a rule may report; `none` is the parser itself. -/
inductive Reports : Option Rule → Bytes → Prop
  /-- not UTF-8 (anywhere) -/
  | encoding (r : Option Rule) : Reports r b!"invalid encoding"
  /-- the limit of `MaxExpressions` -/
  | limit (r : Option Rule) : Reports r b!"max number of expresssions parsed"
  /-- the input does not match -/
  | noMatch (m : Bytes) : b!"no match found, expected: " <+: m → Reports none m
  /-- a delimiter is not closed -/
  | closing (r : Rule) (c m : Bytes) : c ∈ closings r → b!"Parsing error at pos " <+: m → b!"-> " ++ c ++ b!"\n" <:+ m →
      Reports (some r) m
  | semantic (r : Rule) (m : Bytes) : m ∈ semantic r → Reports (some r) m

end Verif.Spec
