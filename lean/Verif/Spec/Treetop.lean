import Verif.Model.Bytes
/-
The original grammar of Logstash (grammar.treetop in the repository) as a parsing expression
grammar, with the standard semantics of such grammars, and the list of changes this project made
to it.  Nothing of the model of the parser is used here.
-/
namespace Verif.Spec.Treetop

/-- `c!"text"` is the list of the characters of a string literal. -/
macro:max "c!" s:str : term => do
  let elems ← s.getString.toList.mapM fun c => `($(Lean.Syntax.mkCharLit c))
  let arr := elems.toArray
  `(([$arr,*] : List Char))

/-- Parsing expressions over a set `R` of rule names. -/
inductive PEx (R : Type) : Type
  /-- a string -/
  | lit (s : List Char)
  /-- a character class `[...]`, or `[^...]` if `neg`: single characters and ranges -/
  | cls (neg : Bool) (chars : List Char) (ranges : List (Char × Char))
  /-- any character: `.` -/
  | any
  | seq (a b : PEx R)
  /-- ordered choice: `a / b` -/
  | alt (a b : PEx R)
  | star (a : PEx R)
  | plus (a : PEx R)
  | opt (a : PEx R)
  /-- `!a` -/
  | not (a : PEx R)
  | ref (r : R)

@[inherit_doc] scoped infixr:65 " ;; " => PEx.seq
@[inherit_doc] scoped infixr:60 " // " => PEx.alt

/-- Is the character in the class? -/
def inClass (neg : Bool) (chars : List Char) (ranges : List (Char × Char)) (c : Char) : Bool :=
  (chars.contains c || ranges.any fun r => r.1.toNat ≤ c.toNat && c.toNat ≤ r.2.toNat) != neg

/-- The semantics of parsing expressions: `Matches G e s (some t)` says that `e` matches the
beginning of `s` and `t` is what follows; `Matches G e s none` says that `e` does not match. -/
inductive Matches {R : Type} (G : R → PEx R) : PEx R → List Char → Option (List Char) → Prop
  | lit {s t} : Matches G (.lit s) (s ++ t) (some t)
  | litFail {s t} : ¬ s <+: t → Matches G (.lit s) t none
  | cls {neg cs rs c t} : inClass neg cs rs c = true → Matches G (.cls neg cs rs) (c :: t) (some t)
  | clsFail {neg cs rs c t} : inClass neg cs rs c = false → Matches G (.cls neg cs rs) (c :: t) none
  | clsEnd {neg cs rs} : Matches G (.cls neg cs rs) [] none
  | any {c t} : Matches G .any (c :: t) (some t)
  | anyEnd : Matches G .any [] none
  | seq {a b s t r} : Matches G a s (some t) → Matches G b t r → Matches G (.seq a b) s r
  | seqFail {a b s} : Matches G a s none → Matches G (.seq a b) s none
  | altFirst {a b s t} : Matches G a s (some t) → Matches G (.alt a b) s (some t)
  | altSecond {a b s r} : Matches G a s none → Matches G b s r → Matches G (.alt a b) s r
  | starEnd {a s} : Matches G a s none → Matches G (.star a) s (some s)
  | starMore {a s t r} : Matches G a s (some t) → Matches G (.star a) t r → Matches G (.star a) s r
  | plus {a s t r} : Matches G a s (some t) → Matches G (.star a) t r → Matches G (.plus a) s r
  | plusFail {a s} : Matches G a s none → Matches G (.plus a) s none
  | opt {a s t} : Matches G a s (some t) → Matches G (.opt a) s (some t)
  | optNone {a s} : Matches G a s none → Matches G (.opt a) s (some s)
  | not {a s} : Matches G a s none → Matches G (.not a) s (some s)
  | notFail {a s t} : Matches G a s (some t) → Matches G (.not a) s none
  | ref {r s x} : Matches G (G r) s x → Matches G (.ref r) s x

/-- The rules of grammar.treetop (`gap` is `_`, `attr` is `attribute`, `ifBlock` and `elseBlock` are `if` and `else`). -/
inductive TRule
  | config | comment | gap | whitespace | pluginSection | branchOrPlugin | pluginType | plugin | name
  | attr | value | bareword | doubleQuotedString | singleQuotedString | string | regexp | number
  | array | hash | hashentries | hashentry | branch | ifBlock | elseIf | elseBlock | condition
  | expression | negativeExpression | inExpression | notInExpression | inOperator | notInOperator
  | rvalue | methodCall | method | compareExpression | compareOperator | regexpExpression
  | regexpOperator | booleanOperator | selector | selectorElement
deriving DecidableEq, Repr

open PEx TRule

/-- A string. -/
abbrev tok (s : List Char) : PEx TRule := .lit s
/-- The rule `_`. -/
abbrev g : PEx TRule := .ref .gap
/-- Characters of a class `[A-Za-z…]`. -/
abbrev AZ : List (Char × Char) := [('A', 'Z'), ('a', 'z')]

/-- grammar.treetop, rule by rule (the rules `plugins` and `array_value`, which no other rule
uses, are left out). -/
def treetop : TRule → PEx TRule
  | .config => g ;; .ref pluginSection ;; g ;; .star (g ;; .ref pluginSection) ;; g
  | .comment => .plus (.opt (.ref whitespace) ;; tok c!"#" ;; .star (.cls true ['\r', '\n'] []) ;;
      .opt (tok c!"\r") ;; tok c!"\n")
  | .gap => .star (.ref comment // .ref whitespace)
  | .whitespace => .plus (.cls false [' ', '\t', '\r', '\n'] [])
  | .pluginSection => .ref pluginType ;; g ;; tok c!"{" ;; g ;; .star (.ref branchOrPlugin ;; g) ;;
      tok c!"}"
  | .branchOrPlugin => .ref branch // .ref plugin
  | .pluginType => tok c!"input" // tok c!"filter" // tok c!"output"
  | .plugin => .ref name ;; g ;; tok c!"{" ;; g ;;
      .opt (.ref attr ;; .star (.ref whitespace ;; g ;; .ref attr)) ;; g ;; tok c!"}"
  | .name => .plus (.cls false ['_', '-'] (AZ ++ [('0', '9')])) // .ref string
  | .attr => .ref name ;; g ;; tok c!"=>" ;; g ;; .ref value
  | .value => .ref plugin // .ref bareword // .ref string // .ref number // .ref array // .ref hash
  | .bareword => .cls false ['_'] AZ ;; .plus (.cls false ['_'] (AZ ++ [('0', '9')]))
  | .doubleQuotedString => tok c!"\"" ;; .star (tok c!"\\\"" // (.not (tok c!"\"") ;; .any)) ;; tok c!"\""
  | .singleQuotedString => tok c!"'" ;; .star (tok c!"\\'" // (.not (tok c!"'") ;; .any)) ;; tok c!"'"
  | .string => .ref doubleQuotedString // .ref singleQuotedString
  | .regexp => tok c!"/" ;; .star (tok c!"\\/" // (.not (tok c!"/") ;; .any)) ;; tok c!"/"
  | .number => .opt (tok c!"-") ;; .plus (.cls false [] [('0', '9')]) ;;
      .opt (tok c!"." ;; .star (.cls false [] [('0', '9')]))
  | .array => tok c!"[" ;; g ;; .opt (.ref value ;; .star (g ;; tok c!"," ;; g ;; .ref value)) ;; g ;;
      tok c!"]"
  | .hash => tok c!"{" ;; g ;; .opt (.ref hashentries) ;; g ;; tok c!"}"
  | .hashentries => .ref hashentry ;; .star (.ref whitespace ;; .ref hashentry)
  | .hashentry => (.ref number // .ref bareword // .ref string) ;; g ;; tok c!"=>" ;; g ;; .ref value
  | .branch => .ref ifBlock ;; .star (g ;; .ref elseIf) ;; .opt (g ;; .ref elseBlock)
  | .ifBlock => tok c!"if" ;; g ;; .ref condition ;; g ;; tok c!"{" ;; g ;;
      .star (.ref branchOrPlugin ;; g) ;; tok c!"}"
  | .elseIf => tok c!"else" ;; g ;; tok c!"if" ;; g ;; .ref condition ;; g ;; tok c!"{" ;; g ;;
      .star (.ref branchOrPlugin ;; g) ;; tok c!"}"
  | .elseBlock => tok c!"else" ;; g ;; tok c!"{" ;; g ;; .star (.ref branchOrPlugin ;; g) ;; tok c!"}"
  | .condition => .ref expression ;; .star (g ;; .ref booleanOperator ;; g ;; .ref expression)
  | .expression => (tok c!"(" ;; g ;; .ref condition ;; g ;; tok c!")") // .ref negativeExpression //
      .ref inExpression // .ref notInExpression // .ref compareExpression // .ref regexpExpression //
      .ref rvalue
  | .negativeExpression => (tok c!"!" ;; g ;; tok c!"(" ;; g ;; .ref condition ;; g ;; tok c!")") //
      (tok c!"!" ;; g ;; .ref selector)
  | .inExpression => .ref rvalue ;; g ;; .ref inOperator ;; g ;; .ref rvalue
  | .notInExpression => .ref rvalue ;; g ;; .ref notInOperator ;; g ;; .ref rvalue
  | .inOperator => tok c!"in"
  | .notInOperator => tok c!"not " ;; g ;; tok c!"in"
  | .rvalue => .ref string // .ref number // .ref selector // .ref array // .ref methodCall // .ref regexp
  | .methodCall => .ref method ;; g ;; tok c!"(" ;; g ;;
      .opt (.ref rvalue ;; .star (g ;; tok c!"," ;; g ;; .ref rvalue)) ;; g ;; tok c!")"
  | .method => .ref bareword
  | .compareExpression => .ref rvalue ;; g ;; .ref compareOperator ;; g ;; .ref rvalue
  | .compareOperator => tok c!"==" // tok c!"!=" // tok c!"<=" // tok c!">=" // tok c!"<" // tok c!">"
  | .regexpExpression => .ref rvalue ;; g ;; .ref regexpOperator ;; g ;; (.ref string // .ref regexp)
  | .regexpOperator => tok c!"=~" // tok c!"!~"
  | .booleanOperator => tok c!"and" // tok c!"or" // tok c!"xor" // tok c!"nand"
  | .selector => .plus (.ref selectorElement)
  | .selectorElement => tok c!"[" ;; .plus (.cls true [']', ','] []) ;; tok c!"]"

/-- The grammar with the changes of this project: a comment may be ended by the end of the file; a
comment may stand between two entries of a hash; there are no method calls; a field name in a
reference `[…]` contains no `[`. -/
def changed : TRule → PEx TRule
  | .comment => .plus (.opt (.ref whitespace) ;; tok c!"#" ;; .star (.cls true ['\r', '\n'] []) ;;
      .opt (tok c!"\r") ;; (tok c!"\n" // .not .any))
  | .hashentries => .ref hashentry ;; .star (.ref whitespace ;; g ;; .ref hashentry)
  | .rvalue => .ref string // .ref number // .ref selector // .ref array // .ref regexp
  | .selectorElement => tok c!"[" ;; .plus (.cls true [']', '[', ','] []) ;; tok c!"]"
  | r => treetop r

/-- A text is accepted by a version of the grammar if `config` matches all of it. -/
def Accepts (G : TRule → PEx TRule) (text : List Char) : Prop :=
  Matches G (.ref .config) text (some [])

/-- A text that consists of white space and comments only; the project accepts these too. -/
def Blank (G : TRule → PEx TRule) (text : List Char) : Prop :=
  Matches G (.ref .gap) text (some [])

/-- A text without the features that were changed: without comments, without parentheses, and without
an opening bracket that is followed by another one before the next `]` or `,`. -/
structure Untouched (text : List Char) : Prop where
  comments : '#' ∉ text
  methods : '(' ∉ text
  references : ∀ u v w, text = u ++ '[' :: (v ++ '[' :: w) → ']' ∈ v ∨ ',' ∈ v

end Verif.Spec.Treetop
