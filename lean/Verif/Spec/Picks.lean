import Verif.Model.Stats
import Verif.Spec.Attempts
/-
Which alternatives of the ordered choices match while a text is matched against the grammar (used by C71).

As in Spec/Attempts.lean this is the textbook reading of a parsing expression grammar, without values, positions, actions
or state.  It counts the expressions that are tried and lists, for every ordered choice that is decided, the alternative
that matched.
-/
namespace Verif.Spec
open Verif Stats

/-- An ordered choice was decided: for its alternative number `alt` (from 0), or because none of them matches. -/
structure Pick where
  choice : Place
  alt : Option Nat
deriving DecidableEq, Repr

/-- What is matched: an expression; the rest of the alternatives of a choice, or of the elements of a sequence, the first
of which has the number `i`; or an expression as often as it matches. -/
inductive Job
  | one (e : Ex)
  | alts (i : Nat) (es : List Ex)
  | elems (i : Nat) (es : List Ex)
  | many (e : Ex)

/-- `Picks k j b n l r`: matching `j`, which is found at the node `k` of the grammar, against the text `b` ends in `r`;
`n` expressions are tried on the way, and `l` are the choices that are decided, in order. -/
inductive Picks : Place → Job → Bytes → Nat → List Pick → Ends → Prop
  | action {k a e b n l r} : Picks (k.sub 0) (.one e) b n l r → Picks k (.one (.action a e)) b (n + 1) l r
  | labeled {k x e b n l r} : Picks (k.sub 0) (.one e) b n l r → Picks k (.one (.labeled x e)) b (n + 1) l r
  | ref {k x b n l r} : Picks ⟨x, []⟩ (.one (gram x)) b n l r → Picks k (.one (.ref x)) b (n + 1) l r
  | state {k c b} : Picks k (.one (.state c)) b 1 [] (.ok b)
  | initParser {k b} : Picks k (.one (.andCode .initParser)) b 1 [] (.ok b)
  | pushError {k m b} : Picks k (.one (.andCode (.pushError m))) b 1 [] .fail
  | fatalError {k m b} : Picks k (.one (.andCode (.fatalError m))) b 1 [] .fatal
  | any {k b} : b ≠ [] → Picks k (.one .any) b 1 [] (.ok (tailChar b))
  | anyEnd {k} : Picks k (.one .any) [] 1 [] .fail
  | cls {k x i c g b} : b ≠ [] → InClass i c g (decodeRune b).1 → Picks k (.one (.cls x i c g)) b 1 [] (.ok (tailChar b))
  | clsNo {k x i c g b} : b = [] ∨ ¬ InClass i c g (decodeRune b).1 → Picks k (.one (.cls x i c g)) b 1 [] .fail
  | lit {k v b b'} : past v b = some b' → Picks k (.one (.lit v)) b 1 [] (.ok b')
  | litNo {k v b} : past v b = none → Picks k (.one (.lit v)) b 1 [] .fail
  | not {k e b n l b'} : Picks (k.sub 0) (.one e) b n l (.ok b') → Picks k (.one (.not e)) b (n + 1) l .fail
  | notNo {k e b n l} : Picks (k.sub 0) (.one e) b n l .fail → Picks k (.one (.not e)) b (n + 1) l (.ok b)
  | notFatal {k e b n l} : Picks (k.sub 0) (.one e) b n l .fatal → Picks k (.one (.not e)) b (n + 1) l .fatal
  | opt {k e b n l r} : r ≠ .fail → Picks (k.sub 0) (.one e) b n l r → Picks k (.one (.opt e)) b (n + 1) l r
  | optNo {k e b n l} : Picks (k.sub 0) (.one e) b n l .fail → Picks k (.one (.opt e)) b (n + 1) l (.ok b)
  | choice {k es b n l r} : Picks k (.alts 0 es) b n l r → Picks k (.one (.choice es)) b (n + 1) l r
  | seq {k es b n l r} : Picks k (.elems 0 es) b n l r → Picks k (.one (.seq es)) b (n + 1) l r
  | star {k e b n l r} : Picks (k.sub 0) (.many e) b n l r → Picks k (.one (.star e)) b (n + 1) l r
  | plusNo {k e b n l r} : (∀ b', r ≠ .ok b') → Picks (k.sub 0) (.one e) b n l r → Picks k (.one (.plus e)) b (n + 1) l r
  | plus {k e b n l b' n' l' r} : Picks (k.sub 0) (.one e) b n l (.ok b') → Picks (k.sub 0) (.many e) b' n' l' r →
      Picks k (.one (.plus e)) b (n + n' + 1) (l ++ l') r
  /-- no alternative matches -/
  | altsNone {k i b} : Picks k (.alts i []) b 0 [⟨k, none⟩] .fail
  /-- alternative number `i` matches -/
  | altsThis {k i e es b n l b'} : Picks (k.sub i) (.one e) b n l (.ok b') →
      Picks k (.alts i (e :: es)) b n (l ++ [⟨k, some i⟩]) (.ok b')
  | altsFatal {k i e es b n l} : Picks (k.sub i) (.one e) b n l .fatal → Picks k (.alts i (e :: es)) b n l .fatal
  | altsNext {k i e es b n l n' l' r} : Picks (k.sub i) (.one e) b n l .fail → Picks k (.alts (i + 1) es) b n' l' r →
      Picks k (.alts i (e :: es)) b (n + n') (l ++ l') r
  | elemsNil {k i b} : Picks k (.elems i []) b 0 [] (.ok b)
  | elemsNo {k i e es b n l r} : (∀ b', r ≠ .ok b') → Picks (k.sub i) (.one e) b n l r → Picks k (.elems i (e :: es)) b n l r
  | elems {k i e es b n l b' n' l' r} : Picks (k.sub i) (.one e) b n l (.ok b') → Picks k (.elems (i + 1) es) b' n' l' r →
      Picks k (.elems i (e :: es)) b (n + n') (l ++ l') r
  | manyEnd {k e b n l} : Picks k (.one e) b n l .fail → Picks k (.many e) b n l (.ok b)
  | manyFatal {k e b n l} : Picks k (.one e) b n l .fatal → Picks k (.many e) b n l .fatal
  | many {k e b n l b' n' l' r} : Picks k (.one e) b n l (.ok b') → Picks k (.many e) b' n' l' r →
      Picks k (.many e) b (n + n') (l ++ l') r

/-- The direct subexpressions of an expression. -/
def kids : Ex → List Ex
  | .action _ e | .labeled _ e | .not e | .plus e | .star e | .opt e => [e]
  | .choice es | .seq es => es
  | _ => []

/-- The expression of the grammar at a node. -/
def exprAt (r : Rule) : List Nat → Option Ex
  | [] => some (gram r)
  | i :: p => (exprAt r p).bind fun e => (kids e)[i]?

/-- A failed type assertion is reported. -/
def TypeError (filename : Bytes) : CallRes → Prop
  | .returned (.done _ es) => ∃ e ∈ es, b!"interface conversion" <:+ e.text filename
  | .returned .diverges => False
  | .panicked m => m = b!"interface conversion"

/-- The key of a choice in `ChoiceAltCnt`: the name of the rule, and the line and column at which the choice is written
in the grammar. -/
def pickIdent (p : Pick) : Bytes :=
  p.choice.rule.name ++ b!" " ++ natToBytes p.choice.spot.1 ++ b!":" ++ natToBytes p.choice.spot.2

/-- The key of an alternative: its number, from 1; or the name given for "no match". -/
def pickAlt (noMatch : Bytes) (p : Pick) : Bytes :=
  match p.alt with
  | some i => natToBytes (i + 1)
  | none => noMatch

/-- How often the list decides for the alternative called `alt` of a choice called `ident`. -/
def pickCount (noMatch : Bytes) (l : List Pick) (ident alt : Bytes) : Nat :=
  (l.filter fun p => pickIdent p = ident ∧ pickAlt noMatch p = alt).length

end Verif.Spec
