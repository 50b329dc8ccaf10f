import Verif.Model.Debug
import Verif.Spec.Attempts
import Verif.Spec.Positions
import Verif.Spec.Utf8
/-
What the lines printed with `Debug(true)` say (used by C72): a tree of blocks, one for every step of the parser.
-/
namespace Verif.Spec
open Verif Debug

/-- The part of the text between two positions. -/
def between (data : Bytes) (p q : Pos) : Bytes := (data.drop p.offset.toNat).take (q.offset.toNat - p.offset.toNat)

/-- The text from a position on. -/
def fromPos (data : Bytes) (p : Pos) : Bytes := data.drop p.offset.toNat

/-- How a block called `name`, opened at `p` and closed at `q`, ends; `mt` is the text of the line `MATCH` in front of the
closing line, if there is one.  `stopped` says that the parse was stopped on the way. -/
inductive Verdict (data : Bytes) (stopped : Bool) : (name : Bytes) → (p q : Pos) → (mt : Option Bytes) → Prop
  /-- the rule matches, and what is printed is what it matched -/
  | rule {r neg log} {p q : Pos} : p.offset ≤ q.offset → q.offset ≤ (data.length : Int) →
      Tries neg (gram r) (fromPos data p) log (.ok (fromPos data q)) →
      Verdict data stopped (b!"parseRule " ++ r.name) p q (some (between data p q))
  /-- the rule does not match, and the parser is back where it was -/
  | noRule {r neg log p} : Tries neg (gram r) (fromPos data p) log .fail →
      Verdict data stopped (b!"parseRule " ++ r.name) p p none
  /-- an expression with an action matches -/
  | action {p q : Pos} : p.offset ≤ q.offset → q.offset ≤ (data.length : Int) →
      Verdict data stopped b!"parseActionExpr" p q (some (between data p q))
  /-- any other step, or an expression with an action that does not match -/
  | other {name p q} : ¬ b!"parseRule " <+: name → Verdict data stopped name p q none
  /-- the parse was stopped inside the block -/
  | abort {name p q} : stopped = true → Verdict data stopped name p q none

/-- `Nested data stopped d lines`: the lines are blocks at depth `d`, one after the other.  A block starts with a line `>`
and ends with a line `<` with the same name; in between there are blocks that are one deeper and, at the end, possibly the
line `MATCH`. -/
inductive Nested (data : Bytes) (stopped : Bool) : Nat → List Line → Prop
  | nil {d} : Nested data stopped d []
  | block {d name p q rn rn' body mt rest} : Nested data stopped (d + 1) body → Verdict data stopped name p q mt →
      Nested data stopped d rest →
      Nested data stopped d (⟨d + 1, .enter, p, name, rn⟩ :: (body ++ (mt.map fun x => ⟨d + 1, .matched, q, x, rn'⟩).toList ++
        ⟨d, .leave, q, name, rn'⟩ :: rest))

/-- The names of the blocks of parsing expressions: they start with `parse`, but not with `parseRule` and a space. -/
def isExprName (name : Bytes) : Bool := b!"parse".isPrefixOf name && !b!"parseRule ".isPrefixOf name

/-- How many parsing expressions are opened by the lines. -/
def exprCount (l : List Line) : Nat := (l.filter fun x => x.mark == .enter && isExprName x.text).length

/-- The position and the character of the line are those of one place of the text. -/
def Shows (data : Bytes) (l : Line) : Prop :=
  ∃ k : Nat, k ≤ data.length ∧ l.pos = posAt data k ∧ l.rn = (decodeRune (data.drop k)).1

end Verif.Spec
