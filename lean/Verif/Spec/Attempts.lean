import Verif.Model.Peg
import Verif.Spec.Errors
import Verif.Spec.Positioned
/-
The tokens a parsing expression grammar tries to match, and where (used by C06 and C69).

This is the textbook reading of a parsing expression grammar, without values, positions, actions or state, that also
lists what happens on the way:
* a token (a literal, a class of characters, any character) is looked for at a place of the text and is not there.
  Inside a negative look-ahead `!e` it is the other way round: there the attempts that succeed are the failures, written
  with a `!` in front;
* a construct (an expression with an action) is complete;
* one of the expectations written in the grammar (`pushError`, `fatalError`) is not met.
-/
namespace Verif.Spec
open Verif

/-- What happens while a text is matched.  Places are given by the text from there on. -/
inductive Event
  /-- a token, as it is written in messages, was looked for in vain -/
  | missed (rest want : Bytes)
  /-- a construct is complete; it starts at the first place and stops at the second -/
  | built (start stop : Bytes)
  /-- an expectation is not met -/
  | unmet (msg : Bytes)
  /-- an expectation is not met and the parse ends -/
  | fatal (msg : Bytes)
  /-- the list of expectations that were not met is emptied -/
  | reset

/-- How an expression ends: it matches, leaving `rest`; it does not match; the parse ends. -/
inductive Ends
  | ok (rest : Bytes)
  | fail
  | fatal
deriving DecidableEq

/-- The text after its first character. -/
def tailChar (b : Bytes) : Bytes := b.drop (decodeRune b).2

/-- The text after the word `v`, if it starts with it. -/
def past : Bytes → Bytes → Option Bytes
  | [], b => some b
  | c :: cs, b => if (decodeRune b).1 = c.toNat then past cs (tailChar b) else none

/-- The token of a literal as it is written in messages: in double quotes, escaped. -/
def quotedToken (v : Bytes) : Bytes :=
  b!"\"" ++ v.flatMap (fun b => if b = 34 then b!"\\\"" else if b = 92 then b!"\\\\"
    else if b = 10 then b!"\\n" else if b = 13 then b!"\\r" else [b]) ++ b!"\""

/-- Is the character in the class? -/
def InClass (inverted : Bool) (chars : List Nat) (ranges : List (Nat × Nat)) (r : Nat) : Prop :=
  (r ∈ chars ∨ ∃ p ∈ ranges, p.1 ≤ r ∧ r ≤ p.2) ↔ inverted = false

/-- What an attempt adds to the list: `found` says whether the token was there, `neg` whether we are inside an odd
number of negative look-aheads. -/
def attempt (neg found : Bool) (b want : Bytes) : List Event :=
  match neg, found with
  | false, false => [.missed b want]
  | true, true => [.missed b (b!"!" ++ want)]
  | _, _ => []

/-- `Tries neg e b log r`: matching `e` against the text `b` ends in `r`, and `log` is what happens on the way, in
order. -/
inductive Tries : Bool → Ex → Bytes → List Event → Ends → Prop
  | action {neg a e b l b'} : Tries neg e b l (.ok b') → Tries neg (.action a e) b (l ++ [.built b b']) (.ok b')
  | actionNo {neg a e b l r} : (∀ b', r ≠ .ok b') → Tries neg e b l r → Tries neg (.action a e) b l r
  | labeled {neg x e b l r} : Tries neg e b l r → Tries neg (.labeled x e) b l r
  | ref {neg x b l r} : Tries neg (gram x) b l r → Tries neg (.ref x) b l r
  | state {neg c b} : Tries neg (.state c) b [] (.ok b)
  | initParser {neg b} : Tries neg (.andCode .initParser) b [.reset] (.ok b)
  | pushError {neg m b} : Tries neg (.andCode (.pushError m)) b [.unmet m] .fail
  | fatalError {neg m b} : Tries neg (.andCode (.fatalError m)) b [.fatal m] .fatal
  | any {neg b} : b ≠ [] → Tries neg .any b (attempt neg true b b!".") (.ok (tailChar b))
  | anyEnd {neg} : Tries neg .any [] (attempt neg false [] b!".") .fail
  | cls {neg x i c g b} : b ≠ [] → InClass i c g (decodeRune b).1 →
      Tries neg (.cls x i c g) b (attempt neg true b x) (.ok (tailChar b))
  | clsNo {neg x i c g b} : b = [] ∨ ¬ InClass i c g (decodeRune b).1 →
      Tries neg (.cls x i c g) b (attempt neg false b x) .fail
  | lit {neg v b b'} : past v b = some b' → Tries neg (.lit v) b (attempt neg true b (quotedToken v)) (.ok b')
  | litNo {neg v b} : past v b = none → Tries neg (.lit v) b (attempt neg false b (quotedToken v)) .fail
  | not {neg e b l b'} : Tries (!neg) e b l (.ok b') → Tries neg (.not e) b l .fail
  | notNo {neg e b l} : Tries (!neg) e b l .fail → Tries neg (.not e) b l (.ok b)
  | notFatal {neg e b l} : Tries (!neg) e b l .fatal → Tries neg (.not e) b l .fatal
  | choiceNil {neg b} : Tries neg (.choice []) b [] .fail
  | choice {neg e es b l r} : r ≠ .fail → Tries neg e b l r → Tries neg (.choice (e :: es)) b l r
  | choiceNext {neg e es b l l' r} : Tries neg e b l .fail → Tries neg (.choice es) b l' r →
      Tries neg (.choice (e :: es)) b (l ++ l') r
  | seqNil {neg b} : Tries neg (.seq []) b [] (.ok b)
  | seqNo {neg e es b l r} : (∀ b', r ≠ .ok b') → Tries neg e b l r → Tries neg (.seq (e :: es)) b l r
  | seq {neg e es b l b' l' r} : Tries neg e b l (.ok b') → Tries neg (.seq es) b' l' r →
      Tries neg (.seq (e :: es)) b (l ++ l') r
  | starEnd {neg e b l} : Tries neg e b l .fail → Tries neg (.star e) b l (.ok b)
  | starFatal {neg e b l} : Tries neg e b l .fatal → Tries neg (.star e) b l .fatal
  | star {neg e b l b' l' r} : Tries neg e b l (.ok b') → Tries neg (.star e) b' l' r → Tries neg (.star e) b (l ++ l') r
  | plusNo {neg e b l r} : (∀ b', r ≠ .ok b') → Tries neg e b l r → Tries neg (.plus e) b l r
  | plus {neg e b l b' l' r} : Tries neg e b l (.ok b') → Tries neg (.star e) b' l' r → Tries neg (.plus e) b (l ++ l') r
  | opt {neg e b l r} : r ≠ .fail → Tries neg e b l r → Tries neg (.opt e) b l r
  | optNo {neg e b l} : Tries neg e b l .fail → Tries neg (.opt e) b l (.ok b)

/-! ### Tokens looked for in vain -/

/-- The token `want` was looked for in vain at offset `k` of the text `data`. -/
def MissedAt (data : Bytes) (log : List Event) (k : Nat) (want : Bytes) : Prop :=
  ∃ rest, .missed rest want ∈ log ∧ k + rest.length = data.length

/-- Strict lexicographic order of byte strings. -/
def Before (a b : Bytes) : Prop :=
  (∃ x r, b = a ++ x :: r) ∨ ∃ p x y r r', a = p ++ x :: r ∧ b = p ++ y :: r' ∧ x < y

/-- Enumeration in a sentence: `x`, `x or y`, `x, y or z`. -/
inductive Enumerates : List Bytes → Bytes → Prop
  | none : Enumerates [] []
  | one (x : Bytes) : Enumerates [x] x
  | last (x y : Bytes) : Enumerates [x, y] (x ++ b!" or " ++ y)
  | more (x y z : Bytes) (l : List Bytes) (t : Bytes) : Enumerates (y :: z :: l) t →
      Enumerates (x :: y :: z :: l) (x ++ b!", " ++ t)

/-- The message for a set of tokens (given by the predicate `exp`): the tokens in order, each once; that nothing
follows (`!.`) is called `EOF` and comes last. -/
def Sentence (exp : Bytes → Prop) (msg : Bytes) : Prop :=
  ∃ l t, l.Pairwise Before ∧ (∀ w, w ∈ l ↔ exp w ∧ w ≠ b!"!.") ∧
    ((exp b!"!." ∧ Enumerates (l ++ [b!"EOF"]) t) ∨ (¬ exp b!"!." ∧ Enumerates l t)) ∧
    msg = b!"no match found, expected: " ++ t

/-! ### Expectations that were not met -/

/-- An expectation that was not met, after the last construct that was complete (its offset and text); `pos` is where
that construct ends. -/
structure Unmet where
  msg : Bytes
  start : Nat
  text : Bytes
  pos : Nat
deriving DecidableEq

/-- An entry of the report of `GetFarthestFailure`: the message, the offset and text of the construct it names, and the
position. -/
def _root_.Verif.FF.view (f : FF) : Unmet := ⟨f.msg, f.cpos.offset.toNat, f.ctext, f.pos⟩

/-- One event: the last complete construct (offset and text), and the expectations that were not met so far. -/
def note (data : Bytes) : (Nat × Bytes) × List Unmet → Event → (Nat × Bytes) × List Unmet
  | (_, us), .built a b => ((data.length - a.length, a.take (a.length - b.length)), us)
  | (c, us), .unmet m => (c, us ++ [⟨m, c.1, c.2, c.1 + c.2.length⟩])
  | (c, _), .fatal m => (c, [⟨m, c.1, c.2, c.1 + c.2.length⟩])
  | (c, _), .reset => (c, [])
  | x, .missed _ _ => x

/-- The expectations that were not met.  After an expectation that ends the parse only that one counts. -/
def unmets (data : Bytes) (log : List Event) : List Unmet := (log.foldl (note data) ((0, []), [])).2

/-- The farthest position. -/
def farPos (us : List Unmet) : Nat := (us.map Unmet.pos).foldl max 0

/-- Each message once, in the order of the list. -/
def onlyFirst : List Unmet → List Unmet
  | [] => []
  | u :: us => u :: (onlyFirst us).filter (fun x => x.msg ≠ u.msg)

/-- The farthest ones, each message once. -/
def farthestOnes (us : List Unmet) : List Unmet := onlyFirst (us.filter (fun u => u.pos = farPos us))

/-- A text as it is shown on one line: a newline is written as a backslash and an `n`. -/
inductive OnLine : Bytes → Bytes → Prop
  | nil : OnLine [] []
  | newline {s t : Bytes} : OnLine s t → OnLine (b!"\n" ++ s) (b!"\\n" ++ t)
  | other {b : UInt8} {s t : Bytes} : b ≠ 10 → OnLine s t → OnLine (b :: s) (b :: t)

/-- The text of the report: a line with the position `p` of the construct before, the offset at which it ends and its
text; then a line for every message. -/
def ReportText (p : Pos) (us : List Unmet) (report : Bytes) : Prop :=
  ∃ u rest shown, us = u :: rest ∧ p.offset = (u.start : Nat) ∧ OnLine u.text shown ∧
    report = b!"Parsing error at pos " ++ posText p ++ b!" and [" ++ natToBytes u.pos ++ b!"] (after: '" ++ shown ++
      b!"'):\n" ++ (us.map fun u => b!"-> " ++ u.msg ++ b!"\n").flatten

end Verif.Spec
