import Verif.Model.Print
/-
Package `astutil` (ast/astutil/{escape,quote,apply}.go).
-/
namespace Verif

/-! ### escape.go -/

/-- The replacement function of `Unescape` (ast/astutil/escape.go:25-38) for a match
`\c…`; the argument is the matched text without its backslash (one rune). -/
def unescapeRepl (r : Bytes) : Bytes :=
  match r with
  | c :: _ =>
    if c = 34 ∨ c = 39 ∨ c = 92 then [c]
    else if c = 110 then [10]
    else if c = 114 then [13]
    else if c = 116 then [9]
    else 92 :: r
  | [] => [92]

/-- `unescapeRe.ReplaceAllStringFunc` (ast/astutil/escape.go:7, 24-25): leftmost
non-overlapping matches of `\\.`, where `.` is any rune but a newline (an invalid
byte counts as a rune of width 1).  Fuel: the length of the input. -/
def unescapeAux : Nat → Bytes → Bytes
  | 0, s => s
  | n + 1, s =>
    match s with
    | [] => []
    | b :: t =>
      if b = 92 then
        match t with
        | [] => [92]
        | c :: u =>
          if c = 10 then 92 :: unescapeAux n t
          else
            let w := (decodeRune (c :: u)).2
            unescapeRepl ((c :: u).take w) ++ unescapeAux n ((c :: u).drop w)
      else b :: unescapeAux n t

/-- `Unescape` (ast/astutil/escape.go:24-39). -/
def unescape (s : Bytes) : Bytes := unescapeAux s.length s

/-- The replacement function of `Escape` (ast/astutil/escape.go:55-68) for one rune. -/
def escapeRepl (r : Bytes) : Bytes :=
  if r = [34] ∨ r = [39] ∨ r = [92] then 92 :: r
  else if r = [10] then [92, 110]
  else if r = [13] then [92, 114]
  else if r = [9] then [92, 116]
  else r

/-- `Escape` (ast/astutil/escape.go:54-69): every rune is replaced. -/
def escape (s : Bytes) : Bytes := (runeChunks s).flatMap escapeRepl

/-! ### quote.go -/

/-- Result of a Go function returning `(string, error)` that may also panic. -/
inductive QuoteRes
  | ok (v : Bytes)
  | err
  | panic
deriving DecidableEq, Repr

/-- The search loop of `Quote` (ast/astutil/quote.go:21-26): is there an index
`i > 1` with a quote not preceded by a backslash?  `i` is the index of the head of
the list, `prev` the byte before it. -/
def hasQuoteLoop (q : UInt8) : Nat → UInt8 → Bytes → Bool
  | _, _, [] => false
  | i, prev, b :: t =>
    if b = q ∧ i > 1 ∧ prev ≠ 92 then true else hasQuoteLoop q (i + 1) b t

/-- `[A-Za-z_]`. -/
def isBwStart (b : UInt8) : Bool :=
  (65 ≤ b && b ≤ 90) || (97 ≤ b && b ≤ 122) || b == 95

/-- `[A-Za-z0-9_]`. -/
def isBwByte (b : UInt8) : Bool := isBwStart b || isDigit b

/-- `barewordRe.MatchString` (ast/astutil/quote.go:11): `^[A-Za-z_][A-Za-z0-9_]+$`. -/
def barewordMatch : Bytes → Bool
  | b :: c :: t => isBwStart b && isBwByte c && t.all isBwByte
  | _ => false

/-- `Quote` (ast/astutil/quote.go:16-42). -/
def quote (v : Bytes) (t : Sat) : QuoteRes :=
  match t with
  | .doubleQuoted => if hasQuoteLoop 34 0 0 v then .err else .ok ([34] ++ v ++ [34])
  | .singleQuoted => if hasQuoteLoop 39 0 0 v then .err else .ok ([39] ++ v ++ [39])
  | .bareword => if barewordMatch v then .ok v else .err
  | .undefined => .panic

/-- The loop of `escapeQuotes` (ast/astutil/quote.go:69-73) on the whole buffer `b`
with index `i`; insertion shifts the rest and the loop goes on behind the inserted
backslash.  Fuel: `2 * len + 1` iterations suffice. -/
def escapeQuotesLoop (q : UInt8) : Nat → Bytes → Nat → Bytes
  | 0, b, _ => b
  | n + 1, b, i =>
    if i < b.length then
      if b.getD i 0 = q ∧ (i = 0 ∨ (i > 1 ∧ b.getD (i - 1) 0 ≠ 92)) then
        escapeQuotesLoop q n (b.take i ++ [92] ++ b.drop i) (i + 1)
      else escapeQuotesLoop q n b (i + 1)
    else b

/-- `escapeQuotes` (ast/astutil/quote.go:66-76). -/
def escapeQuotes (v : Bytes) (q : UInt8) : Bytes := escapeQuotesLoop q (2 * v.length + 1) v 0

/-- The replacement of one rune by `barewordMap` (ast/astutil/quote.go:86-97). -/
def barewordMap (r : Nat) : UInt8 :=
  if (48 ≤ r ∧ r ≤ 57) ∨ (65 ≤ r ∧ r ≤ 90) ∨ (97 ≤ r ∧ r ≤ 122) then UInt8.ofNat r else 95

/-- `escapeBareword` (ast/astutil/quote.go:78-101); `bytes.Map` visits one rune at a
time, an invalid byte counting as one rune. -/
def escapeBareword (v : Bytes) : Bytes :=
  match v with
  | [] => []
  | b :: t =>
    let v' := (if isDigit b then 95 else b) :: t
    (runeChunks v').map fun c => barewordMap (decodeRune c).1

/-- `QuoteWithEscape` (ast/astutil/quote.go:52-64); `none` is the panic. -/
def quoteWithEscape (v : Bytes) (t : Sat) : Option Bytes :=
  match t with
  | .doubleQuoted => some ([34] ++ escapeQuotes v 34 ++ [34])
  | .singleQuoted => some ([39] ++ escapeQuotes v 39 ++ [39])
  | .bareword => some (escapeBareword v)
  | .undefined => none

/-! ### apply.go

Slices are modelled as values (lists): `ApplyPlugins` always continues with the
slice it has just computed, so its result does not depend on which of the slices
share a backing array.  What the *caller's* slice looks like afterwards is the
subject of `Verif.Model.Heap`.
-/

/-- `Cursor` (ast/astutil/apply.go:71-74). -/
structure Cursor where
  parent : List BOP
  index : Int
  step : Int

/-- The operations a callback can perform on its cursor. -/
inductive CurOp
  | delete
  | replace (p : BOP)
  | insertBefore (p : BOP)
  | insertAfter (p : BOP)

/-- `Cursor.Plugin` (ast/astutil/apply.go:77-84): nil unless the current element is
an `ast.Plugin`. -/
def Cursor.plugin (c : Cursor) : Option Plugin :=
  match c.parent[c.index.toNat]? with
  | some (.plugin p) => some p
  | _ => none

/-- `Delete`, `Replace`, `InsertBefore`, `InsertAfter`
(ast/astutil/apply.go:97-139); `none` is a run-time panic (negative index, or slice
bounds / index out of range). -/
def Cursor.run (c : Cursor) (op : CurOp) : Option Cursor :=
  if c.index < 0 then none
  else
    let i := c.index.toNat
    match op with
    | .delete =>
      if i + 1 ≤ c.parent.length then
        some { c with parent := c.parent.take i ++ c.parent.drop (i + 1), step := c.step - 1 }
      else none
    | .replace p =>
      if i < c.parent.length then some { c with parent := c.parent.set i p } else none
    | .insertBefore p =>
      if i ≤ c.parent.length then
        some { c with parent := c.parent.take i ++ p :: c.parent.drop i, step := c.step + 1 }
      else none
    | .insertAfter p =>
      if i + 1 ≤ c.parent.length then
        some { c with
          parent := c.parent.take (i + 1) ++ p :: c.parent.drop (i + 1), step := c.step + 1 }
      else none

/-- A sequence of cursor operations. -/
def Cursor.runAll (c : Cursor) : List CurOp → Option Cursor
  | [] => some c
  | op :: ops => match c.run op with
    | some c' => c'.runAll ops
    | none => none

/-- A callback: from its own state and the cursor it computes its new state and the
operations it performs; `none` is a panic of the callback itself.  (The operations
act deterministically on the cursor, so a callback that interleaves looking and
editing is covered: it can be replayed from the initial cursor.) -/
abbrev Callback (σ : Type) := σ → Cursor → Option (σ × List CurOp)

/-- Outcome of a traversal. -/
inductive ApplyRes (σ : Type) (α : Type)
  | done (s : σ) (r : α)
  | panic
  | timeout

mutual
/-- `ApplyPlugins` (ast/astutil/apply.go:16-58), the loop.  Fuel bounds the number of
iterations and the nesting depth (an ill-behaved callback can keep the loop running
for ever). -/
def applyLoop {σ : Type} (f : Callback σ) : Nat → σ → Cursor → ApplyRes σ (List BOP)
  | 0, _, _ => .timeout
  | n + 1, s, c =>
    if c.index ≥ c.parent.length then .done s c.parent
    else if c.index < 0 then .panic
    else
      let c : Cursor := { c with step := 1 }
      let i : Nat := c.index.toNat
      match c.parent[i]? with
      | some (.branch st cond block cm ft elifs (.mk est eblock ecm eft)) =>
        match applyLoop f n s ⟨block, 0, 1⟩ with
        | .done s1 block' =>
          match applyElifs f n s1 elifs with
          | .done s2 elifs' =>
            match applyLoop f n s2 ⟨eblock, 0, 1⟩ with
            | .done s3 eblock' =>
              let b : BOP := .branch st cond block' cm ft elifs' (.mk est eblock' ecm eft)
              applyLoop f n s3 { c with parent := c.parent.set i b, index := c.index + 1 }
            | .panic => .panic
            | .timeout => .timeout
          | .panic => .panic
          | .timeout => .timeout
        | .panic => .panic
        | .timeout => .timeout
      | some (.pluginPtr _) => .panic
      | _ =>
        match f s c with
        | none => .panic
        | some (s', ops) =>
          match c.runAll ops with
          | none => .panic
          | some c' => applyLoop f n s' { c' with index := c'.index + c'.step }
/-- The loop over else-if blocks (ast/astutil/apply.go:36-38). -/
def applyElifs {σ : Type} (f : Callback σ) : Nat → σ → List Elif → ApplyRes σ (List Elif)
  | 0, _, _ => .timeout
  | _ + 1, s, [] => .done s []
  | n + 1, s, .mk st cond block cm ft :: es =>
    match applyLoop f n s ⟨block, 0, 1⟩ with
    | .done s' block' =>
      match applyElifs f n s' es with
      | .done s'' es' => .done s'' (.mk st cond block' cm ft :: es')
      | .panic => .panic
      | .timeout => .timeout
    | .panic => .panic
    | .timeout => .timeout
end

/-- `ApplyPlugins` (ast/astutil/apply.go:16-58) with fuel. -/
def applyPlugins {σ : Type} (f : Callback σ) (fuel : Nat) (s : σ) (root : List BOP) :
    ApplyRes σ (List BOP) := applyLoop f fuel s ⟨root, 0, 1⟩

end Verif
