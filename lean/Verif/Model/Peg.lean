import Verif.Model.Grammar
import Verif.Model.Actions
/-
The parsing engine generated by pigeon (logstash_config.go:12232-13137) together
with the farthest-failure bookkeeping of parse_error_helper.go.

`eval` is `(*parser).parseExpr`.  It is defined by structural recursion on a
fuel argument, which bounds the nesting depth of `parseExpr` calls and the number
of iterations of each repetition; running out of fuel is the separate outcome
`timeout`, which the theorems show not to occur for the fuel `parse` uses.
-/
namespace Verif

/-- A point in the input: `savepoint` (logstash_config.go:12032-12038).  Instead
of the whole input and an offset it holds the input from the offset on; the
current rune `rn` and its width `w` are determined by it (`Pt.rn`, `Pt.w`). -/
structure Pt where
  line : Nat
  col : Nat
  offset : Nat
  rest : Bytes
deriving DecidableEq, Repr, Inhabited

/-- `savepoint.rn`. -/
def Pt.rn (p : Pt) : Nat := (decodeRune p.rest).1
/-- `savepoint.w`. -/
def Pt.w (p : Pt) : Nat := (decodeRune p.rest).2
/-- End of input: `rn == utf8.RuneError && w == 0` (logstash_config.go:12821, 12842). -/
def Pt.atEof (p : Pt) : Bool := p.rn == runeError && p.w == 0
/-- The error condition of `read`: `rn == utf8.RuneError && n == 1`
(logstash_config.go:12483). -/
def Pt.invalid (p : Pt) : Bool := p.rn == runeError && p.w == 1
/-- The position part, as `astPos` (logstash_config_helper.go:642-649) reports it. -/
def Pt.pos (p : Pt) : Pos := ⟨p.line, p.col, p.offset⟩

/-- Line and column bookkeeping of `read` when the point moves to `rest`
(logstash_config.go:12473-12481). -/
def Pt.moveTo (p : Pt) (w : Nat) (rest : Bytes) : Pt :=
  if (decodeRune rest).1 = 10 then ⟨p.line + 1, 0, p.offset + w, rest⟩
  else ⟨p.line, p.col + 1, p.offset + w, rest⟩

/-- `read` (logstash_config.go:12471-12487) without the error report. -/
def Pt.next (p : Pt) : Pt := p.moveTo p.w (p.rest.drop p.w)

/-- `sliceFrom` (logstash_config.go:12551-12553): the input between two points. -/
def sliceFrom (start now : Pt) : Bytes := start.rest.take (now.offset - start.offset)

/-- A recorded error: `parserError` (logstash_config.go:12221-12226), with the
innermost rule at the time. -/
structure PErr where
  pos : Pos
  rule : Option Rule
  msg : Bytes
deriving DecidableEq, Repr, Inhabited

/-- An entry of the package variable `farthestFailure`
(parse_error_helper.go:9-15): message, `c.pos`, `c.text` and `pos`. -/
structure FF where
  msg : Bytes
  cpos : Pos
  ctext : Bytes
  pos : Nat
deriving DecidableEq, Repr, Inhabited

/-- The state of a parser: the fields of `parser` and `current` that matter,
plus the package variable `farthestFailure`. -/
structure St where
  pt : Pt
  /-- `cur.pos` -/
  curPos : Pos
  /-- `cur.text` -/
  curText : Bytes
  /-- `cur.state["__exceptionalCommentWarning"]` -/
  warns : List Bytes
  errs : List PErr
  /-- `farthestFailure` -/
  ff : List FF
  /-- ghost field, not in the code and read by nothing: every failure recorded in `farthestFailure`
  since it was last overwritten, oldest first -/
  hist : List FF
  /-- the top of `vstack` -/
  frame : Frame
  /-- `rstack`, innermost first -/
  rstack : List Rule
  /-- `ExprCnt` -/
  cnt : Nat
  /-- `maxFailPos`, `maxFailExpected`, `maxFailInvertExpected` -/
  mfPos : Pos
  mfExp : List Bytes
  mfInv : Bool
deriving Inhabited

/-- Outcome of evaluating an expression. -/
inductive Out
  | ok (v : Val) (s : St)
  | fail (s : St)
  | panic (msg : Bytes) (s : St)
  | timeout
deriving Inhabited

/-- `addErrAt` (logstash_config.go:12428-12450). -/
def St.addErrAt (s : St) (msg : Bytes) (pos : Pos) : St :=
  { s with errs := s.errs ++ [⟨pos, s.rstack.head?, msg⟩] }

/-- `addErr` (logstash_config.go:12424-12426). -/
def St.addErr (s : St) (msg : Bytes) : St := s.addErrAt msg s.pt.pos

/-- The text of `errInvalidEncoding` (logstash_config.go:11845). -/
def invalidEncoding : Bytes := b!"invalid encoding"

/-- `read` (logstash_config.go:12471-12487). -/
def St.read (o : Opts) (s : St) : St :=
  let s := { s with pt := s.pt.next }
  if s.pt.invalid && !o.allowInvalid then s.addErr invalidEncoding else s

/-- `failAt` (logstash_config.go:12452-12469). -/
def St.failAt (s : St) (fail : Bool) (pos : Pos) (want : Bytes) : St :=
  if fail == s.mfInv then
    if pos.offset < s.mfPos.offset then s
    else
      let s := if pos.offset > s.mfPos.offset then { s with mfPos := pos, mfExp := [] } else s
      { s with mfExp := s.mfExp ++ [if s.mfInv then b!"!" ++ want else want] }
  else s

/-- The byte offset `pos(c)` (parse_error_helper.go:36-38) at which a failure is
reported: the end of the text of the last executed action. -/
def St.errPos (s : St) : Nat := s.curPos.offset.toNat + s.curText.length

/-- `pushError` (parse_error_helper.go:45-60), the effect on `farthestFailure`. -/
def pushFF (ff : List FF) (e : FF) : List FF :=
  match ff with
  | [] => [e]
  | f :: r =>
    if e.pos > f.pos then [e]
    else if e.pos = f.pos then
      if (f :: r).any (fun x => x.msg == e.msg) then f :: r else f :: r ++ [e]
    else f :: r

/-- `fmt.Sprintf("%s", position)` (logstash_config.go:12028-12030) and
`ast.Pos.String` (ast/ast.go:28-30), which coincide. -/
def posStr (p : Pos) : Bytes :=
  intToBytes p.line ++ b!":" ++ intToBytes p.col ++ b!" [" ++ intToBytes p.offset ++ b!"]"

/-- `showNewline` (parse_error_helper.go:31-34). -/
def showNewline (s : Bytes) : Bytes := s.flatMap fun b => if b = 10 then b!"\\n" else [b]

/-- The header line shared by `fatalError` and `GetFarthestFailure`
(parse_error_helper.go:22, 74). -/
def ffHeader (cpos : Pos) (pos : Nat) (text : Bytes) : Bytes :=
  b!"Parsing error at pos " ++ posStr cpos ++ b!" and [" ++ natToBytes pos ++ b!"] (after: '" ++
    showNewline text ++ b!"'):\n"

/-- One bullet line (parse_error_helper.go:24, 75). -/
def ffLine (msg : Bytes) : Bytes := b!"-> " ++ msg ++ b!"\n"

/-- `GetFarthestFailure` (parse_error_helper.go:17-29). -/
def getFarthestFailure (ff : List FF) : Bytes × Bool :=
  match ff with
  | [] => ([], false)
  | f :: r => (ffHeader f.cpos f.pos f.ctext ++ (f :: r).flatMap (fun e => ffLine e.msg), true)

/-- Run a code predicate (`andCodeExpr`, logstash_config.go:12784-12798); `none`
is a panic.  `initParser` (logstash_config_helper.go:30-33) resets
`farthestFailure`; `pushError` (parse_error_helper.go:45-60) always fails;
`fatalError` (parse_error_helper.go:65-77) panics. -/
def runCode (c : Code) (s : St) : Out :=
  match c with
  | .initParser => .ok .nil { s with ff := [], hist := [] }
  | .pushError msg =>
    .fail { s with
      ff := pushFF s.ff ⟨msg, s.curPos, s.curText, s.errPos⟩
      hist := s.hist ++ [⟨msg, s.curPos, s.curText, s.errPos⟩] }
  | .fatalError msg =>
    .panic (ffHeader s.curPos s.errPos s.curText ++ ffLine msg)
      { s with
        ff := [⟨msg, s.curPos, s.curText, s.errPos⟩]
        hist := [⟨msg, s.curPos, s.curText, s.errPos⟩] }

/-- Run a state code block (`stateCodeExpr`, logstash_config.go:13092-13102):
`initState` (logstash_config_helper.go:22-28) and `warnComment` (:127-135).
`initState` leaves an existing entry alone; the state is empty when it runs. -/
def runState (o : Opts) (c : StCode) (s : St) : St :=
  match c with
  | .initState => s
  | .warnComment =>
    if o.excWarn && s.curText.contains 35 then
      { s with warns := s.warns ++ [b!"exceptional comment at " ++ posStr s.curPos] }
    else s

/-- Does rune `r` match the class (logstash_config.go:12850-12892)? -/
def clsMatches (inverted : Bool) (chars : List Nat) (ranges : List (Nat × Nat)) (r : Nat) : Bool :=
  (chars.contains r || ranges.any (fun p => p.1 ≤ r && r ≤ p.2)) != inverted

/-- The `want` text of a literal (`litMatcher.want`): the Go-quoted literal.  Only
used in error messages; only the escapes occurring in the grammar are treated. -/
def litWant (v : Bytes) : Bytes :=
  b!"\"" ++ v.flatMap (fun b => if b = 34 then b!"\\\"" else if b = 92 then b!"\\\\"
    else if b = 10 then b!"\\n" else if b = 13 then b!"\\r" else [b]) ++ b!"\""

/-- `parseLitMatcher` (logstash_config.go:12953-12973), the rune loop; `start` is
the point to restore on a mismatch. -/
def litLoop (o : Opts) (want : Bytes) (start : Pt) : Bytes → St → Out
  | [], s =>
    let s := s.failAt true start.pos want
    .ok (.bytes (sliceFrom start s.pt)) s
  | c :: cs, s =>
    if s.pt.rn = c.toNat then litLoop o want start cs (s.read o)
    else .fail { s.failAt false start.pos want with pt := start }

/-- `parseSeqExpr` (logstash_config.go:13068-13090); on failure the state and the
point are restored. -/
def seqLoop (ev : Ex → St → Out) (s0 : St) : List Ex → List Val → St → Out
  | [], acc, s => .ok (.list acc) s
  | e :: es, acc, s =>
    match ev e s with
    | .ok v s' => seqLoop ev s0 es (acc ++ [v]) s'
    | .fail s' => .fail { s' with warns := s0.warns, pt := s0.pt }
    | .panic m s' => .panic m s'
    | .timeout => .timeout

/-- `parseChoiceExpr` (logstash_config.go:12914-12936): each alternative runs in a
fresh variable set; a failed alternative restores the state. -/
def choiceLoop (ev : Ex → St → Out) : List Ex → St → Out
  | [], s => .fail s
  | e :: es, s =>
    match ev e { s with frame := [] } with
    | .ok v s' => .ok v { s' with frame := s.frame }
    | .fail s' => choiceLoop ev es { s' with frame := s.frame, warns := s.warns }
    | .panic m s' => .panic m s'
    | .timeout => .timeout

/-- `parseZeroOrMoreExpr` (logstash_config.go:13104-13122) and, with `acc`
non-empty, the rest of `parseOneOrMoreExpr` (:13009-13030). -/
def starLoop (ev : St → Out) : Nat → List Val → St → Out
  | 0, _, _ => .timeout
  | n + 1, acc, s =>
    match ev { s with frame := [] } with
    | .ok v s' => starLoop ev n (acc ++ [v]) { s' with frame := s.frame }
    | .fail s' => .ok (.list acc) { s' with frame := s.frame }
    | .panic m s' => .panic m s'
    | .timeout => .timeout

/-- The text of `errMaxExprCnt` (logstash_config.go:11849). -/
def maxExprMsg : Bytes := b!"max number of expresssions parsed"

/-- `parseRule` (logstash_config.go:12664-12691). -/
def evalRule (ev : Ex → St → Out) (G : Gram) (r : Rule) (s : St) : Out :=
  match ev (G r) { s with rstack := r :: s.rstack, frame := [] } with
  | .ok v s' => .ok v { s' with rstack := s.rstack, frame := s.frame }
  | .fail s' => .fail { s' with rstack := s.rstack, frame := s.frame }
  | .panic m s' => .panic m s'
  | .timeout => .timeout

/-- The expression limit (logstash_config.go:12706-12709): is the number `cnt` of expressions
evaluated so far above it? -/
def tooMany (o : Opts) (cnt : Nat) : Bool :=
  match o.maxExpr with
  | some m => decide (cnt > m)
  | none => false

/-- The `parseXxxExpr` methods (logstash_config.go:12759-13137), dispatched on the expression
as in `parseExpr` (:12711-12752).  `ev` evaluates sub-expressions, `n` bounds the number of
iterations of a repetition. -/
def step (o : Opts) (G : Gram) (ev : Ex → St → Out) (n : Nat) (e : Ex) (s : St) : Out :=
  match e with
  | .action a e =>
    match ev e s with
    | .ok _ s' =>
      let s' := { s' with curPos := s.pt.pos, curText := sliceFrom s.pt s'.pt }
      match runAct o a s'.frame s'.curPos s'.curText s'.warns with
      | .val v => .ok v s'
      | .err v msg => .ok v (s'.addErrAt msg s.pt.pos)
      | .panic m => .panic m s'
    | r => r
  | .andCode c => runCode c s
  | .any =>
    if s.pt.atEof then .fail (s.failAt false s.pt.pos b!".")
    else
      let s' := (s.read o).failAt true s.pt.pos b!"."
      .ok (.bytes (sliceFrom s.pt s'.pt)) s'
  | .cls val inv chars ranges =>
    if s.pt.atEof then .fail (s.failAt false s.pt.pos val)
    else if clsMatches inv chars ranges s.pt.rn then
      let s' := (s.read o).failAt true s.pt.pos val
      .ok (.bytes (sliceFrom s.pt s'.pt)) s'
    else .fail (s.failAt false s.pt.pos val)
  | .choice alts => choiceLoop ev alts s
  | .labeled l e =>
    match ev e { s with frame := [] } with
    | .ok v s' => .ok v { s' with frame := (l, v) :: s.frame }
    | .fail s' => .fail { s' with frame := s.frame }
    | r => r
  | .lit v => litLoop o (litWant v) s.pt v s
  | .not e =>
    match ev e { s with frame := [], mfInv := !s.mfInv } with
    | .ok _ s' => .fail { s' with frame := s.frame, warns := s.warns, pt := s.pt, mfInv := s.mfInv }
    | .fail s' =>
      .ok .nil { s' with frame := s.frame, warns := s.warns, pt := s.pt, mfInv := s.mfInv }
    | r => r
  | .plus e =>
    match ev e { s with frame := [] } with
    | .ok v s' => starLoop (ev e) n [v] { s' with frame := s.frame }
    | .fail s' => .fail { s' with frame := s.frame }
    | r => r
  | .ref r => evalRule ev G r s
  | .seq es => seqLoop ev s es [] s
  | .state c => .ok .nil (runState o c s)
  | .star e => starLoop (ev e) n [] s
  | .opt e =>
    match ev e { s with frame := [] } with
    | .ok v s' => .ok v { s' with frame := s.frame }
    | .fail s' => .ok .nil { s' with frame := s.frame }
    | r => r

/-- `parseExpr` (logstash_config.go:12694-12757). -/
def eval (o : Opts) (G : Gram) : Nat → Ex → St → Out
  | 0, _, _ => .timeout
  | n + 1, e, s =>
    if tooMany o (s.cnt + 1) then .panic maxExprMsg { s with cnt := s.cnt + 1 }
    else step o G (eval o G n) n e { s with cnt := s.cnt + 1 }

end Verif
