import Verif.Model.Entry
import Verif.Model.ChoiceSpots
/-
The option `Statistics(stats, choiceNoMatch)` (logstash_config.go:11905-11918): the engine with `Stats.ChoiceAltCnt`, the
counters of the alternatives that match.
-/
namespace Verif.Stats
open Verif

/-- A node of the grammar `g` (logstash_config.go:22-8060): the rule and the path to it from the expression of the rule,
last step first, as in `Go.choiceSpots`. -/
structure Place where
  rule : Rule
  path : List Nat
deriving DecidableEq, Repr, Inhabited

/-- A direct subexpression. -/
def Place.sub (k : Place) (i : Nat) : Place := ⟨k.rule, i :: k.path⟩

/-- The field `pos` of a `choiceExpr` (logstash_config.go:12075-12078): line and column. -/
def Place.spot (k : Place) : Nat × Nat := ((Go.choiceSpots k.rule).lookup k.path).getD (0, 0)

/-- `Stats.ChoiceAltCnt` (logstash_config.go:12288-12300): `c ident alt` is the counter `ChoiceAltCnt[ident][alt]`, 0 if
there is none. -/
abbrev Counters := Bytes → Bytes → Nat

/-- `m[alt]++` for `m := p.ChoiceAltCnt[ident]`, which is made if it is missing (logstash_config.go:12901-12911). -/
def Counters.inc (c : Counters) (ident alt : Bytes) : Counters :=
  fun x y => if x = ident ∧ y = alt then c x y + 1 else c x y

/-- The parser with the counters. -/
structure CSt where
  s : St
  c : Counters

/-- Outcome of evaluating an expression, see `Out`. -/
inductive COut
  | ok (v : Val) (m : CSt)
  | fail (m : CSt)
  | panic (msg : Bytes) (m : CSt)
  | timeout

/-- `choiceIdent` (logstash_config.go:12900): the innermost rule and the position of the choice. -/
def choiceIdent (r : Option Rule) (spot : Nat × Nat) : Bytes :=
  (match r with | some r => r.name | none => []) ++ b!" " ++ natToBytes spot.1 ++ b!":" ++ natToBytes spot.2

/-- `incChoiceAltCnt` (logstash_config.go:12899-12912) for the alternative with index `i`, or for `choiceNoMatch`
(`none`); `noMatch` is the parser's `choiceNoMatch`. -/
def CSt.inc (noMatch : Bytes) (k : Place) (i : Option Nat) (m : CSt) : CSt :=
  let ident := choiceIdent m.s.rstack.head? k.spot
  let alt := match i with
    | some i => natToBytes (i + 1)
    | none => noMatch
  { m with c := Counters.inc m.c ident alt }

/-- Lift a step that does not evaluate subexpressions (logstash_config.go:12759-13137). -/
def lift (c : Counters) : Out → COut
  | .ok v s => .ok v ⟨s, c⟩
  | .fail s => .fail ⟨s, c⟩
  | .panic x s => .panic x ⟨s, c⟩
  | .timeout => .timeout

/-- `parseSeqExpr` (logstash_config.go:13068-13090), see `seqLoop`. -/
def seqLoopC (ev : Place → Ex → CSt → COut) (k : Place) (s0 : St) : Nat → List Ex → List Val → CSt → COut
  | _, [], acc, m => .ok (.list acc) m
  | i, e :: es, acc, m =>
    match ev (k.sub i) e m with
    | .ok v m' => seqLoopC ev k s0 (i + 1) es (acc ++ [v]) m'
    | .fail m' => .fail { m' with s := { m'.s with warns := s0.warns, pt := s0.pt } }
    | .panic x m' => .panic x m'
    | .timeout => .timeout

/-- `parseChoiceExpr` (logstash_config.go:12914-12936), see `choiceLoop`. -/
def choiceLoopC (ev : Place → Ex → CSt → COut) (noMatch : Bytes) (k : Place) : Nat → List Ex → CSt → COut
  | _, [], m => .fail (m.inc noMatch k none)
  | i, e :: es, m =>
    match ev (k.sub i) e { m with s := { m.s with frame := [] } } with
    | .ok v m' => .ok v (CSt.inc noMatch k (some i) { m' with s := { m'.s with frame := m.s.frame } })
    | .fail m' =>
      choiceLoopC ev noMatch k (i + 1) es { m' with s := { m'.s with frame := m.s.frame, warns := m.s.warns } }
    | .panic x m' => .panic x m'
    | .timeout => .timeout

/-- `parseZeroOrMoreExpr` (logstash_config.go:13104-13122), see `starLoop`. -/
def starLoopC (ev : CSt → COut) : Nat → List Val → CSt → COut
  | 0, _, _ => .timeout
  | n + 1, acc, m =>
    match ev { m with s := { m.s with frame := [] } } with
    | .ok v m' => starLoopC ev n (acc ++ [v]) { m' with s := { m'.s with frame := m.s.frame } }
    | .fail m' => .ok (.list acc) { m' with s := { m'.s with frame := m.s.frame } }
    | .panic x m' => .panic x m'
    | .timeout => .timeout

/-- `parseRule` (logstash_config.go:12664-12691), see `evalRule`. -/
def evalRuleC (ev : Place → Ex → CSt → COut) (G : Gram) (r : Rule) (m : CSt) : COut :=
  match ev ⟨r, []⟩ (G r) { m with s := { m.s with rstack := r :: m.s.rstack, frame := [] } } with
  | .ok v m' => .ok v { m' with s := { m'.s with rstack := m.s.rstack, frame := m.s.frame } }
  | .fail m' => .fail { m' with s := { m'.s with rstack := m.s.rstack, frame := m.s.frame } }
  | .panic x m' => .panic x m'
  | .timeout => .timeout

/-- The `parseXxxExpr` methods (logstash_config.go:12759-13137), see `step`. -/
def stepC (o : Opts) (noMatch : Bytes) (G : Gram) (ev : Place → Ex → CSt → COut) (n : Nat) (k : Place) (e : Ex) (m : CSt) :
    COut :=
  match e with
  | .action a e =>
    match ev (k.sub 0) e m with
    | .ok _ m' =>
      let s' := { m'.s with curPos := m.s.pt.pos, curText := sliceFrom m.s.pt m'.s.pt }
      match runAct o a s'.frame s'.curPos s'.curText s'.warns with
      | .val v => .ok v { m' with s := s' }
      | .err v msg => .ok v { m' with s := s'.addErrAt msg m.s.pt.pos }
      | .panic x => .panic x { m' with s := s' }
    | r => r
  | .andCode c => lift m.c (runCode c m.s)
  | .any | .cls .. | .lit .. | .state _ => lift m.c (step o G (fun _ _ => .timeout) n e m.s)
  | .choice alts => choiceLoopC ev noMatch k 0 alts m
  | .labeled l e =>
    match ev (k.sub 0) e { m with s := { m.s with frame := [] } } with
    | .ok v m' => .ok v { m' with s := { m'.s with frame := (l, v) :: m.s.frame } }
    | .fail m' => .fail { m' with s := { m'.s with frame := m.s.frame } }
    | r => r
  | .not e =>
    match ev (k.sub 0) e { m with s := { m.s with frame := [], mfInv := !m.s.mfInv } } with
    | .ok _ m' => .fail { m' with s := { m'.s with frame := m.s.frame, warns := m.s.warns, pt := m.s.pt, mfInv := m.s.mfInv } }
    | .fail m' => .ok .nil { m' with s := { m'.s with frame := m.s.frame, warns := m.s.warns, pt := m.s.pt, mfInv := m.s.mfInv } }
    | r => r
  | .plus e =>
    match ev (k.sub 0) e { m with s := { m.s with frame := [] } } with
    | .ok v m' => starLoopC (ev (k.sub 0) e) n [v] { m' with s := { m'.s with frame := m.s.frame } }
    | .fail m' => .fail { m' with s := { m'.s with frame := m.s.frame } }
    | r => r
  | .ref r => evalRuleC ev G r m
  | .seq es => seqLoopC ev k m.s 0 es [] m
  | .star e => starLoopC (ev (k.sub 0) e) n [] m
  | .opt e =>
    match ev (k.sub 0) e { m with s := { m.s with frame := [] } } with
    | .ok v m' => .ok v { m' with s := { m'.s with frame := m.s.frame } }
    | .fail m' => .ok .nil { m' with s := { m'.s with frame := m.s.frame } }
    | r => r

/-- `parseExpr` (logstash_config.go:12694-12757), see `eval`. -/
def evalC (o : Opts) (noMatch : Bytes) (G : Gram) : Nat → Place → Ex → CSt → COut
  | 0, _, _, _ => .timeout
  | n + 1, k, e, m =>
    if tooMany o (m.s.cnt + 1) then .panic maxExprMsg { m with s := { m.s with cnt := m.s.cnt + 1 } }
    else stepC o noMatch G (evalC o noMatch G n) n k e { m with s := { m.s with cnt := m.s.cnt + 1 } }

/-- The outcome without the counters. -/
def COut.out : COut → Out
  | .ok v m => .ok v m.s
  | .fail m => .fail m.s
  | .panic x m => .panic x m.s
  | .timeout => .timeout

/-- The counters afterwards; `c` are those before. -/
def COut.counters (c : Counters) : COut → Counters
  | .ok _ m => m.c
  | .fail m => m.c
  | .panic _ m => m.c
  | .timeout => c

/-- The evaluation of the start rule by `parse` (logstash_config.go:12620-12627), from the counters `cnt` and `c`. -/
def run (s : Settings) (r : Rule) (noMatch : Bytes) (cnt : Nat) (c : Counters) (data : Bytes) (ff : List FF) : COut :=
  evalRuleC (evalC s.opts noMatch gram (parseFuel data)) gram r
    ⟨{ St.start data ff with cnt := cnt }.firstRead s.opts, c⟩

/-- `Parse(filename, data, opts...)` (logstash_config.go:12019-12021, 12586-12651) with the option
`Statistics(&stats, noMatch)`, where `stats` holds the counters `cnt` (`ExprCnt`) and `c` (`ChoiceAltCnt`): the result,
`farthestFailure`, and the counters afterwards. -/
def parseStats (s : Settings) (noMatch : Bytes) (cnt : Nat) (c : Counters) (filename data : Bytes) (ff : List FF) :
    (CallRes × List FF × Nat) × Counters :=
  match Rule.ofName s.entrypoint with
  | none =>
    ((.returned (.done .nil (dedupe filename [] ((St.start data ff).addErr invalidEntrypoint).errs)), ff, cnt), c)
  | some r =>
    let x := run s r noMatch cnt c data ff
    (finishCall s.recover filename ff cnt x.out, x.counters c)

end Verif.Stats
