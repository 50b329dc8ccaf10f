import Verif.Model.Entry
/-
The parsing engine with the option `Memoize(true)` (logstash_config.go:11930-11942): the packrat
table of `getMemoized` and `setMemoized`.  A node of the grammar is identified by its place (the code
uses the address of the node in `g`, and no node occurs twice).
-/
namespace Verif.Memo
open Verif

/-- The keys of the table: a rule, or a node of the expression of a rule, named by the path to it
(logstash_config.go:12317-12319). -/
inductive Key
  | rule (r : Rule)
  | node (r : Rule) (path : List Nat)
deriving DecidableEq, Repr, Inhabited

/-- The key of a direct subexpression. -/
def Key.sub : Key → Nat → Key
  | .rule r, i => .node r [i]
  | .node r p, i => .node r (i :: p)

/-- `resultTuple` (logstash_config.go:12271-12276): the value, `none` for a failure, and the end. -/
structure Tuple where
  val : Option Val
  fin : Pt
deriving Inhabited

/-- The table, newest entry first (logstash_config.go:12317-12319). -/
abbrev Table := List ((Key × Nat) × Tuple)

/-- The parser with its table (logstash_config.go:12285-12345). -/
structure MSt where
  s : St
  memo : Table

/-- Outcome of evaluating an expression, see `Out`. -/
inductive MOut
  | ok (v : Val) (m : MSt)
  | fail (m : MSt)
  | panic (msg : Bytes) (m : MSt)
  | timeout

/-- `getMemoized` (logstash_config.go:12555-12565). -/
def MSt.get (m : MSt) (k : Key) : Option Tuple :=
  (m.memo.find? fun x => Nat.beq x.1.2 m.s.pt.offset && decide (x.1.1 = k)).map (·.2)

/-- `setMemoized` (logstash_config.go:12567-12577); a later entry hides the earlier one. -/
def MSt.set (m : MSt) (pt : Pt) (k : Key) (t : Tuple) : MSt := { m with memo := ((k, pt.offset), t) :: m.memo }

/-- The use of a table entry (logstash_config.go:12669-12675, 12697-12703). -/
def hit (t : Tuple) (m : MSt) : MOut :=
  let m := { m with s := { m.s with pt := t.fin } }
  match t.val with
  | some v => .ok v m
  | none => .fail m

/-- Store the outcome (logstash_config.go:12687-12689, 12753-12755); nothing is stored when a panic passes. -/
def store (k : Key) (start : Pt) : MOut → MOut
  | .ok v m => .ok v (m.set start k ⟨some v, m.s.pt⟩)
  | .fail m => .fail (m.set start k ⟨none, m.s.pt⟩)
  | r => r

/-- Lift a step that does not evaluate subexpressions (logstash_config.go:12759-13137). -/
def lift (memo : Table) : Out → MOut
  | .ok v s => .ok v ⟨s, memo⟩
  | .fail s => .fail ⟨s, memo⟩
  | .panic x s => .panic x ⟨s, memo⟩
  | .timeout => .timeout

/-- `parseSeqExpr` (logstash_config.go:13068-13090), see `seqLoop`. -/
def seqLoopM (ev : Key → Ex → MSt → MOut) (k : Key) (s0 : St) : Nat → List Ex → List Val → MSt → MOut
  | _, [], acc, m => .ok (.list acc) m
  | i, e :: es, acc, m =>
    match ev (k.sub i) e m with
    | .ok v m' => seqLoopM ev k s0 (i + 1) es (acc ++ [v]) m'
    | .fail m' => .fail { m' with s := { m'.s with warns := s0.warns, pt := s0.pt } }
    | .panic x m' => .panic x m'
    | .timeout => .timeout

/-- `parseChoiceExpr` (logstash_config.go:12914-12936), see `choiceLoop`. -/
def choiceLoopM (ev : Key → Ex → MSt → MOut) (k : Key) : Nat → List Ex → MSt → MOut
  | _, [], m => .fail m
  | i, e :: es, m =>
    match ev (k.sub i) e { m with s := { m.s with frame := [] } } with
    | .ok v m' => .ok v { m' with s := { m'.s with frame := m.s.frame } }
    | .fail m' => choiceLoopM ev k (i + 1) es { m' with s := { m'.s with frame := m.s.frame, warns := m.s.warns } }
    | .panic x m' => .panic x m'
    | .timeout => .timeout

/-- `parseZeroOrMoreExpr` (logstash_config.go:13104-13122), see `starLoop`. -/
def starLoopM (ev : MSt → MOut) : Nat → List Val → MSt → MOut
  | 0, _, _ => .timeout
  | n + 1, acc, m =>
    match ev { m with s := { m.s with frame := [] } } with
    | .ok v m' => starLoopM ev n (acc ++ [v]) { m' with s := { m'.s with frame := m.s.frame } }
    | .fail m' => .ok (.list acc) { m' with s := { m'.s with frame := m.s.frame } }
    | .panic x m' => .panic x m'
    | .timeout => .timeout

/-- `parseRule` (logstash_config.go:12664-12691) with `memoize`. -/
def evalRuleM (ev : Key → Ex → MSt → MOut) (G : Gram) (r : Rule) (m : MSt) : MOut :=
  match m.get (.rule r) with
  | some t => hit t m
  | none =>
    store (.rule r) m.s.pt (match ev (.node r []) (G r) { m with s := { m.s with rstack := r :: m.s.rstack, frame := [] } } with
      | .ok v m' => .ok v { m' with s := { m'.s with rstack := m.s.rstack, frame := m.s.frame } }
      | .fail m' => .fail { m' with s := { m'.s with rstack := m.s.rstack, frame := m.s.frame } }
      | .panic x m' => .panic x m'
      | .timeout => .timeout)

/-- The `parseXxxExpr` methods (logstash_config.go:12759-13137), see `step`. -/
def stepM (o : Opts) (G : Gram) (ev : Key → Ex → MSt → MOut) (n : Nat) (k : Key) (e : Ex) (m : MSt) : MOut :=
  match e with
  | .action a e =>
    match ev (k.sub 0) e m with
    | .ok _ m' =>
      let s' := { m'.s with curPos := m.s.pt.pos, curText := sliceFrom m.s.pt m'.s.pt }
      match runAct o a s'.frame s'.curPos s'.curText s'.warns with
      | .val v => .ok v { m' with s := s' }
      | .err v msg => .ok v { m' with s := s'.addErrAt msg m.s.pt.pos }
      | .panic x => .panic x { m' with s := s' }
    | r => r
  | .andCode c => lift m.memo (runCode c m.s)
  | .any | .cls .. | .lit .. | .state _ => lift m.memo (step o G (fun _ _ => .timeout) n e m.s)
  | .choice alts => choiceLoopM ev k 0 alts m
  | .labeled l e =>
    match ev (k.sub 0) e { m with s := { m.s with frame := [] } } with
    | .ok v m' => .ok v { m' with s := { m'.s with frame := (l, v) :: m.s.frame } }
    | .fail m' => .fail { m' with s := { m'.s with frame := m.s.frame } }
    | r => r
  | .not e =>
    match ev (k.sub 0) e { m with s := { m.s with frame := [], mfInv := !m.s.mfInv } } with
    | .ok _ m' => .fail { m' with s := { m'.s with frame := m.s.frame, warns := m.s.warns, pt := m.s.pt, mfInv := m.s.mfInv } }
    | .fail m' => .ok .nil { m' with s := { m'.s with frame := m.s.frame, warns := m.s.warns, pt := m.s.pt, mfInv := m.s.mfInv } }
    | r => r
  | .plus e =>
    match ev (k.sub 0) e { m with s := { m.s with frame := [] } } with
    | .ok v m' => starLoopM (ev (k.sub 0) e) n [v] { m' with s := { m'.s with frame := m.s.frame } }
    | .fail m' => .fail { m' with s := { m'.s with frame := m.s.frame } }
    | r => r
  | .ref r => evalRuleM ev G r m
  | .seq es => seqLoopM ev k m.s 0 es [] m
  | .star e => starLoopM (ev (k.sub 0) e) n [] m
  | .opt e =>
    match ev (k.sub 0) e { m with s := { m.s with frame := [] } } with
    | .ok v m' => .ok v { m' with s := { m'.s with frame := m.s.frame } }
    | .fail m' => .ok .nil { m' with s := { m'.s with frame := m.s.frame } }
    | r => r

/-- `parseExpr` (logstash_config.go:12694-12757) with `memoize`. -/
def evalM (o : Opts) (G : Gram) : Nat → Key → Ex → MSt → MOut
  | 0, _, _, _ => .timeout
  | n + 1, k, e, m =>
    match m.get k with
    | some t => hit t m
    | none =>
      if tooMany o (m.s.cnt + 1) then .panic maxExprMsg { m with s := { m.s with cnt := m.s.cnt + 1 } }
      else store k m.s.pt (stepM o G (evalM o G n) n k e { m with s := { m.s with cnt := m.s.cnt + 1 } })

/-- The outcome without the table. -/
def MOut.out : MOut → Out
  | .ok v m => .ok v m.s
  | .fail m => .fail m.s
  | .panic x m => .panic x m.s
  | .timeout => .timeout

/-- `Parse(filename, data, opts...)` (logstash_config.go:12019-12021, 12586-12651) with the option `Memoize(true)`. -/
def parseMemo (s : Settings) (cnt : Nat) (filename data : Bytes) (ff : List FF) : CallRes × List FF × Nat :=
  match Rule.ofName s.entrypoint with
  | none =>
    (.returned (.done .nil (dedupe filename [] ((St.start data ff).addErr invalidEntrypoint).errs)), ff, cnt)
  | some r =>
    finishCall s.recover filename ff cnt
      (evalRuleM (evalM s.opts gram (parseFuel data)) gram r
        ⟨{ St.start data ff with cnt := cnt }.firstRead s.opts, []⟩).out

end Verif.Memo
