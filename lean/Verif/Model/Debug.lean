import Verif.Model.Entry
/-
The options `Debug(true)` and `InitState(key, value)` (logstash_config.go:11920-11928, 11983-11990): the engine with the
lines it prints and with the whole dictionary `cur.state`.

Simplifications: a printed line is kept as its parts, not as text (`fmt.Printf` with `%#U`, logstash_config.go:12404-12412);
`restore` sets the point also if the offset is the same, where it is the same point; `Memoize` is ignored here.
-/
namespace Verif.Debug
open Verif

/-- What `print` puts behind the indentation: `>`, `<` or `MATCH` (logstash_config.go:12414-12422, 12683, 12778). -/
inductive Mark
  | enter
  | leave
  | matched
deriving DecidableEq, Repr

/-- A printed line (`print`, logstash_config.go:12404-12412): the number of spaces at its start, the mark, the point of the
parser, the text and the current rune. -/
structure Line where
  indent : Nat
  mark : Mark
  pos : Pos
  text : Bytes
  rn : Nat
deriving DecidableEq, Repr

/-- A value in `cur.state`: the warnings (`exceptionalCommentsWarnings`, logstash_config_helper.go:14), or a value of the
caller, of some type `υ`. -/
inductive SVal (υ : Type)
  | warnings (w : List Bytes)
  | user (v : υ)

/-- `storeDict` (logstash_config.go:12249-12250). -/
abbrev Dict (υ : Type) := Bytes → Option (SVal υ)

/-- `exceptionalCommentWarning` (logstash_config_options.go:16). -/
def warnKey : Bytes := b!"__exceptionalCommentWarning"

/-- `d[key] = v`. -/
def Dict.set {υ : Type} (d : Dict υ) (key : Bytes) (v : SVal υ) : Dict υ := fun k => if k = key then some v else d k

/-- `warnings, _ := d[exceptionalCommentWarning].(exceptionalCommentsWarnings)` (logstash_config_helper.go:42, 130):
empty if there is no value or a value of another type. -/
def Dict.warns {υ : Type} (d : Dict υ) : List Bytes :=
  match d warnKey with
  | some (.warnings w) => w
  | _ => []

/-- `cloneState` (logstash_config.go:12523-12538), the copy: `clone` is the method `Clone` of the values of the caller, or
does nothing for those without one; the warnings have one (logstash_config_helper.go:16-20). -/
def Dict.copy {υ : Type} (clone : υ → υ) (d : Dict υ) : Dict υ := fun k =>
  match d k with
  | some (.user v) => some (.user (clone v))
  | x => x

/-- The options `InitState` in the order given (logstash_config.go:11983-11990, 12270), on the empty dictionary
(:12252-12269). -/
def Dict.init {υ : Type} (l : List (Bytes × υ)) : Dict υ := l.foldl (fun d x => d.set x.1 (.user x.2)) fun _ => none

/-- The parser with `cur.state`, `depth` and what it printed.  The field `warns` of `s` is not used: the warnings are in
`dict`. -/
structure DSt (υ : Type) where
  s : St
  dict : Dict υ
  depth : Nat
  out : List Line

/-- Outcome of evaluating an expression, see `Out`. -/
inductive DOut (υ : Type)
  | ok (v : Val) (m : DSt υ)
  | fail (m : DSt υ)
  | panic (msg : Bytes) (m : DSt υ)
  | timeout

/-- What is fixed during a call: the flag `debug`, the options and `Clone`. -/
structure Env (υ : Type) where
  dbg : Bool
  o : Opts
  clone : υ → υ

section
variable {υ : Type} (E : Env υ)

/-- `print` with an indentation of `depth` spaces (logstash_config.go:12404-12412). -/
def DSt.print (mark : Mark) (text : Bytes) (m : DSt υ) : DSt υ :=
  { m with out := m.out ++ [⟨m.depth, mark, m.s.pt.pos, text, m.s.pt.rn⟩] }

/-- `in` (logstash_config.go:12414-12417), called only if `debug` is set. -/
def DSt.enter (name : Bytes) (m : DSt υ) : DSt υ :=
  if E.dbg then DSt.print .enter name { m with depth := m.depth + 1 } else m

/-- `out` (logstash_config.go:12419-12422), deferred only if `debug` is set. -/
def DSt.leave (name : Bytes) (m : DSt υ) : DSt υ :=
  if E.dbg then DSt.print .leave name { m with depth := m.depth - 1 } else m

/-- The line `MATCH` (logstash_config.go:12682-12684, 12777-12779). -/
def DSt.matched (start : Pt) (m : DSt υ) : DSt υ :=
  if E.dbg then m.print .matched (sliceFrom start m.s.pt) else m

/-- A method that starts with `defer p.out(p.in(name))` (e.g. logstash_config.go:12665-12667): the deferred call runs also
when a panic passes. -/
def block (name : Bytes) (f : DSt υ → DOut υ) (m : DSt υ) : DOut υ :=
  match f (m.enter E name) with
  | .ok v t => .ok v (t.leave E name)
  | .fail t => .fail (t.leave E name)
  | .panic x t => .panic x (t.leave E name)
  | .timeout => .timeout

/-- `restore` (logstash_config.go:12490-12498). -/
def DSt.restore (pt : Pt) (m : DSt υ) : DSt υ :=
  let m := m.enter E b!"restore"
  DSt.leave E b!"restore" { m with s := { m.s with pt := pt } }

/-- `cloneState` (logstash_config.go:12523-12538), the parser afterwards; the copy is `m.dict.copy E.clone`. -/
def DSt.cloned (m : DSt υ) : DSt υ := (m.enter E b!"cloneState").leave E b!"cloneState"

/-- `restoreState` (logstash_config.go:12542-12548). -/
def DSt.restoreState (d : Dict υ) (m : DSt υ) : DSt υ :=
  let m := m.enter E b!"restoreState"
  DSt.leave E b!"restoreState" { m with dict := d }

/-- `pushV` and `popV` (logstash_config.go:12346-12376): the variables at the top. -/
def DSt.vars (f : Frame) (m : DSt υ) : DSt υ := { m with s := { m.s with frame := f } }

/-- `parseLitMatcher` (logstash_config.go:12953-12973), see `litLoop`. -/
def litLoopD (want : Bytes) (start : Pt) : Bytes → DSt υ → DOut υ
  | [], m =>
    let s := m.s.failAt true start.pos want
    .ok (.bytes (sliceFrom start s.pt)) { m with s := s }
  | c :: cs, m =>
    if m.s.pt.rn = c.toNat then litLoopD want start cs { m with s := m.s.read E.o }
    else .fail (DSt.restore E start { m with s := m.s.failAt false start.pos want })

/-- `parseSeqExpr` (logstash_config.go:13068-13090), see `seqLoop`. -/
def seqLoopD (ev : Ex → DSt υ → DOut υ) (pt : Pt) (d : Dict υ) : List Ex → List Val → DSt υ → DOut υ
  | [], acc, m => .ok (.list acc) m
  | e :: es, acc, m =>
    match ev e m with
    | .ok v m' => seqLoopD ev pt d es (acc ++ [v]) m'
    | .fail m' => .fail ((m'.restoreState E d).restore E pt)
    | .panic x m' => .panic x m'
    | .timeout => .timeout

/-- `parseChoiceExpr` (logstash_config.go:12914-12936), see `choiceLoop`. -/
def choiceLoopD (ev : Ex → DSt υ → DOut υ) : List Ex → DSt υ → DOut υ
  | [], m => .fail m
  | e :: es, m =>
    match ev e ((m.cloned E).vars []) with
    | .ok v m' => .ok v (m'.vars m.s.frame)
    | .fail m' => choiceLoopD ev es ((m'.vars m.s.frame).restoreState E (m.dict.copy E.clone))
    | .panic x m' => .panic x m'
    | .timeout => .timeout

/-- `parseZeroOrMoreExpr` (logstash_config.go:13104-13122), see `starLoop`. -/
def starLoopD (ev : DSt υ → DOut υ) : Nat → List Val → DSt υ → DOut υ
  | 0, _, _ => .timeout
  | n + 1, acc, m =>
    match ev (m.vars []) with
    | .ok v m' => starLoopD ev n (acc ++ [v]) (m'.vars m.s.frame)
    | .fail m' => .ok (.list acc) (m'.vars m.s.frame)
    | .panic x m' => .panic x m'
    | .timeout => .timeout

/-- `parseRule` (logstash_config.go:12664-12691), see `evalRule`. -/
def evalRuleD (ev : Ex → DSt υ → DOut υ) (G : Gram) (r : Rule) : DSt υ → DOut υ :=
  block E (b!"parseRule " ++ r.name) fun m =>
    match ev (G r) { m with s := { m.s with rstack := r :: m.s.rstack, frame := [] } } with
    | .ok v m' => .ok v (DSt.matched E m.s.pt { m' with s := { m'.s with rstack := m.s.rstack, frame := m.s.frame } })
    | .fail m' => .fail { m' with s := { m'.s with rstack := m.s.rstack, frame := m.s.frame } }
    | .panic x m' => .panic x m'
    | .timeout => .timeout

/-- A state code block, see `runState`: `initState` (logstash_config_helper.go:22-28) and `warnComment` (:127-135). -/
def runStateD (c : StCode) (m : DSt υ) : DSt υ :=
  match c with
  | .initState =>
    match m.dict warnKey with
    | none => { m with dict := m.dict.set warnKey (.warnings []) }
    | some _ => m
  | .warnComment =>
    if E.o.excWarn && m.s.curText.contains 35 then
      { m with dict := m.dict.set warnKey (.warnings (m.dict.warns ++ [b!"exceptional comment at " ++ posStr m.s.curPos])) }
    else m

/-- A step that neither evaluates subexpressions nor prints nor touches `cur.state`. -/
def lift (m : DSt υ) : Out → DOut υ
  | .ok v s => .ok v { m with s := s }
  | .fail s => .fail { m with s := s }
  | .panic x s => .panic x { m with s := s }
  | .timeout => .timeout

/-- The name with which a `parseXxxExpr` method announces itself (the first lines of logstash_config.go:12759-13137). -/
def exName : Ex → Bytes
  | .action .. => b!"parseActionExpr"
  | .andCode _ => b!"parseAndCodeExpr"
  | .any => b!"parseAnyMatcher"
  | .cls .. => b!"parseCharClassMatcher"
  | .choice _ => b!"parseChoiceExpr"
  | .labeled .. => b!"parseLabeledExpr"
  | .lit _ => b!"parseLitMatcher"
  | .not _ => b!"parseNotExpr"
  | .plus _ => b!"parseOneOrMoreExpr"
  | .ref r => b!"parseRuleRefExpr " ++ r.name
  | .seq _ => b!"parseSeqExpr"
  | .state _ => b!"parseStateCodeExpr"
  | .star _ => b!"parseZeroOrMoreExpr"
  | .opt _ => b!"parseZeroOrOneExpr"

/-- The `parseXxxExpr` methods (logstash_config.go:12759-13137) behind their first lines, see `step`. -/
def bodyD (G : Gram) (ev : Ex → DSt υ → DOut υ) (n : Nat) (e : Ex) (m : DSt υ) : DOut υ :=
  match e with
  | .action a e =>
    match ev e m with
    | .ok _ m' =>
      let s' := { m'.s with curPos := m.s.pt.pos, curText := sliceFrom m.s.pt m'.s.pt }
      let d := m'.dict.copy E.clone
      let m' := DSt.cloned E { m' with s := s' }
      match runAct E.o a s'.frame s'.curPos s'.curText m'.dict.warns with
      | .val v => .ok v ((m'.restoreState E d).matched E m.s.pt)
      | .err v msg => .ok v ((DSt.restoreState E d { m' with s := s'.addErrAt msg m.s.pt.pos }).matched E m.s.pt)
      | .panic x => .panic x m'
    | r => r
  | .andCode c =>
    let d := m.dict.copy E.clone
    let m := m.cloned E
    match lift m (runCode c m.s) with
    | .ok v m' => .ok v (m'.restoreState E d)
    | .fail m' => .fail (m'.restoreState E d)
    | r => r
  | .any | .cls .. => lift m (step E.o G (fun _ _ => .timeout) n e m.s)
  | .lit v => litLoopD E (litWant v) m.s.pt v m
  | .state c => .ok .nil (runStateD E c m)
  | .choice alts => choiceLoopD E ev alts m
  | .labeled l e =>
    match ev e (m.vars []) with
    | .ok v m' => .ok v (m'.vars ((l, v) :: m.s.frame))
    | .fail m' => .fail (m'.vars m.s.frame)
    | r => r
  | .not e =>
    let d := m.dict.copy E.clone
    let m0 := m.cloned E
    match ev e { m0 with s := { m0.s with frame := [], mfInv := !m0.s.mfInv } } with
    | .ok _ m' =>
      let m' := { m' with s := { m'.s with frame := m.s.frame, mfInv := m.s.mfInv } }
      .fail ((m'.restoreState E d).restore E m.s.pt)
    | .fail m' =>
      let m' := { m' with s := { m'.s with frame := m.s.frame, mfInv := m.s.mfInv } }
      .ok .nil ((m'.restoreState E d).restore E m.s.pt)
    | r => r
  | .plus e =>
    match ev e (m.vars []) with
    | .ok v m' => starLoopD (ev e) n [v] (m'.vars m.s.frame)
    | .fail m' => .fail (m'.vars m.s.frame)
    | r => r
  | .ref r => evalRuleD E ev G r m
  | .seq es => seqLoopD E ev m.s.pt (m.dict.copy E.clone) es [] (m.cloned E)
  | .star e => starLoopD (ev e) n [] m
  | .opt e =>
    match ev e (m.vars []) with
    | .ok v m' => .ok v (m'.vars m.s.frame)
    | .fail m' => .ok .nil (m'.vars m.s.frame)
    | r => r

/-- The `parseXxxExpr` methods (logstash_config.go:12759-13137). -/
def stepD (G : Gram) (ev : Ex → DSt υ → DOut υ) (n : Nat) (e : Ex) : DSt υ → DOut υ :=
  block E (exName e) (bodyD E G ev n e)

/-- `parseExpr` (logstash_config.go:12694-12757), see `eval`. -/
def evalD (G : Gram) : Nat → Ex → DSt υ → DOut υ
  | 0, _, _ => .timeout
  | n + 1, e, m =>
    if tooMany E.o (m.s.cnt + 1) then .panic maxExprMsg { m with s := { m.s with cnt := m.s.cnt + 1 } }
    else stepD E G (evalD G n) n e { m with s := { m.s with cnt := m.s.cnt + 1 } }

end

/-- The parser as the other engines see it: with the warnings of the dictionary. -/
def DSt.st {υ : Type} (m : DSt υ) : St := { m.s with warns := m.dict.warns }

/-- The outcome without the dictionary and the lines. -/
def DOut.out {υ : Type} : DOut υ → Out
  | .ok v m => .ok v m.st
  | .fail m => .fail m.st
  | .panic x m => .panic x m.st
  | .timeout => .timeout

/-- The lines printed by `parse`: those of the evaluation and, for a panic with `Recover`, those of the handler
(logstash_config.go:12598-12615). -/
def DOut.lines {υ : Type} (E : Env υ) (recover : Bool) : DOut υ → List Line
  | .ok _ m => m.out
  | .fail m => m.out
  | .panic _ m => if recover then ((m.enter E b!"panic handler").leave E b!"panic handler").out else m.out
  | .timeout => []

/-- The evaluation of the start rule by `parse` (logstash_config.go:12620-12627). -/
def run {υ : Type} (E : Env υ) (r : Rule) (cnt : Nat) (d : Dict υ) (data : Bytes) (ff : List FF) : DOut υ :=
  evalRuleD E (evalD E gram (parseFuel data)) gram r ⟨{ St.start data ff with cnt := cnt }.firstRead E.o, d, 0, []⟩

/-- `Parse(filename, data, opts...)` (logstash_config.go:12019-12021, 12586-12651) with the options `InitState` in `states`;
`clone` is what the method `Clone` of their values does.  The result, `farthestFailure`, `ExprCnt` and the lines printed. -/
def parseDebug {υ : Type} (s : Settings) (states : List (Bytes × υ)) (clone : υ → υ) (cnt : Nat)
    (filename data : Bytes) (ff : List FF) : (CallRes × List FF × Nat) × List Line :=
  match Rule.ofName s.entrypoint with
  | none =>
    ((.returned (.done .nil (dedupe filename [] ((St.start data ff).addErr invalidEntrypoint).errs)), ff, cnt), [])
  | some r =>
    let x := run ⟨s.debug, s.opts, clone⟩ r cnt (Dict.init states) data ff
    (finishCall s.recover filename ff cnt x.out, x.lines ⟨s.debug, s.opts, clone⟩ s.recover)

end Verif.Debug
