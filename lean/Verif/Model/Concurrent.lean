import Verif.Model.Parse
/-
`Parse` and `GetFarthestFailure` called from several goroutines at the same time.

The only mutable state shared between calls is the package variable `farthestFailure`
(parse_error_helper.go:15); the grammar `g` is only read, and `statePool`
(logstash_config.go:12512) is a `sync.Pool` whose effect is modelled in `Model/StatePool`.  A call is modelled as a program (`Prog`) whose
visible steps are the single reads and writes of that variable, in the order in which the code
performs them; everything between two accesses is local.

Simplifications: every access of the variable is one indivisible step and all goroutines see the
same sequence of writes (the Go memory model promises less for a racy program, so real
executions can only be worse); the slice is a value, so that two goroutines appending into the
same spare capacity do not overwrite each other's entry.
-/
namespace Verif

/-- A program over the shared variable `farthestFailure` (parse_error_helper.go:15). -/
inductive Prog (α : Type) : Type
  | ret (a : α)
  | read (k : List FF → Prog α)
  | write (v : List FF) (k : Prog α)

/-- Sequential composition (the Go statements one after the other). -/
def Prog.bind {α β : Type} : Prog α → (α → Prog β) → Prog β
  | .ret a, f => f a
  | .read k, f => .read fun v => (k v).bind f
  | .write v k, f => .write v (k.bind f)

/-- The run-time panic of `farthestFailure[0]` on an empty slice
(parse_error_helper.go:47, 50). -/
def indexMsg : Bytes := b!"runtime error: index out of range [0] with length 0"

/-- `pushError` (parse_error_helper.go:45-60), access by access: `len(farthestFailure)` and
`farthestFailure[0].pos` in line 47, `farthestFailure[0].pos` in line 50, the range expression in
line 51 and the operand of `append` in line 56. -/
def pushErrorC (e : FF) (s : St) : Prog Out :=
  .read fun v1 =>
    if v1.isEmpty then .write [e] (.ret (.fail s))
    else .read fun v2 =>
      match v2 with
      | [] => .ret (.panic indexMsg s)
      | f2 :: _ =>
        if e.pos > f2.pos then .write [e] (.ret (.fail s))
        else .read fun v3 =>
          match v3 with
          | [] => .ret (.panic indexMsg s)
          | f3 :: _ =>
            if e.pos = f3.pos then
              .read fun v4 =>
                if v4.any (fun x => x.msg == e.msg) then .ret (.fail s)
                else .read fun v5 => .write (v5 ++ [e]) (.ret (.fail s))
            else .ret (.fail s)

/-- The code predicates (`runCode` with explicit accesses): `initParser`
(logstash_config_helper.go:30-33), `pushError` and `fatalError`
(parse_error_helper.go:65-77). -/
def runCodeC (c : Code) (s : St) : Prog Out :=
  match c with
  | .initParser => .write [] (.ret (.ok .nil s))
  | .pushError msg => pushErrorC ⟨msg, s.curPos, s.curText, s.errPos⟩ s
  | .fatalError msg =>
    .write [⟨msg, s.curPos, s.curText, s.errPos⟩]
      (.ret (.panic (ffHeader s.curPos s.errPos s.curText ++ ffLine msg) s))

/-- `parseSeqExpr` (logstash_config.go:13068-13090), as `seqLoop`. -/
def seqLoopC (ev : Ex → St → Prog Out) (s0 : St) : List Ex → List Val → St → Prog Out
  | [], acc, s => .ret (.ok (.list acc) s)
  | e :: es, acc, s =>
    (ev e s).bind fun
      | .ok v s' => seqLoopC ev s0 es (acc ++ [v]) s'
      | .fail s' => .ret (.fail { s' with warns := s0.warns, pt := s0.pt })
      | .panic m s' => .ret (.panic m s')
      | .timeout => .ret .timeout

/-- `parseChoiceExpr` (logstash_config.go:12914-12936), as `choiceLoop`. -/
def choiceLoopC (ev : Ex → St → Prog Out) : List Ex → St → Prog Out
  | [], s => .ret (.fail s)
  | e :: es, s =>
    (ev e { s with frame := [] }).bind fun
      | .ok v s' => .ret (.ok v { s' with frame := s.frame })
      | .fail s' => choiceLoopC ev es { s' with frame := s.frame, warns := s.warns }
      | .panic m s' => .ret (.panic m s')
      | .timeout => .ret .timeout

/-- `parseZeroOrMoreExpr` (logstash_config.go:13104-13122), as `starLoop`. -/
def starLoopC (ev : St → Prog Out) : Nat → List Val → St → Prog Out
  | 0, _, _ => .ret .timeout
  | n + 1, acc, s =>
    (ev { s with frame := [] }).bind fun
      | .ok v s' => starLoopC ev n (acc ++ [v]) { s' with frame := s.frame }
      | .fail s' => .ret (.ok (.list acc) { s' with frame := s.frame })
      | .panic m s' => .ret (.panic m s')
      | .timeout => .ret .timeout

/-- `parseRule` (logstash_config.go:12664-12691), as `evalRule`. -/
def evalRuleC (ev : Ex → St → Prog Out) (G : Gram) (r : Rule) (s : St) : Prog Out :=
  (ev (G r) { s with rstack := r :: s.rstack, frame := [] }).bind fun
    | .ok v s' => .ret (.ok v { s' with rstack := s.rstack, frame := s.frame })
    | .fail s' => .ret (.fail { s' with rstack := s.rstack, frame := s.frame })
    | .panic m s' => .ret (.panic m s')
    | .timeout => .ret .timeout

/-- The `parseXxxExpr` methods (logstash_config.go:12759-13137), as `step`.  Expressions that
cannot reach a code predicate without evaluating a sub-expression are those of `step`. -/
def stepC (o : Opts) (G : Gram) (ev : Ex → St → Prog Out) (n : Nat) (e : Ex) (s : St) :
    Prog Out :=
  match e with
  | .action a e =>
    (ev e s).bind fun
      | .ok _ s' =>
        let s' := { s' with curPos := s.pt.pos, curText := sliceFrom s.pt s'.pt }
        match runAct o a s'.frame s'.curPos s'.curText s'.warns with
        | .val v => .ret (.ok v s')
        | .err v msg => .ret (.ok v (s'.addErrAt msg s.pt.pos))
        | .panic m => .ret (.panic m s')
      | r => .ret r
  | .andCode c => runCodeC c s
  | .any =>
    .ret (if s.pt.atEof then .fail (s.failAt false s.pt.pos b!".")
    else
      let s' := (s.read o).failAt true s.pt.pos b!"."
      .ok (.bytes (sliceFrom s.pt s'.pt)) s')
  | .cls val inv chars ranges =>
    .ret (if s.pt.atEof then .fail (s.failAt false s.pt.pos val)
    else if clsMatches inv chars ranges s.pt.rn then
      let s' := (s.read o).failAt true s.pt.pos val
      .ok (.bytes (sliceFrom s.pt s'.pt)) s'
    else .fail (s.failAt false s.pt.pos val))
  | .choice alts => choiceLoopC ev alts s
  | .labeled l e =>
    (ev e { s with frame := [] }).bind fun
      | .ok v s' => .ret (.ok v { s' with frame := (l, v) :: s.frame })
      | .fail s' => .ret (.fail { s' with frame := s.frame })
      | r => .ret r
  | .lit v => .ret (litLoop o (litWant v) s.pt v s)
  | .not e =>
    (ev e { s with frame := [], mfInv := !s.mfInv }).bind fun
      | .ok _ s' =>
        .ret (.fail { s' with frame := s.frame, warns := s.warns, pt := s.pt, mfInv := s.mfInv })
      | .fail s' =>
        .ret (.ok .nil
          { s' with frame := s.frame, warns := s.warns, pt := s.pt, mfInv := s.mfInv })
      | r => .ret r
  | .plus e =>
    (ev e { s with frame := [] }).bind fun
      | .ok v s' => starLoopC (ev e) n [v] { s' with frame := s.frame }
      | .fail s' => .ret (.fail { s' with frame := s.frame })
      | r => .ret r
  | .ref r => evalRuleC ev G r s
  | .seq es => seqLoopC ev s es [] s
  | .state c => .ret (.ok .nil (runState o c s))
  | .star e => starLoopC (ev e) n [] s
  | .opt e =>
    (ev e { s with frame := [] }).bind fun
      | .ok v s' => .ret (.ok v { s' with frame := s.frame })
      | .fail s' => .ret (.ok .nil { s' with frame := s.frame })
      | r => .ret r

/-- `parseExpr` (logstash_config.go:12694-12757), as `eval`. -/
def evalC (o : Opts) (G : Gram) : Nat → Ex → St → Prog Out
  | 0, _, _ => .ret .timeout
  | n + 1, e, s =>
    if tooMany o (s.cnt + 1) then .ret (.panic maxExprMsg { s with cnt := s.cnt + 1 })
    else stepC o G (evalC o G n) n e { s with cnt := s.cnt + 1 }

/-- The end of `parse` (logstash_config.go:12598-12615, 12624-12650), as in `parseWith`. -/
def finishC (filename : Bytes) : Out → ParseRes
  | .ok v s => .done v (dedupe filename [] s.errs)
  | .fail s =>
    .done .nil (dedupe filename []
      (if s.errs.isEmpty then s.addErrAt (noMatchMsg s.mfExp) s.mfPos else s).errs)
  | .panic m s => .done .nil (dedupe filename [] (s.addErr m).errs)
  | .timeout => .diverges

/-- A call `Parse(filename, data, opts...)` (logstash_config.go:12019-12021) as a program over
the shared variable. -/
def parseC (o : Opts) (filename data : Bytes) : Prog ParseRes :=
  (evalRuleC (evalC o gram (parseFuel data)) gram .init
      ((St.start data []).firstRead o)).bind
    fun out => .ret (finishC filename out)

/-- A call of `GetFarthestFailure` (parse_error_helper.go:19-29) as a program over the shared
variable: `len(farthestFailure)` in line 20, three times `farthestFailure[0]` in line 22 and the
range expression in line 23.  `none` is a run-time panic, which nothing recovers. -/
def getFarthestFailureC : Prog (Option (Bytes × Bool)) :=
  .read fun v1 =>
    if v1.isEmpty then .ret (some ([], false))
    else .read fun v2 =>
      match v2 with
      | [] => .ret none
      | f2 :: _ => .read fun v3 =>
        match v3 with
        | [] => .ret none
        | f3 :: _ => .read fun v4 =>
          match v4 with
          | [] => .ret none
          | f4 :: _ => .read fun v5 =>
            .ret (some (ffHeader f2.cpos f3.pos f4.ctext ++
              v5.flatMap (fun e => ffLine e.msg), true))

/-- What a call returns: the result of a `Parse` or of a `GetFarthestFailure`
(parse_error_helper.go:19, logstash_config.go:12019). -/
inductive Ret
  | parsed (r : ParseRes)
  | report (r : Option (Bytes × Bool))

/-- A call of the package (logstash_config.go:12019, parse_error_helper.go:19). -/
inductive Call
  | parse (o : Opts) (filename data : Bytes)
  | getFarthestFailure

/-- The program of a call (logstash_config.go:12019-12021, parse_error_helper.go:19-29). -/
def Call.prog : Call → Prog Ret
  | .parse o filename data => (parseC o filename data).bind fun r => .ret (.parsed r)
  | .getFarthestFailure => getFarthestFailureC.bind fun r => .ret (.report r)

/-- One step of a program: its next access of the shared variable
(parse_error_helper.go:15).  A finished program makes no step. -/
def Prog.tick {α : Type} (m : List FF) : Prog α → List FF × Prog α
  | .ret a => (m, .ret a)
  | .read k => (m, k m)
  | .write v k => (v, k)

/-- The shared variable (parse_error_helper.go:15) and the calls under way, each in its own
goroutine. -/
structure Pool where
  mem : List FF
  progs : List (Prog Ret)

/-- Goroutine `i` performs its next access (parse_error_helper.go:15). -/
def Pool.tick (P : Pool) (i : Nat) : Pool :=
  match P.progs[i]? with
  | some p => ⟨(p.tick P.mem).1, P.progs.set i (p.tick P.mem).2⟩
  | none => P

/-- The goroutines are scheduled in the given order, one access (parse_error_helper.go:15) at a
time. -/
def Pool.run (P : Pool) : List Nat → Pool
  | [] => P
  | i :: is => (P.tick i).run is

/-- The calls `cs` about to start, with `m` in the shared variable
(parse_error_helper.go:15). -/
def Pool.start (m : List FF) (cs : List Call) : Pool := ⟨m, cs.map Call.prog⟩

/-- What goroutine `i` returned, if it has finished (logstash_config.go:12019). -/
def Pool.returned (P : Pool) (i : Nat) : Option Ret :=
  match P.progs[i]? with
  | some (.ret r) => some r
  | _ => none

end Verif
