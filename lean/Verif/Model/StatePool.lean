import Verif.Model.Concurrent
/-
The state maps of the parsers, the pool they are taken from, and the stack of label sets.

`Model/Peg` and `Model/Concurrent` treat `cur.state` as a value that is copied and restored, and the
stack of label sets as its top.  Here both are what the code has: maps in a heap that all goroutines
share, taken from and returned to the one `statePool` (logstash_config.go:12512-12548), and a slice of
maps that is reused (`pushV` and `popV`, :12347-12377).  A call is a program (`HProg`) whose visible steps
are the single operations on maps, on the pool and on `farthestFailure`.

Only one key of a state map is ever used, so a map is the value under this key, or `none`.

Simplifications: an operation on a map or on the pool is one indivisible step.  (For the pool that is
what `sync.Pool` promises; two operations on the same map by different goroutines at the same time
would be a data race, and C67 shows that the same map is never used by two goroutines.)
-/
namespace Verif

/-- The content of a state map: the value under the key `__exceptionalCommentWarning`
(logstash_config_options.go:16, logstash_config_helper.go:22-28), `none` if there is no such key. -/
abbrev MapVal := Option (List Bytes)

/-- A program over the heap of state maps, the pool (logstash_config.go:12512-12514) and the shared
variable `farthestFailure` (parse_error_helper.go:15).  Maps are named by their address. -/
inductive HProg (α : Type) : Type
  | ret (a : α)
  /-- `make(storeDict)` -/
  | new (k : Nat → HProg α)
  /-- `statePool.Get()` -/
  | get (k : Nat → HProg α)
  /-- `statePool.Put(m)` -/
  | put (m : Nat) (k : HProg α)
  /-- `m[key]` -/
  | load (m : Nat) (k : MapVal → HProg α)
  /-- `m[key] = v` and `delete(m, key)` -/
  | store (m : Nat) (v : MapVal) (k : HProg α)
  /-- a read of `farthestFailure` -/
  | read (k : List FF → HProg α)
  /-- a write of `farthestFailure` -/
  | write (v : List FF) (k : HProg α)

/-- Sequential composition (the Go statements one after the other). -/
def HProg.bind {α β : Type} : HProg α → (α → HProg β) → HProg β
  | .ret a, f => f a
  | .new k, f => .new fun a => (k a).bind f
  | .get k, f => .get fun a => (k a).bind f
  | .put m k, f => .put m (k.bind f)
  | .load m k, f => .load m fun v => (k v).bind f
  | .store m v k, f => .store m v (k.bind f)
  | .read k, f => .read fun v => (k v).bind f
  | .write v k, f => .write v (k.bind f)

/-- A program that only accesses `farthestFailure` (parse_error_helper.go:15). -/
def HProg.ofProg {α : Type} : Prog α → HProg α
  | .ret a => .ret a
  | .read k => .read fun v => ofProg (k v)
  | .write v k => .write v (ofProg k)

/-- The parser (logstash_config.go:12304-12345): `cur` is the address of `cur.state`, `vs` the array
behind `vstack` from its first element to its capacity, `none` for a nil map, and `len` the length of
`vstack`.  The fields `warns` and `frame` of `s` are not used. -/
structure LSt where
  s : St
  cur : Nat
  vs : List (Option Frame)
  len : Nat

/-- Outcome of evaluating an expression, see `Out`. -/
inductive LOut
  | ok (v : Val) (l : LSt)
  | fail (l : LSt)
  | panic (msg : Bytes) (l : LSt)
  | timeout

/-- The outcome of a step that touches neither maps nor stack (logstash_config.go:12759-13137). -/
def LOut.of (l : LSt) : Out → LOut
  | .ok v s => .ok v { l with s := s }
  | .fail s => .fail { l with s := s }
  | .panic m s => .panic m { l with s := s }
  | .timeout => .timeout

/-- The outcome without maps and stack. -/
def LOut.out : LOut → Out
  | .ok v l => .ok v l.s
  | .fail l => .fail l.s
  | .panic m l => .panic m l.s
  | .timeout => .timeout

/-- `pushV` (logstash_config.go:12347-12367).  `grow n` is the spare capacity that `append` adds to a
full slice of length `n`, whose choice Go leaves open; new elements are nil. -/
def LSt.pushV (grow : Nat → Nat) (l : LSt) : LSt :=
  let vs := if l.vs.length = l.len then l.vs ++ none :: List.replicate (grow l.len) none else l.vs
  { l with
    vs := match vs[l.len]? with
      | some (some []) => vs
      | _ => vs.set l.len (some [])
    len := l.len + 1 }

/-- `popV` (logstash_config.go:12369-12378). -/
def LSt.popV (l : LSt) : LSt :=
  { l with
    vs := if ((l.vs[l.len - 1]?).join.getD []).isEmpty then l.vs else l.vs.set (l.len - 1) none
    len := l.len - 1 }

/-- `p.vstack[len(p.vstack)-1]`, as read by the functions that call the actions
(logstash_config.go:10213-11836). -/
def LSt.top (l : LSt) : Option Frame := (l.vs[l.len - 1]?).join

/-- `restore` (logstash_config.go:12490-12498), as in `step`. -/
def LSt.restore (l : LSt) (pt : Pt) : LSt := { l with s := { l.s with pt := pt } }

/-- `cloneState` (logstash_config.go:12524-12538): the keys of the state are copied into a map of the
pool, which is not cleared first. -/
def cloneState {α : Type} (l : LSt) (k : Nat → HProg α) : HProg α :=
  .get fun a => .load l.cur fun
    | some w => .store a (some w) (k a)
    | none => k a

/-- `restoreState` (logstash_config.go:12540-12548) with `Discard` (:12516-12521). -/
def restoreState {α : Type} (l : LSt) (a : Nat) (k : LSt → HProg α) : HProg α :=
  .store l.cur none (.put l.cur (k { l with cur := a }))

/-- `parseSeqExpr` (logstash_config.go:13068-13090), after `cloneState`. -/
def seqLoopH (ev : Ex → LSt → HProg LOut) (pt : Pt) (saved : Nat) : List Ex → List Val → LSt → HProg LOut
  | [], acc, l => .ret (.ok (.list acc) l)
  | e :: es, acc, l =>
    (ev e l).bind fun
      | .ok v l' => seqLoopH ev pt saved es (acc ++ [v]) l'
      | .fail l' => restoreState l' saved fun l' => .ret (.fail (l'.restore pt))
      | .panic m l' => .ret (.panic m l')
      | .timeout => .ret .timeout

/-- `parseChoiceExpr` (logstash_config.go:12914-12936). -/
def choiceLoopH (grow : Nat → Nat) (ev : Ex → LSt → HProg LOut) : List Ex → LSt → HProg LOut
  | [], l => .ret (.fail l)
  | e :: es, l =>
    cloneState l fun saved =>
    (ev e (l.pushV grow)).bind fun
      | .ok v l' => .ret (.ok v l'.popV)
      | .fail l' => restoreState l'.popV saved fun l' => choiceLoopH grow ev es l'
      | .panic m l' => .ret (.panic m l')
      | .timeout => .ret .timeout

/-- `parseZeroOrMoreExpr` (logstash_config.go:13104-13122), see `starLoop`. -/
def starLoopH (grow : Nat → Nat) (ev : LSt → HProg LOut) : Nat → List Val → LSt → HProg LOut
  | 0, _, _ => .ret .timeout
  | n + 1, acc, l =>
    (ev (l.pushV grow)).bind fun
      | .ok v l' => starLoopH grow ev n (acc ++ [v]) l'.popV
      | .fail l' => .ret (.ok (.list acc) l'.popV)
      | .panic m l' => .ret (.panic m l')
      | .timeout => .ret .timeout

/-- `parseRule` (logstash_config.go:12664-12691). -/
def evalRuleH (grow : Nat → Nat) (ev : Ex → LSt → HProg LOut) (G : Gram) (r : Rule) (l : LSt) : HProg LOut :=
  (ev (G r) (({ l with s := { l.s with rstack := r :: l.s.rstack } } : LSt).pushV grow)).bind fun
    | .ok v l' => .ret (.ok v { l'.popV with s := { l'.s with rstack := l.s.rstack } })
    | .fail l' => .ret (.fail { l'.popV with s := { l'.s with rstack := l.s.rstack } })
    | .panic m l' => .ret (.panic m l')
    | .timeout => .ret .timeout

/-- The text of the run-time panic of `m[lab.label] = val` (logstash_config.go:12946-12947) for a nil map. -/
def nilMapMsg : Bytes := b!"assignment to entry in nil map"

/-- A state code block (`parseStateCodeExpr`, logstash_config.go:13092-13102): `initState`
(logstash_config_helper.go:22-28) and `warnComment` (:127-135). -/
def runStateH (o : Opts) (c : StCode) (l : LSt) : HProg LOut :=
  match c with
  | .initState =>
    .load l.cur fun
      | none => .store l.cur (some []) (.ret (.ok .nil l))
      | some _ => .ret (.ok .nil l)
  | .warnComment =>
    if o.excWarn && l.s.curText.contains 35 then
      .load l.cur fun v =>
        .store l.cur (some (v.getD [] ++ [b!"exceptional comment at " ++ posStr l.s.curPos])) (.ret (.ok .nil l))
    else .ret (.ok .nil l)

/-- `parseActionExpr` (logstash_config.go:12759-12782) after a match from `start`.  Of the actions only
`retConfig` (logstash_config_helper.go:39-46) reads the state; here it is read for all of them. -/
def runActH (o : Opts) (a : Act) (start : Pt) (l : LSt) : HProg LOut :=
  let l := { l with s := { l.s with curPos := start.pos, curText := sliceFrom start l.s.pt } }
  cloneState l fun saved =>
  .load l.cur fun v =>
  match runAct o a (l.top.getD []) l.s.curPos l.s.curText (v.getD []) with
  | .val v => restoreState l saved fun l => .ret (.ok v l)
  | .err v msg =>
    restoreState { l with s := l.s.addErrAt msg start.pos } saved fun l => .ret (.ok v l)
  | .panic m => .ret (.panic m l)

/-- The `parseXxxExpr` methods (logstash_config.go:12759-13137), see `step` and `stepC`. -/
def stepH (grow : Nat → Nat) (o : Opts) (G : Gram) (ev : Ex → LSt → HProg LOut) (n : Nat) (e : Ex) (l : LSt) :
    HProg LOut :=
  match e with
  | .action a e =>
    (ev e l).bind fun
      | .ok _ l' => runActH o a l.s.pt l'
      | r => .ret r
  | .andCode c =>
    cloneState l fun saved =>
    (HProg.ofProg (runCodeC c l.s)).bind fun
      | .ok v s' => restoreState { l with s := s' } saved fun l => .ret (.ok v l)
      | .fail s' => restoreState { l with s := s' } saved fun l => .ret (.fail l)
      | .panic m s' => .ret (.panic m { l with s := s' })
      | .timeout => .ret .timeout
  | .any | .cls .. | .lit .. => .ret (.of l (step o G (fun _ _ => .timeout) n e l.s))
  | .choice alts => choiceLoopH grow ev alts l
  | .labeled lab e =>
    (ev e (l.pushV grow)).bind fun
      | .ok v l' =>
        match l'.popV.top with
        | some f => .ret (.ok v { l'.popV with vs := l'.popV.vs.set (l'.popV.len - 1) (some ((lab, v) :: f)) })
        | none => .ret (.panic nilMapMsg l'.popV)
      | .fail l' => .ret (.fail l'.popV)
      | r => .ret r
  | .not e =>
    cloneState l fun saved =>
    (ev e (({ l with s := { l.s with mfInv := !l.s.mfInv } } : LSt).pushV grow)).bind fun
      | .ok _ l' =>
        restoreState ({ l' with s := { l'.s with mfInv := !l'.s.mfInv } } : LSt).popV saved fun l' =>
          .ret (.fail (l'.restore l.s.pt))
      | .fail l' =>
        restoreState ({ l' with s := { l'.s with mfInv := !l'.s.mfInv } } : LSt).popV saved fun l' =>
          .ret (.ok .nil (l'.restore l.s.pt))
      | r => .ret r
  | .plus e =>
    (ev e (l.pushV grow)).bind fun
      | .ok v l' => starLoopH grow (ev e) n [v] l'.popV
      | .fail l' => .ret (.fail l'.popV)
      | r => .ret r
  | .ref r => evalRuleH grow ev G r l
  | .seq es => cloneState l fun saved => seqLoopH ev l.s.pt saved es [] l
  | .state c => runStateH o c l
  | .star e => starLoopH grow (ev e) n [] l
  | .opt e =>
    (ev e (l.pushV grow)).bind fun
      | .ok v l' => .ret (.ok v l'.popV)
      | .fail l' => .ret (.ok .nil l'.popV)
      | r => .ret r

/-- `parseExpr` (logstash_config.go:12694-12757), see `eval` and `evalC`. -/
def evalH (grow : Nat → Nat) (o : Opts) (G : Gram) : Nat → Ex → LSt → HProg LOut
  | 0, _, _ => .ret .timeout
  | n + 1, e, l =>
    if tooMany o (l.s.cnt + 1) then .ret (.panic maxExprMsg { l with s := { l.s with cnt := l.s.cnt + 1 } })
    else stepH grow o G (evalH grow o G n) n e { l with s := { l.s with cnt := l.s.cnt + 1 } }

/-- `Parse(filename, data, opts...)` (logstash_config.go:12019-12021): `newParser` makes the first state map
(:12233-12262), `parse` (:12586-12651) does the rest. -/
def parseH (grow : Nat → Nat) (o : Opts) (filename data : Bytes) : HProg ParseRes :=
  .new fun a =>
  (evalRuleH grow (evalH grow o gram (parseFuel data)) gram .init
      ⟨(St.start data []).firstRead o, a, [], 0⟩).bind
    fun out => .ret (finishC filename out.out)

/-- The program of a call (logstash_config.go:12019-12021, parse_error_helper.go:19-29). -/
def Call.hprog (grow : Nat → Nat) : Call → HProg Ret
  | .parse o filename data => (parseH grow o filename data).bind fun r => .ret (.parsed r)
  | .getFarthestFailure => (HProg.ofProg getFarthestFailureC).bind fun r => .ret (.report r)

/-- The shared memory: `farthestFailure` (parse_error_helper.go:15), the contents of the state maps, the maps
in the pool (logstash_config.go:12512-12514), and the number of addresses used so far.  `bad` is a ghost
field: some goroutine used a map it did not hold, that is one which it has not made or taken from the
pool, or has put into the pool; `holder` keeps track of that. -/
structure Mem where
  ff : List FF
  maps : Nat → MapVal
  pool : List Nat
  next : Nat
  holder : Nat → Option Nat
  bad : Bool

/-- Is the map held by goroutine `i` (ghost)?  If not, set `bad`. -/
def Mem.use (M : Mem) (i a : Nat) : Mem := { M with bad := M.bad || decide (M.holder a ≠ some i) }

/-- `make(storeDict)` (logstash_config.go:12246, 12513) by goroutine `i`. -/
def Mem.make (M : Mem) (i : Nat) : Mem × Nat :=
  ({ M with
      maps := fun x => if x = M.next then none else M.maps x
      next := M.next + 1
      holder := fun x => if x = M.next then some i else M.holder x }, M.next)

/-- `statePool.Get()` (logstash_config.go:12529).  `sync.Pool` promises nothing about which element it
returns, or that it returns one at all: `pick` is the number of an element or, if there is no such
element, a new map is made. -/
def Mem.get (M : Mem) (i pick : Nat) : Mem × Nat :=
  match M.pool[pick]? with
  | some a =>
    ({ M with
        pool := M.pool.eraseIdx pick
        holder := fun x => if x = a then some i else M.holder x }, a)
  | none => M.make i

/-- `statePool.Put(m)` (logstash_config.go:12520) by goroutine `i`. -/
def Mem.put (M : Mem) (i a : Nat) : Mem :=
  { M.use i a with pool := a :: M.pool, holder := fun x => if x = a then none else M.holder x }

/-- One step of a program of goroutine `i`: its next operation (logstash_config.go:12512-12548). -/
def HProg.tick {α : Type} (i pick : Nat) (M : Mem) : HProg α → Mem × HProg α
  | .ret a => (M, .ret a)
  | .new k => ((M.make i).1, k (M.make i).2)
  | .get k => ((M.get i pick).1, k (M.get i pick).2)
  | .put a k => (M.put i a, k)
  | .load a k => (M.use i a, k (M.maps a))
  | .store a v k => ({ M.use i a with maps := fun x => if x = a then v else M.maps x }, k)
  | .read k => (M, k M.ff)
  | .write v k => ({ M with ff := v }, k)

/-- The shared memory and the calls under way, each in its own goroutine
(logstash_config.go:12512-12514, parse_error_helper.go:15). -/
structure Sys where
  mem : Mem
  progs : List (HProg Ret)

/-- What can happen next: goroutine `i` performs its next operation, or the garbage collector drops an
element of the pool (the documentation of `sync.Pool`, used in logstash_config.go:12512). -/
inductive Move
  | run (i pick : Nat)
  | drop (j : Nat)

/-- The goroutines that move, in this order (logstash_config.go:12512-12548). -/
def movers : List Move → List Nat
  | [] => []
  | .run i _ :: ms => i :: movers ms
  | .drop _ :: ms => movers ms

/-- One move (logstash_config.go:12512-12548). -/
def Sys.tick (S : Sys) : Move → Sys
  | .run i pick =>
    match S.progs[i]? with
    | some p => ⟨(p.tick i pick S.mem).1, S.progs.set i (p.tick i pick S.mem).2⟩
    | none => S
  | .drop j => { S with mem := { S.mem with pool := S.mem.pool.eraseIdx j } }

/-- Several moves. -/
def Sys.run (S : Sys) : List Move → Sys
  | [] => S
  | m :: ms => (S.tick m).run ms

/-- The calls `cs` about to start in a new process: the pool is empty (logstash_config.go:12512-12514), `m` is
in `farthestFailure` (parse_error_helper.go:15). -/
def Sys.start (grow : Nat → Nat) (m : List FF) (cs : List Call) : Sys :=
  ⟨⟨m, fun _ => none, [], 0, fun _ => none, false⟩, cs.map (Call.hprog grow)⟩

/-- What goroutine `i` returned, if it has finished (logstash_config.go:12019). -/
def Sys.returned (S : Sys) (i : Nat) : Option Ret :=
  match S.progs[i]? with
  | some (.ret r) => some r
  | _ => none

end Verif
