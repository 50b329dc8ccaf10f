import Verif.Proofs.StatePool
import Verif.Props.Concurrent
/-
State maps and the pool they are taken from: C67.

`Sys.start grow m calls` is a new process about to perform the calls `calls`, each in its own goroutine,
with `m` in `farthestFailure`; `Sys.run` lets the goroutines perform their operations on state maps, on the pool
and on `farthestFailure` one at a time, in the order of a list of moves, which also says which map the pool hands
out and when it drops one.  `grow` is the growth of slices, which Go leaves open.
-/
namespace Verif.Props
open Verif

/-- **C67** Whatever is called and however the goroutines are interleaved, no goroutine ever uses a state map
that it does not hold — one that another goroutine has made or taken from the pool, or that lies in the pool;
no map is in the pool twice, and all maps in the pool are empty. -/
theorem C67_exclusive (grow : Nat → Nat) (m : List FF) (calls : List Call) (moves : List Move) :
    ((Sys.start grow m calls).run moves).mem.bad = false ∧
    ((Sys.start grow m calls).run moves).mem.pool.Nodup ∧
    ∀ a, a ∈ ((Sys.start grow m calls).run moves).mem.pool → ((Sys.start grow m calls).run moves).mem.maps a = none := by
  obtain ⟨hs, sched, _, h⟩ := (sinv_start grow m calls).all moves
  exact ⟨h.good, h.nodup, fun a ha => (h.pool a ha).2.1⟩

/-- What `bad` records: reading, writing or handing back a map that another goroutine holds, or nobody. -/
theorem misuse_recorded {α : Type} (i pick a : Nat) (M : Mem) (h : M.holder a ≠ some i) :
    (∀ k : MapVal → HProg α, (HProg.tick i pick M (.load a k)).1.bad = true) ∧
    (∀ (v : MapVal) (k : HProg α), (HProg.tick i pick M (.store a v k)).1.bad = true) ∧
    ∀ k : HProg α, (HProg.tick i pick M (.put a k)).1.bad = true := by
  refine ⟨fun k => ?_, fun v k => ?_, fun k => ?_⟩ <;> simp [HProg.tick, Mem.use, Mem.put, h]

/-- … and it is never taken back. -/
theorem misuse_stays {α : Type} (i pick : Nat) (M : Mem) (p : HProg α) (h : M.bad = true) : (HProg.tick i pick M p).1.bad = true := by
  cases p <;> simp [HProg.tick, Mem.use, Mem.put, Mem.get, Mem.make, h]
  split <;> simp [h]

/-- **C67** The maps, the pool and the reused stack of label sets cannot be observed: every run is a run, with
some of the steps left out, of the model of C58, in which every parser has its state to itself and copies it.
What `farthestFailure` contains and what the calls return is the same. -/
theorem C67_refines (grow : Nat → Nat) (m : List FF) (calls : List Call) (moves : List Move) :
    ∃ sched, sched.Sublist (movers moves) ∧
      ((Pool.start m calls).run sched).mem = ((Sys.start grow m calls).run moves).mem.ff ∧
      ∀ i r, ((Sys.start grow m calls).run moves).returned i = some r →
        ((Pool.start m calls).run sched).returned i = some r := by
  obtain ⟨hs, sched, hsub, h⟩ := (sinv_start grow m calls).all moves
  exact ⟨sched, hsub, h.ff, h.returned⟩

/-- **C67** Every call returns if its goroutine is scheduled again and again. -/
theorem C67_returns (grow : Nat → Nat) (m : List FF) (calls : List Call) (i : Nat) (hi : i < calls.length)
    (sched : Nat → Move) (fair : ∀ n, ∃ k, n ≤ k ∧ ∃ pick, sched k = .run i pick) :
    ∃ n r, ((Sys.start grow m calls).run ((List.range n).map sched)).returned i = some r := by
  have hp : (Sys.start grow m calls).progs[i]? = some (calls[i].hprog grow) := by simp [Sys.start, hi]
  obtain ⟨n, r, h⟩ := Sys.run_returns i _ _ hp sched fair
  exact ⟨n, r, by simp [Sys.returned, h]⟩

/-- **C67** Whatever the other calls are and however the goroutines are interleaved, a call of `Parse`
returns the configuration, with the warnings, and the errors which it returns in a program without other
goroutines — or nil and an error with the line `… runtime error: index out of range [0] with length 0`, as C58
says. -/
theorem C67_outcome (grow : Nat → Nat) (m : List FF) (calls : List Call) (i : Nat) (o : Opts) (filename data : Bytes)
    (hi : calls[i]? = some (.parse o filename data)) (moves : List Move) (r : Ret)
    (hr : ((Sys.start grow m calls).run moves).returned i = some r) :
    (∀ ff, r = .parsed (parse o filename data ff).1) ∨
    ∃ errs pos rule, r = .parsed (.done .nil errs) ∧
      PErr.text filename ⟨pos, rule, b!"runtime error: index out of range [0] with length 0"⟩ ∈
        errs.map (PErr.text filename) := by
  obtain ⟨sched, _, _, h⟩ := C67_refines grow m calls moves
  exact C58_outcome m calls i o filename data hi sched r (h i r hr)

/-- Goroutine `i` does not move. -/
def Still (i : Nat) (moves : List Move) : Prop := ∀ m ∈ moves, ∀ pick, m ≠ .run i pick

/-- No goroutine but `i` moves. -/
def Alone (i : Nat) (moves : List Move) : Prop := ∀ m ∈ moves, ∀ j pick, m = .run j pick → j = i

theorem movers_still {i : Nat} {ms : List Move} (h : Still i ms) : i ∉ movers ms := by
  induction ms with
  | nil => simp [movers]
  | cons m ms ih =>
    have h' : Still i ms := fun x hx => h x (by simp [hx])
    cases m with
    | drop j => exact ih h'
    | run j pick =>
      simp only [movers, List.mem_cons, not_or]
      exact ⟨fun hj => h (.run j pick) (by simp) pick (by rw [hj]), ih h'⟩

theorem movers_alone {i : Nat} {ms : List Move} (h : Alone i ms) : ∀ j ∈ movers ms, j = i := by
  induction ms with
  | nil => simp [movers]
  | cons m ms ih =>
    have h' : Alone i ms := fun x hx => h x (by simp [hx])
    cases m with
    | drop j => exact ih h'
    | run j pick =>
      simp only [movers, List.mem_cons]
      rintro k (rfl | hk)
      · exact h _ (by simp) k pick rfl
      · exact ih h' k hk

/-- A goroutine that has returned does nothing more. -/
theorem pool_done {P : Pool} {i : Nat} {r : Ret} (h : P.progs[i]? = some (.ret r)) : P.tick i = P := by
  simp only [Pool.tick, h, Prog.tick]
  have := set_getElem?_self h
  cases P; simp_all

theorem pool_done_run {P : Pool} {i : Nat} {r : Ret} (h : P.progs[i]? = some (.ret r)) (n : Nat) :
    P.run (List.replicate n i) = P := by
  induction n with
  | zero => rfl
  | succ n ih => simp only [List.replicate_succ, Pool.run, pool_done h]; exact ih

/-- Two runs of one goroutine to its end are the same. -/
theorem pool_det {P : Pool} {i n k : Nat} {r r' : Ret} (h : (P.run (List.replicate n i)).progs[i]? = some (.ret r))
    (h' : (P.run (List.replicate k i)).progs[i]? = some (.ret r')) :
    P.run (List.replicate n i) = P.run (List.replicate k i) := by
  rcases Nat.le_total n k with hle | hle
  · have : List.replicate k i = List.replicate n i ++ List.replicate (k - n) i := by
      rw [List.replicate_append_replicate]; congr 1; omega
    rw [this, Pool.run_append, pool_done_run h]
  · have : List.replicate n i = List.replicate k i ++ List.replicate (n - k) i := by
      rw [List.replicate_append_replicate]; congr 1; omega
    rw [this, Pool.run_append, pool_done_run h']

/-- A goroutine that runs alone, after any history, in the model without maps. -/
theorem alone_pool (grow : Nat → Nat) (m : List FF) (calls : List Call) (i : Nat) (c : Call)
    (hi : calls[i]? = some c) (before during : List Move)
    (hb : Still i before) (hd : Alone i during) (r : Ret)
    (hr : (((Sys.start grow m calls).run before).run during).returned i = some r) :
    ∃ (P : Pool) (k : Nat), P.progs[i]? = some c.prog ∧ P.mem = ((Sys.start grow m calls).run before).mem.ff ∧
      (P.run (List.replicate k i)).returned i = some r ∧
      (P.run (List.replicate k i)).mem = (((Sys.start grow m calls).run before).run during).mem.ff := by
  obtain ⟨hs, s1, hsub1, h1⟩ := (sinv_start grow m calls).all before
  obtain ⟨hs2, s2, hsub2, h2⟩ := h1.all during
  have hni : i ∉ s1 := fun hx => movers_still hb (hsub1.subset hx)
  have hs2' : s2 = List.replicate s2.length i :=
    List.eq_replicate_iff.mpr ⟨rfl, fun x hx => movers_alone hd x (hsub2.subset hx)⟩
  refine ⟨(Pool.start m calls).run s1, s2.length, ?_, h1.ff, ?_, ?_⟩
  · exact (Pool.run_absent i s1 _ hni).trans (start_prog hi)
  · rw [← hs2']; exact h2.returned i r hr
  · rw [← hs2']; exact h2.ff

/-- **C67** A call of `Parse` that is not interrupted returns what `parse` returns, with the warnings of its own
input only, and leaves the failure list that `parse` leaves, whatever other calls have left behind in the pool or
left unfinished. -/
theorem C67_uninterrupted (grow : Nat → Nat) (m : List FF) (calls : List Call) (i : Nat) (o : Opts)
    (filename data : Bytes) (hi : calls[i]? = some (.parse o filename data)) (before during : List Move)
    (hb : Still i before) (hd : Alone i during) (r : Ret)
    (hr : (((Sys.start grow m calls).run before).run during).returned i = some r) :
    r = .parsed (parse o filename data ((Sys.start grow m calls).run before).mem.ff).1 ∧
    (((Sys.start grow m calls).run before).run during).mem.ff =
      (parse o filename data ((Sys.start grow m calls).run before).mem.ff).2 := by
  obtain ⟨P, k, hp, hm, hret, hmem⟩ := alone_pool grow m calls i _ hi before during hb hd r hr
  obtain ⟨n, h1, h2⟩ := C58_uninterrupted P i o filename data hp
  have hdet := pool_det (returned_prog h1) (returned_prog hret)
  rw [← hm]
  rw [hdet] at h1 h2
  rw [hret] at h1
  exact ⟨Option.some.inj h1, hmem ▸ h2⟩

/-- **C67** The same for `GetFarthestFailure`. -/
theorem C67_uninterrupted_report (grow : Nat → Nat) (m : List FF) (calls : List Call) (i : Nat)
    (hi : calls[i]? = some .getFarthestFailure) (before during : List Move)
    (hb : Still i before) (hd : Alone i during) (r : Ret)
    (hr : (((Sys.start grow m calls).run before).run during).returned i = some r) :
    r = .report (some (getFarthestFailure ((Sys.start grow m calls).run before).mem.ff)) := by
  obtain ⟨P, k, hp, hm, hret, hmem⟩ := alone_pool grow m calls i _ hi before during hb hd r hr
  obtain ⟨n, h1, h2⟩ := C58_uninterrupted_report P i hp
  have hdet := pool_det (returned_prog h1) (returned_prog hret)
  rw [← hm]
  rw [hdet, hret] at h1
  exact Option.some.inj h1

/-- The warnings and the error messages a call returned. -/
def retTexts : Ret → List Bytes × List Bytes
  | .parsed (.done (.config c) es) => (c.warnings, es.map (·.msg))
  | .parsed (.done _ es) => ([], es.map (·.msg))
  | _ => ([], [])

/-- Two goroutines taking turns, maps going from one to the other through the pool. -/
def crossed : Sys :=
  (Sys.start (fun _ => 0) [] [.parse { excWarn := true } [] b!"x", .parse { excWarn := true } [] b!"#\n"]).run
    ((List.range 400).map fun n => .run (n % 2) (n % 3))

/-- Each returns the result for its own input: a concrete case of `C67_outcome`, `C67_exclusive` and
`C67_refines`. -/
example : (crossed.returned 0).map retTexts =
      some ([], [b!"no match found, expected: \"#\", \"filter\", \"input\", \"output\", [ \\t\\r\\n] or EOF"]) ∧
    (crossed.returned 1).map retTexts = some ([], []) ∧ crossed.mem.pool ≠ [] := by
  decide +kernel

/-- A concrete case of `C67_uninterrupted`: goroutine 0 is interrupted after 60 operations, goroutine 1 runs to its
end. -/
example : Still 1 ((List.range 60).map fun _ => .run 0 0) ∧ Alone 1 ((List.range 200).map fun _ => .run 1 0) ∧
    ((((Sys.start (fun _ => 0) [] [.parse { excWarn := true } [] b!"x",
      .parse { excWarn := true } [] b!"#\n"]).run ((List.range 60).map fun _ => .run 0 0)).run
        ((List.range 200).map fun _ => .run 1 0)).returned 1).map retTexts = some ([], []) := by
  refine ⟨?_, ?_, ?_⟩
  · intro m hm pick
    simp only [List.mem_map] at hm
    obtain ⟨_, _, rfl⟩ := hm
    simp
  · intro m hm j pick he
    simp only [List.mem_map] at hm
    obtain ⟨_, _, rfl⟩ := hm
    simp at he; exact he.1.symm
  · decide +kernel

end Verif.Props
