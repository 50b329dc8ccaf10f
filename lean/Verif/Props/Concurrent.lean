import Verif.Proofs.Pool
import Verif.Props.Engine
/-
Calls from several goroutines at the same time: C58.

`Pool.start m cs` is a process about to perform the calls `cs`, each in its own goroutine, with `m`
in the package variable; `Pool.run` lets the goroutines perform their accesses of the variable one
at a time in the order of a schedule, a list of goroutine numbers; `Pool.returned` is what a
goroutine has returned.
-/
namespace Verif.Props
open Verif Spec

/-- **C58** Every call returns, whatever the other calls do: if goroutine `i` is scheduled again and
again, it has returned after finitely many steps of the schedule. -/
theorem C58_returns (m : List FF) (calls : List Call) (i : Nat) (hi : i < calls.length)
    (sched : Nat → Nat) (fair : ∀ n, ∃ k, n ≤ k ∧ sched k = i) :
    ∃ n r, ((Pool.start m calls).run ((List.range n).map sched)).returned i = some r := by
  have hp : (Pool.start m calls).progs[i]? = some (calls[i].prog) := by
    simp [Pool.start, hi]
  obtain ⟨n, r, h⟩ := Pool.run_returns i _ _ hp sched fair
  exact ⟨n, r, by simp [Pool.returned, h]⟩

/-- What it means for a call of `Parse` to have returned. -/
theorem returned_prog {P : Pool} {i : Nat} {r : Ret} (h : P.returned i = some r) :
    P.progs[i]? = some (.ret r) := by
  simp only [Pool.returned] at h
  split at h
  · rename_i q hq
    simp only [Option.some.injEq] at h
    rw [hq, h]
  · simp at h

theorem start_prog {m : List FF} {calls : List Call} {i : Nat} {c : Call} (h : calls[i]? = some c) :
    (Pool.start m calls).progs[i]? = some c.prog := by
  simp [Pool.start, h]

/-- Every text occurs in the deduplicated list. -/
theorem dedupe_text (filename : Bytes) (seen : List Bytes) (es : List PErr) (e : PErr) (he : e ∈ es) :
    e.text filename ∈ seen ∨ e.text filename ∈ (dedupe filename seen es).map (PErr.text filename) := by
  induction es generalizing seen with
  | nil => simp at he
  | cons x es ih =>
    simp only [dedupe]
    simp only [List.mem_cons] at he
    split
    · rename_i hs
      rcases he with rfl | he
      · exact .inl (by simpa using hs)
      · exact ih seen he
    · rcases he with rfl | he
      · exact .inr (by simp)
      · rcases ih (x.text filename :: seen) he with h | h
        · simp only [List.mem_cons] at h
          rcases h with h | h
          · exact .inr (by simp [h])
          · exact .inl h
        · exact .inr (by simp only [List.map_cons, List.mem_cons]; exact .inr h)

/-- **C58** Whatever the other calls are and however the goroutines are interleaved, a call of
`Parse` returns what it returns in a program without other goroutines, for any history — or nil and
an error with the line `… runtime error: index out of range [0] with length 0`.  In particular a
configuration returned without an error is the right one. -/
theorem C58_outcome (m : List FF) (calls : List Call) (i : Nat) (o : Opts) (filename data : Bytes)
    (hi : calls[i]? = some (.parse o filename data)) (sched : List Nat) (r : Ret)
    (hr : ((Pool.start m calls).run sched).returned i = some r) :
    (∀ ff, r = .parsed (parse o filename data ff).1) ∨
    ∃ errs pos rule, r = .parsed (.done .nil errs) ∧
      PErr.text filename ⟨pos, rule, b!"runtime error: index out of range [0] with length 0"⟩ ∈
        errs.map (PErr.text filename) := by
  obtain ⟨m', hx⟩ := Pool.run_exec Coupling.any.R i sched _ _ r (start_prog hi)
    (fun _ _ _ _ _ => trivial) (returned_prog hr)
  obtain ⟨m1, pr, h1, h2⟩ := hx.bind_inv _ rfl
  have := h2.ret_inv _ rfl
  subst this
  rcases parseC_exec Coupling.any (f := []) trivial h1 with ⟨f', _, he⟩ | ⟨_, s, rfl⟩
  · exact .inl fun ff => by rw [← C05_result o filename data [] ff, he]
  · refine .inr ⟨_, s.pt.pos, s.rstack.head?, rfl, ?_⟩
    have := dedupe_text filename [] (s.addErr indexMsg).errs ⟨s.pt.pos, s.rstack.head?, indexMsg⟩
      (by simp [St.addErr, St.addErrAt])
    exact this.resolve_left (by simp)

/-- The interleavings in which no other call starts while call `i` is under way: a goroutine that
is scheduled after goroutine `i` had its first turn had its own first turn before that. -/
def NoStartDuring (i : Nat) (sched : List Nat) : Prop :=
  ∀ before j after, sched = before ++ j :: after → j ≠ i → i ∈ before → j ∈ before

/-- A list is split at the first occurrence of an element. -/
theorem first_occurrence {i : Nat} {l : List Nat} (h : i ∈ l) : ∃ a b, l = a ++ i :: b ∧ i ∉ a := by
  induction l with
  | nil => simp at h
  | cons x l ih =>
    by_cases hx : x = i
    · exact ⟨[], l, by rw [hx]; rfl, by simp⟩
    · simp only [List.mem_cons] at h
      obtain ⟨a, b, rfl, ha⟩ := ih (h.resolve_left fun h => hx h.symm)
      exact ⟨x :: a, b, rfl, by simp only [List.mem_cons, not_or]; exact ⟨fun h => hx h.symm, ha⟩⟩

/-- Under `NoStartDuring` nobody empties the variable while call `i` is under way. -/
theorem noStart_exec (m : List FF) (calls : List Call) (i : Nat) (c : Call)
    (hi : calls[i]? = some c) (sched : List Nat) (hs : NoStartDuring i sched) (r : Ret)
    (hr : ((Pool.start m calls).run sched).returned i = some r) :
    ∃ m0 m', Exec Steady m0 c.prog m' r := by
  have hp := start_prog (m := m) hi
  by_cases hin : i ∈ sched
  · obtain ⟨a, b, rfl, ha⟩ := first_occurrence hin
    have hbegun : ∀ j, j ∈ i :: b → j ≠ i → j ∈ a := by
      intro j hj hji
      simp only [List.mem_cons] at hj
      have hj := hj.resolve_left hji
      obtain ⟨x, y, rfl, hx⟩ := first_occurrence hj
      have := hs (a ++ i :: x) j y (by simp) hji (by simp)
      simp only [List.mem_append, List.mem_cons] at this
      rcases this with h | h | h
      · exact h
      · exact absurd h hji
      · exact absurd h hx
    have hq : ((Pool.start m calls).run a).progs[i]? = some c.prog :=
      (Pool.run_absent i a _ ha).trans hp
    have hne : ∀ j, j ∈ i :: b → j ≠ i → ∀ p, ((Pool.start m calls).run a).progs[j]? = some p →
        p.NoEmpty := by
      intro j hj hji
      refine Pool.run_begun j a _ ?_ (hbegun j hj hji)
      intro p hp
      simp only [Pool.start, List.getElem?_map, Option.map_eq_some_iff] at hp
      obtain ⟨c, _, rfl⟩ := hp
      exact c.first
    have hex := Pool.run_exec Steady i (i :: b) ((Pool.start m calls).run a) _ r hq
      (fun x j y hxy hji => Pool.tick_steady _ j (Pool.run_noEmpty j x _
        (hne j (by rw [hxy]; simp) hji)))
      (by rw [← Pool.run_append]; exact returned_prog hr)
    exact ⟨_, hex⟩
  · have h1 := (Pool.run_absent i sched _ hin).trans hp
    rw [returned_prog hr] at h1
    simp only [Option.some.injEq] at h1
    rw [← h1]
    exact ⟨[], [], .ret _ _⟩

/-- **C58** Only a call that starts in the meantime can disturb a call of `Parse`: if no other call
starts while it is under way — calls that started before may still run — it returns exactly
what it returns without other goroutines. -/
theorem C58_undisturbed (m : List FF) (calls : List Call) (i : Nat) (o : Opts) (filename data : Bytes)
    (hi : calls[i]? = some (.parse o filename data)) (sched : List Nat) (hs : NoStartDuring i sched)
    (r : Ret) (hr : ((Pool.start m calls).run sched).returned i = some r) (ff : List FF) :
    r = .parsed (parse o filename data ff).1 := by
  obtain ⟨m0, m', hx⟩ := noStart_exec m calls i _ hi sched hs r hr
  obtain ⟨m1, pr, h1, h2⟩ := hx.bind_inv _ rfl
  have := h2.ret_inv _ rfl
  subst this
  rcases parseC_exec Coupling.steady (f := ff) trivial h1 with ⟨f', _, he⟩ | ⟨hb, _⟩
  · rw [he]
  · exact hb.elim

/-- **C58** The same for `GetFarthestFailure`: it does not panic if no call starts while it is under
way. -/
theorem C58_report (m : List FF) (calls : List Call) (i : Nat)
    (hi : calls[i]? = some .getFarthestFailure) (sched : List Nat) (hs : NoStartDuring i sched)
    (r : Ret) (hr : ((Pool.start m calls).run sched).returned i = some r) :
    ∃ text found, r = .report (some (text, found)) := by
  obtain ⟨m0, m', hx⟩ := noStart_exec m calls i _ hi sched hs r hr
  obtain ⟨m1, pr, h1, h2⟩ := hx.bind_inv _ rfl
  have := h2.ret_inv _ rfl
  subst this
  obtain ⟨v1, _, h1⟩ := h1.read_inv Steady.rely _ rfl
  by_cases he : v1 = []
  · subst he
    exact ⟨_, _, congrArg Ret.report (h1.ret_inv _ rfl)⟩
  · rw [if_neg (by simpa using he)] at h1
    obtain ⟨v2, s2, h1⟩ := h1.read_inv Steady.rely _ rfl
    cases v2 with
    | nil => exact absurd rfl (s2 he)
    | cons f2 r2 =>
      obtain ⟨v3, s3, h1⟩ := h1.read_inv Steady.rely _ rfl
      cases v3 with
      | nil => exact absurd rfl (s3 (by simp))
      | cons f3 r3 =>
        obtain ⟨v4, s4, h1⟩ := h1.read_inv Steady.rely _ rfl
        cases v4 with
        | nil => exact absurd rfl (s4 (by simp))
        | cons f4 r4 =>
          obtain ⟨v5, s5, h1⟩ := h1.read_inv Steady.rely _ rfl
          exact ⟨_, _, congrArg Ret.report (h1.ret_inv _ rfl)⟩

/-- A goroutine running alone for long enough. -/
theorem run_alone (i : Nat) (p : Prog Ret) (P : Pool) (hp : P.progs[i]? = some p) :
    ∃ n r, (P.run (List.replicate n i)).progs[i]? = some (.ret r) ∧
      Exec (fun m m' => m' = m) P.mem p (P.run (List.replicate n i)).mem r := by
  induction p generalizing P with
  | ret a => exact ⟨0, a, hp, .ret _ _⟩
  | read k ih =>
    obtain ⟨h1, h2⟩ := P.tick_self hp
    obtain ⟨n, r, h3, h4⟩ := ih P.mem (P.tick i) h1
    rw [h2] at h4
    exact ⟨n + 1, r, h3, .read h4⟩
  | write v k ih =>
    obtain ⟨h1, h2⟩ := P.tick_self hp
    obtain ⟨n, r, h3, h4⟩ := ih (P.tick i) h1
    rw [h2] at h4
    exact ⟨n + 1, r, h3, .write h4⟩

/-- **C58** A call of `Parse` that is not interrupted behaves like `parse`, whatever other calls have
left behind or left unfinished: it returns the same result and leaves the same failure list. -/
theorem C58_uninterrupted (P : Pool) (i : Nat) (o : Opts) (filename data : Bytes)
    (hi : P.progs[i]? = some (Call.parse o filename data).prog) :
    ∃ n, (P.run (List.replicate n i)).returned i =
        some (.parsed (parse o filename data P.mem).1) ∧
      (P.run (List.replicate n i)).mem = (parse o filename data P.mem).2 := by
  obtain ⟨n, r, h1, hx⟩ := run_alone i _ P hi
  obtain ⟨m1, pr, h2, h3⟩ := hx.bind_inv _ rfl
  have hm := h3.ret_inv' (R := fun m m' => m' = m) ⟨fun _ => rfl, fun h1 h2 => h2.trans h1⟩ _ rfl
  obtain ⟨rfl, hm⟩ := hm
  refine ⟨n, ?_⟩
  rcases parseC_exec Coupling.alone (f := P.mem) rfl h2 with ⟨f', hf, he⟩ | ⟨hb, _⟩
  · rw [he]
    refine ⟨by simp [Pool.returned, h1], ?_⟩
    exact hm.trans hf
  · exact hb.elim

/-- **C58** A call of `GetFarthestFailure` that is not interrupted reports the content of the
variable. -/
theorem C58_uninterrupted_report (P : Pool) (i : Nat)
    (hi : P.progs[i]? = some Call.getFarthestFailure.prog) :
    ∃ n, (P.run (List.replicate n i)).returned i =
        some (.report (some (getFarthestFailure P.mem))) ∧
      (P.run (List.replicate n i)).mem = P.mem := by
  cases hm : P.mem with
  | nil =>
    refine ⟨1, ?_⟩
    obtain ⟨h1, h2⟩ := P.tick_self hi
    rw [hm] at h1 h2
    refine ⟨?_, h2⟩
    simp only [Pool.returned, List.replicate_one, Pool.run, h1]
    rfl
  | cons f r =>
    refine ⟨5, ?_⟩
    obtain ⟨h1, h2⟩ := P.tick_self hi
    obtain ⟨h3, h4⟩ := (P.tick i).tick_self h1
    obtain ⟨h5, h6⟩ := ((P.tick i).tick i).tick_self h3
    obtain ⟨h7, h8⟩ := (((P.tick i).tick i).tick i).tick_self h5
    obtain ⟨h9, h10⟩ := ((((P.tick i).tick i).tick i).tick i).tick_self h7
    have e1 : (P.tick i).mem = f :: r := by rw [h2, hm]; rfl
    have e2 : ((P.tick i).tick i).mem = f :: r := by rw [h4, e1, hm]; rfl
    have e3 : (((P.tick i).tick i).tick i).mem = f :: r := by rw [h6, e2, e1, hm]; rfl
    have e4 : ((((P.tick i).tick i).tick i).tick i).mem = f :: r := by rw [h8, e3, e2, e1, hm]; rfl
    rw [e4, e3, e2, e1, hm] at h9 h10
    refine ⟨?_, h10⟩
    simp only [Pool.returned, List.replicate, Pool.run, h9]
    rfl

/-- **C58** Violated: two goroutines parsing the valid file `input{if[a]{}}` can make one of the calls
fail with an index-out-of-range error. -/
theorem C58_violated_parse : ∃ sched,
    (((Pool.start [] [.parse {} [] b!"input{if[a]{}}", .parse {} [] b!"input{if[a]{}}"]).run
      sched).returned 0).map (fun r => match r with
        | .parsed r => r.errs.map (fun e => e.msg)
        | .report _ => []) =
      some [b!"runtime error: index out of range [0] with length 0"] ∧
    (parse {} [] b!"input{if[a]{}}" []).1.errs = [] := by
  refine ⟨[0, 0, 0, 0, 1, 0], ?_⟩
  decide +kernel

/-- **C58** Violated: `GetFarthestFailure` can panic when another goroutine starts to parse. -/
theorem C58_violated_report : ∃ sched,
    (((Pool.start [] [.parse {} [] b!"x", .getFarthestFailure, .parse {} [] b!"input{}"]).run
      sched).returned 1).map (fun r => match r with
        | .parsed _ => false
        | .report r => r.isNone) = some true := by
  refine ⟨List.replicate 10 0 ++ [1, 2, 1], ?_⟩
  decide +kernel

/-- **C58** Violated: the text returned by `GetFarthestFailure` can be one that describes no failure at
all.  Its header is put together from three separate reads, and here the line and column come from the
failure of one call of `Parse` and the offset and the text from that of another: the result is not the
report of what the variable held at any moment of the execution. -/
theorem C58_violated_torn : ∃ sched text found,
    (((Pool.start [] [.parse {} [] b!"x", .getFarthestFailure, .parse {} [] b!" x"]).run
      sched).returned 1).bind (fun r => match r with
        | .parsed _ => none
        | .report r => r) = some (text, found) ∧
    ∀ k ≤ sched.length, getFarthestFailure ((Pool.start []
      [.parse {} [] b!"x", .getFarthestFailure, .parse {} [] b!" x"]).run (sched.take k)).mem ≠
      (text, found) := by
  refine ⟨List.replicate 10 0 ++ [1, 1] ++ List.replicate 10 2 ++ [1, 1, 1],
    b!"Parsing error at pos 0:0 [0] and [1] (after: ' '):" ++ [10] ++
      b!"-> expect plugin type (input, filter, output)" ++ [10], true, ?_⟩
  decide +kernel

/-- The hypotheses of `C58_undisturbed` are met by calls that overlap: goroutine 1 starts first and
is interrupted by goroutine 0. -/
example : NoStartDuring 0 (1 :: List.replicate 40 0 ++ [1, 1, 1]) ∧
    (((Pool.start [] [.parse {} [] b!"input{if[a]{}}", .parse {} [] b!"input{if[a]{}}"]).run
      (1 :: List.replicate 40 0 ++ [1, 1, 1])).returned 0).isSome = true := by
  constructor
  · intro before j after h hj _
    cases before with
    | nil => simp_all
    | cons x b =>
      have hx : x = 1 := by simp at h; exact h.1.symm
      have hj1 : j = 1 := by
        have : j ∈ (1 :: List.replicate 40 0 ++ [1, 1, 1]) := by rw [h]; simp
        simp only [List.mem_append, List.mem_cons, List.mem_replicate, List.not_mem_nil, or_false] at this
        omega
      simp [hx, hj1]
  · decide +kernel

end Verif.Props
