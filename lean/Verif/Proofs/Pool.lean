import Verif.Proofs.Concurrent
/-
Goroutines running concurrently: from schedules to executions with interference.
-/
namespace Verif

/-! ### One call -/

theorem start_setF (o : Opts) (data : Bytes) (ff : List FF) :
    (St.start data ff).firstRead o = ((St.start data []).firstRead o).setF ff [] := by
  have h : ∀ (b : Bool) (s : St) (f h : List FF),
      (if b then (s.setF f h).addErr invalidEncoding else s.setF f h) =
        (if b then s.addErr invalidEncoding else s).setF f h := by
    intro b s f h; cases b <;> rfl
  exact h _ { St.start data [] with pt := (St.start data []).pt.moveTo 0 data } ff []

/-- The program of the start rule simulates the start rule. -/
theorem evalInitC_sim (K : Coupling) (o : Opts) (data : Bytes) :
    K.Sim (evalRuleC (evalC o gram (parseFuel data)) gram .init ((St.start data []).firstRead o))
      fun f h => evalRule (eval o gram (parseFuel data)) gram .init
        (((St.start data []).firstRead o).setF f h) :=
  Coupling.Sim.rule gram (fun e s => Coupling.Sim.eval o gram _ e s) .init _

theorem finish_setF (filename : Bytes) (out : Out) (f h : List FF) :
    (finish filename (out.setF f h)).1 = finishC filename out := by
  cases out with
  | fail s =>
    simp only [Out.setF, finish, finishC, St.setF]
    split <;> rfl
  | _ => rfl

theorem finish_setF2 (filename : Bytes) (out : Out) (f h : List FF) (ht : out ≠ .timeout) :
    (finish filename (out.setF f h)).2 = f := by
  cases out with
  | timeout => exact absurd rfl ht
  | fail s =>
    simp only [Out.setF, finish, St.setF]
    split <;> rfl
  | _ => rfl

/-- A call of `Parse` run to its end in a coupling. -/
theorem parseC_exec (K : Coupling) {o : Opts} {filename data : Bytes} {m m' f : List FF}
    {r : ParseRes} (hc : K.C m f) (h : Exec K.R m (parseC o filename data) m' r) :
    (∃ f', K.C m' f' ∧ parse o filename data f = (r, f')) ∨
    (K.Bad ∧ ∃ s : St, r = .done .nil (dedupe filename [] (s.addErr indexMsg).errs)) := by
  obtain ⟨m1, out, h1, h2⟩ := h.bind_inv _ rfl
  have hr := h2.ret_inv _ rfl
  subst hr
  have hR : ∀ {m m' q} {b : ParseRes}, Exec K.R m q m' b → ∀ a, q = .ret a → ∀ f, K.C m f → K.C m' f := by
    intro m m' q b h
    induction h with
    | ret => intro _ _ f hf; exact hf
    | env hr _ ih => intro a ha f hf; exact ih a ha f (K.env hr hf)
    | read => intro a ha; simp at ha
    | write => intro a ha; simp at ha
  rcases evalInitC_sim K o data m f [] m1 out hc h1 with ⟨f', h', hc', he⟩ | ⟨hb, s, rfl⟩
  · refine .inl ⟨f', hR h2 _ rfl _ hc', ?_⟩
    have hterm := evalInit_term (parseFuel data) o data f (Nat.le_refl _)
    simp only [← start_setF] at he
    have he' : evalInit (parseFuel data) o data f = out.setF f' h' := he
    rw [parse_finish, he']
    refine Prod.ext (finish_setF ..) (finish_setF2 _ _ _ _ ?_)
    rintro rfl
    exact hterm he'
  · exact .inr ⟨hb, s, rfl⟩

/-! ### Programs that never empty the variable -/

/-- Every write is a write of a non-empty list. -/
def Prog.NoEmpty {α : Type} : Prog α → Prop
  | .ret _ => True
  | .read k => ∀ v, (k v).NoEmpty
  | .write v k => v ≠ [] ∧ k.NoEmpty

theorem Prog.NoEmpty.bind {α β : Type} {p : Prog α} {f : α → Prog β} (hp : p.NoEmpty)
    (hf : ∀ a, (f a).NoEmpty) : (p.bind f).NoEmpty := by
  induction p with
  | ret a => exact hf a
  | read k ih => exact fun v => ih v (hp v)
  | write v k ih => exact ⟨hp.1, ih hp.2⟩

/-- The only write of the empty list, if any, is the very first access. -/
def Prog.First {α : Type} (p : Prog α) : Prop :=
  p.NoEmpty ∨ ∃ k, p = .write [] k ∧ k.NoEmpty

theorem Prog.First.bind {α β : Type} {p : Prog α} {f : α → Prog β} (hp : p.First)
    (hf : ∀ a, (f a).NoEmpty) : (p.bind f).First := by
  rcases hp with hp | ⟨k, rfl, hk⟩
  · exact .inl (hp.bind hf)
  · exact .inr ⟨_, rfl, hk.bind hf⟩

theorem Prog.First.tick {α : Type} {p : Prog α} (hp : p.First) (m : List FF) :
    (p.tick m).2.NoEmpty := by
  rcases hp with hp | ⟨k, rfl, hk⟩
  · cases p with
    | ret a => trivial
    | read k => exact hp m
    | write v k => exact hp.2
  · exact hk

theorem Prog.NoEmpty.tick {α : Type} {p : Prog α} (hp : p.NoEmpty) (m : List FF) :
    (p.tick m).2.NoEmpty := Prog.First.tick (.inl hp) m

theorem Prog.NoEmpty.steady {α : Type} {p : Prog α} (hp : p.NoEmpty) (m : List FF) :
    Steady m (p.tick m).1 := by
  cases p with
  | ret a => exact id
  | read k => exact id
  | write v k => exact fun _ => hp.1

/-! ### Expressions that do not start a parse -/

mutual
/-- The expression contains neither `initParser` nor the start rule. -/
def Ex.noInit : Ex → Bool
  | .action _ e => e.noInit
  | .andCode c => c != .initParser
  | .any => true
  | .cls .. => true
  | .choice es => Ex.noInitL es
  | .labeled _ e => e.noInit
  | .lit _ => true
  | .not e => e.noInit
  | .plus e => e.noInit
  | .ref r => r != .init
  | .seq es => Ex.noInitL es
  | .state _ => true
  | .star e => e.noInit
  | .opt e => e.noInit
/-- The same for lists. -/
def Ex.noInitL : List Ex → Bool
  | [] => true
  | e :: es => e.noInit && Ex.noInitL es
end

theorem gram_noInit (r : Rule) (h : r ≠ .init) : (gram r).noInit = true := by
  cases r <;> first | exact absurd rfl h | decide +kernel

theorem pushErrorC_noEmpty (e : FF) (s : St) : (pushErrorC e s).NoEmpty := by
  intro v1
  by_cases h1 : v1.isEmpty = true
  · simp only [h1, if_true]
    exact ⟨by simp, trivial⟩
  · simp only [h1, if_false]
    intro v2
    cases v2 with
    | nil => trivial
    | cons f2 r2 =>
      simp only
      split
      · exact ⟨by simp, trivial⟩
      · intro v3
        cases v3 with
        | nil => trivial
        | cons f3 r3 =>
          simp only
          split
          · intro v4
            simp only
            split
            · trivial
            · intro v5
              exact ⟨by simp, trivial⟩
          · trivial

variable {evC : Ex → St → Prog Out}

theorem seqLoopC_noEmpty (hev : ∀ e s, e.noInit = true → (evC e s).NoEmpty) (s0 : St) (es : List Ex)
    (acc : List Val) (s : St) (h : Ex.noInitL es = true) : (seqLoopC evC s0 es acc s).NoEmpty := by
  induction es generalizing acc s with
  | nil => trivial
  | cons e es ih =>
    simp only [Ex.noInitL, Bool.and_eq_true] at h
    refine (hev e s h.1).bind fun out => ?_
    cases out with
    | ok v t => exact ih _ _ h.2
    | _ => trivial

theorem choiceLoopC_noEmpty (hev : ∀ e s, e.noInit = true → (evC e s).NoEmpty) (es : List Ex) (s : St)
    (h : Ex.noInitL es = true) : (choiceLoopC evC es s).NoEmpty := by
  induction es generalizing s with
  | nil => trivial
  | cons e es ih =>
    simp only [Ex.noInitL, Bool.and_eq_true] at h
    refine (hev e _ h.1).bind fun out => ?_
    cases out with
    | fail t => exact ih _ h.2
    | _ => trivial

theorem starLoopC_noEmpty {evC : St → Prog Out} (hev : ∀ s, (evC s).NoEmpty) (n : Nat)
    (acc : List Val) (s : St) : (starLoopC evC n acc s).NoEmpty := by
  induction n generalizing acc s with
  | zero => trivial
  | succ n ih =>
    refine (hev _).bind fun out => ?_
    cases out with
    | ok v t => exact ih _ _
    | _ => trivial

theorem evalC_noEmpty (o : Opts) (n : Nat) (e : Ex) (s : St) (h : e.noInit = true) :
    (evalC o gram n e s).NoEmpty := by
  induction n generalizing e s with
  | zero => trivial
  | succ n ih =>
    simp only [evalC]
    split
    · trivial
    · have ih' : ∀ e s, e.noInit = true → (evalC o gram n e s).NoEmpty := fun e s h => ih e s h
      cases e with
      | action a e =>
        refine (ih e _ h).bind fun out => ?_
        cases out with
        | ok v t => simp only; split <;> trivial
        | _ => trivial
      | andCode c =>
        cases c with
        | initParser => simp [Ex.noInit] at h
        | pushError msg => exact pushErrorC_noEmpty _ _
        | fatalError msg => exact ⟨by simp, trivial⟩
      | any => trivial
      | cls => trivial
      | choice es => exact choiceLoopC_noEmpty ih' es _ h
      | labeled l e =>
        refine (ih e _ h).bind fun out => ?_
        cases out <;> trivial
      | lit v => trivial
      | not e =>
        refine (ih e _ h).bind fun out => ?_
        cases out <;> trivial
      | plus e =>
        refine (ih e _ h).bind fun out => ?_
        cases out with
        | ok v t => exact starLoopC_noEmpty (fun s => ih e s h) n _ _
        | _ => trivial
      | ref r =>
        refine (ih (gram r) _ (gram_noInit r (by simpa [Ex.noInit] using h))).bind fun out => ?_
        cases out <;> trivial
      | seq es => exact seqLoopC_noEmpty ih' _ es _ _ h
      | state c => trivial
      | star e => exact starLoopC_noEmpty (fun s => ih e s h) n _ _
      | opt e =>
        refine (ih e _ h).bind fun out => ?_
        cases out <;> trivial

theorem evalC_succ (o : Opts) (G : Gram) (n : Nat) (e : Ex) (s : St) :
    evalC o G (n + 1) e s =
      if tooMany o (s.cnt + 1) then .ret (.panic maxExprMsg { s with cnt := s.cnt + 1 })
      else stepC o G (evalC o G n) n e { s with cnt := s.cnt + 1 } := rfl

/-- The start rule resets the variable with its first access and never again. -/
theorem evalC_init_first (o : Opts) (n : Nat) (s : St) : (evalC o gram (n + 3) (gram .init) s).First := by
  have hg : gram .init = G.init := rfl
  rw [hg, G.init]
  rw [evalC_succ]
  split
  · exact .inl trivial
  · simp only [stepC]
    refine Prog.First.bind ?_ fun out => ?_
    · rw [evalC_succ]
      split
      · exact .inl trivial
      · simp only [stepC, seqLoopC]
        have h1 : ∀ s, (∃ t, evalC o gram (n + 1) (.state .initState) s = .ret (.ok .nil t)) ∨
            ∃ m t, evalC o gram (n + 1) (.state .initState) s = .ret (.panic m t) := by
          intro s
          rw [evalC_succ]
          split
          · exact .inr ⟨_, _, rfl⟩
          · exact .inl ⟨_, rfl⟩
        rcases h1 { { s with cnt := s.cnt + 1 } with cnt := ({ s with cnt := s.cnt + 1 } : St).cnt + 1 } with ⟨t, ht⟩ | ⟨m, t, ht⟩
        · simp only at ht
          rw [ht]
          simp only [Prog.bind]
          have h2 : (evalC o gram (n + 1) (.andCode .initParser) t).First := by
            rw [evalC_succ]
            split
            · exact .inl trivial
            · exact .inr ⟨_, rfl, trivial⟩
          refine h2.bind fun out => ?_
          cases out with
          | ok v t =>
            refine (evalC_noEmpty o _ _ _ ?_).bind fun out => ?_
            · decide +kernel
            · cases out <;> trivial
          | _ => trivial
        · simp only at ht
          rw [ht]
          exact .inl trivial
    · cases out with
      | ok v t =>
        simp only
        cases runAct o (.retConfig .conf) t.frame s.pt.pos (sliceFrom s.pt t.pt) t.warns <;> trivial
      | _ => trivial

/-- A call resets the variable, if at all, with its first access. -/
theorem Call.first (c : Call) : c.prog.First := by
  cases c with
  | parse o filename data =>
    refine Prog.First.bind ?_ fun _ => trivial
    refine Prog.First.bind ?_ fun _ => trivial
    refine Prog.First.bind ?_ fun out => by cases out <;> trivial
    have : parseFuel data = (60 * (data.length + 2) - 3) + 3 := by
      unfold parseFuel; omega
    rw [this]
    exact evalC_init_first o _ _
  | getFarthestFailure =>
    refine .inl ?_
    refine Prog.NoEmpty.bind ?_ fun _ => trivial
    intro v1
    by_cases h1 : v1.isEmpty = true
    · simp only [h1, if_true]; trivial
    · simp only [h1, if_false]
      intro v2
      cases v2 with
      | nil => trivial
      | cons f2 r2 =>
        intro v3
        cases v3 with
        | nil => trivial
        | cons f3 r3 =>
          intro v4
          cases v4 with
          | nil => trivial
          | cons f4 r4 => intro v5; trivial

/-! ### Schedules -/

theorem Pool.run_append (P : Pool) (a b : List Nat) : P.run (a ++ b) = (P.run a).run b := by
  induction a generalizing P with
  | nil => rfl
  | cons i a ih => exact ih _

theorem Pool.tick_other (P : Pool) {i j : Nat} (h : j ≠ i) :
    (P.tick j).progs[i]? = P.progs[i]? := by
  simp only [Pool.tick]
  split
  · simp [List.getElem?_set, h]
  · rfl

theorem Pool.tick_self (P : Pool) {i : Nat} {p : Prog Ret} (h : P.progs[i]? = some p) :
    (P.tick i).progs[i]? = some (p.tick P.mem).2 ∧ (P.tick i).mem = (p.tick P.mem).1 := by
  have hl : i < P.progs.length := by
    rcases List.getElem?_eq_some_iff.mp h with ⟨hl, _⟩
    exact hl
  simp only [Pool.tick, h]
  simp [hl]

/-- A schedule in which the others respect `R` is an execution of goroutine `i` with
interference `R`. -/
theorem Pool.run_exec (R : List FF → List FF → Prop) (i : Nat) (sched : List Nat) (P : Pool)
    (p : Prog Ret) (r : Ret) (hp : P.progs[i]? = some p)
    (hR : ∀ a j b, sched = a ++ j :: b → j ≠ i → R (P.run a).mem ((P.run a).tick j).mem)
    (hr : (P.run sched).progs[i]? = some (.ret r)) : ∃ m', Exec R P.mem p m' r := by
  induction sched generalizing P p with
  | nil =>
    have h : some p = some (Prog.ret r) := hp.symm.trans hr
    simp only [Option.some.injEq] at h
    subst h
    exact ⟨_, .ret _ _⟩
  | cons j sched ih =>
    have hR' : ∀ a k b, sched = a ++ k :: b → k ≠ i →
        R ((P.tick j).run a).mem (((P.tick j).run a).tick k).mem := by
      intro a k b h hk
      exact hR (j :: a) k b (by rw [h]; rfl) hk
    by_cases hj : j = i
    · subst hj
      obtain ⟨h1, h2⟩ := P.tick_self hp
      obtain ⟨m', hx⟩ := ih (P.tick j) _ h1 hR' hr
      rw [h2] at hx
      cases p with
      | ret a => exact ⟨m', hx⟩
      | read k => exact ⟨m', .read hx⟩
      | write v k => exact ⟨m', .write hx⟩
    · have h1 := P.tick_other (i := i) hj
      obtain ⟨m', hx⟩ := ih (P.tick j) p (h1.trans hp) hR' hr
      exact ⟨m', .env (hR [] j sched rfl hj) hx⟩

theorem Pool.run_absent (i : Nat) (sched : List Nat) (P : Pool) (h : i ∉ sched) :
    (P.run sched).progs[i]? = P.progs[i]? := by
  induction sched generalizing P with
  | nil => rfl
  | cons j sched ih =>
    simp only [List.mem_cons, not_or] at h
    exact (ih (P.tick j) h.2).trans (P.tick_other fun hj => h.1 hj.symm)

/-- A program that is never-emptying stays so. -/
theorem Pool.run_noEmpty (j : Nat) (sched : List Nat) (P : Pool)
    (h : ∀ p, P.progs[j]? = some p → p.NoEmpty) :
    ∀ p, (P.run sched).progs[j]? = some p → p.NoEmpty := by
  induction sched generalizing P with
  | nil => exact h
  | cons k sched ih =>
    refine ih (P.tick k) ?_
    intro p hp
    by_cases hk : k = j
    · subst hk
      cases hq : P.progs[k]? with
      | none =>
        simp [Pool.tick, hq] at hp
      | some q =>
        rw [(P.tick_self hq).1] at hp
        simp only [Option.some.injEq] at hp
        subst hp
        exact (h q hq).tick _
    · rw [P.tick_other hk] at hp
      exact h p hp

/-- A call that has made its first access never empties the variable. -/
theorem Pool.run_begun (j : Nat) (sched : List Nat) (P : Pool)
    (h : ∀ p, P.progs[j]? = some p → p.First) (hj : j ∈ sched) :
    ∀ p, (P.run sched).progs[j]? = some p → p.NoEmpty := by
  induction sched generalizing P with
  | nil => simp at hj
  | cons k sched ih =>
    by_cases hk : k = j
    · subst hk
      refine Pool.run_noEmpty k sched (P.tick k) ?_
      intro p hp
      cases hq : P.progs[k]? with
      | none =>
        simp [Pool.tick, hq] at hp
      | some q =>
        rw [(P.tick_self hq).1] at hp
        simp only [Option.some.injEq] at hp
        subst hp
        exact (h q hq).tick _
    · refine ih (P.tick k) ?_ ?_
      · intro p hp
        rw [P.tick_other hk] at hp
        exact h p hp
      · simp only [List.mem_cons] at hj
        exact hj.resolve_left fun h => hk h.symm

/-- A step of a never-emptying program does not empty the variable. -/
theorem Pool.tick_steady (P : Pool) (j : Nat) (h : ∀ p, P.progs[j]? = some p → p.NoEmpty) :
    Steady P.mem (P.tick j).mem := by
  simp only [Pool.tick]
  split
  · rename_i p hp
    exact (h p hp).steady _
  · exact id

/-- Every program comes to its end when it is scheduled often enough. -/
theorem Pool.run_returns (i : Nat) (p : Prog Ret) (P : Pool) (hp : P.progs[i]? = some p)
    (sched : Nat → Nat) (hs : ∀ n, ∃ k, n ≤ k ∧ sched k = i) :
    ∃ n r, (P.run ((List.range n).map sched)).progs[i]? = some (.ret r) := by
  have step : ∀ (P : Pool) (p : Prog Ret), P.progs[i]? = some p →
      ∀ n0, ∃ n, n0 < n ∧ ∃ m : List FF, (P.run ((List.range' n0 (n - n0)).map sched)).progs[i]? =
        some (p.tick m).2 := by
    intro P p hp n0
    obtain ⟨k, hk, hki⟩ := hs n0
    have hex : ∃ d, sched (n0 + d) = i := ⟨k - n0, by rw [← hki]; congr 1; omega⟩
    have hmin : ∃ d, sched (n0 + d) = i ∧ ∀ e, e < d → sched (n0 + e) ≠ i := by
      obtain ⟨d, hd⟩ := hex
      induction d using Nat.strongRecOn with
      | _ d ih =>
        by_cases h : ∃ e, e < d ∧ sched (n0 + e) = i
        · obtain ⟨e, he, hei⟩ := h
          exact ih e he hei
        · exact ⟨d, hd, fun e he hei => h ⟨e, he, hei⟩⟩
    obtain ⟨d, hd, hlt⟩ := hmin
    refine ⟨n0 + d + 1, by omega, ?_⟩
    have hlen : n0 + d + 1 - n0 = d + 1 := by omega
    rw [hlen, List.range'_concat, List.map_append, Pool.run_append]
    have habs : i ∉ (List.range' n0 d).map sched := by
      simp only [List.mem_map, List.mem_range'_1, not_exists, not_and]
      intro x hx hxi
      exact hlt (x - n0) (by omega) (by rw [← hxi]; congr 1; omega)
    have h1 := Pool.run_absent i _ P habs
    have h2 := Pool.tick_self _ (h1.trans hp)
    refine ⟨(P.run ((List.range' n0 d).map sched)).mem, ?_⟩
    simp only [List.map_cons, List.map_nil, Nat.one_mul, Pool.run, hd]
    exact h2.1
  have main : ∀ (p : Prog Ret) (P : Pool), P.progs[i]? = some p → ∀ n0,
      ∃ n r, n0 ≤ n ∧ (P.run ((List.range' n0 (n - n0)).map sched)).progs[i]? = some (.ret r) := by
    intro p
    induction p with
    | ret a =>
      intro P hp n0
      refine ⟨n0, a, Nat.le_refl _, ?_⟩
      simpa [Pool.run] using hp
    | read k ih =>
      intro P hp n0
      obtain ⟨n1, hlt, m, hm⟩ := step P _ hp n0
      obtain ⟨n, r, hle, hr⟩ := ih m _ hm n1
      refine ⟨n, r, by omega, ?_⟩
      rw [← Pool.run_append, ← List.map_append] at hr
      have : List.range' n0 (n1 - n0) ++ List.range' n1 (n - n1) = List.range' n0 (n - n0) := by
        have h1 : n1 = n0 + 1 * (n1 - n0) := by omega
        have h2 : n - n0 = (n1 - n0) + (n - n1) := by omega
        rw [h2, ← List.range'_append, ← h1]
      rw [this] at hr
      exact hr
    | write v k ih =>
      intro P hp n0
      obtain ⟨n1, hlt, m, hm⟩ := step P _ hp n0
      obtain ⟨n, r, hle, hr⟩ := ih _ hm n1
      refine ⟨n, r, by omega, ?_⟩
      rw [← Pool.run_append, ← List.map_append] at hr
      have : List.range' n0 (n1 - n0) ++ List.range' n1 (n - n1) = List.range' n0 (n - n0) := by
        have h1 : n1 = n0 + 1 * (n1 - n0) := by omega
        have h2 : n - n0 = (n1 - n0) + (n - n1) := by omega
        rw [h2, ← List.range'_append, ← h1]
      rw [this] at hr
      exact hr
  obtain ⟨n, r, _, h⟩ := main p P hp 0
  exact ⟨n, r, by simpa [List.range_eq_range'] using h⟩

end Verif
