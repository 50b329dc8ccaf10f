import Verif.Model.Concurrent
import Verif.Proofs.Fail
import Verif.Proofs.Parse
/-
Calls running concurrently: the program of a call simulates the sequential engine, up to an
"index out of range" panic.
-/
namespace Verif

/-! ### Executions with interference -/

/-- A program runs to its end while others may change the variable, in ways allowed by `R`. -/
inductive Exec {α : Type} (R : List FF → List FF → Prop) :
    List FF → Prog α → List FF → α → Prop
  | ret (m a) : Exec R m (.ret a) m a
  | env {m m1 m' p a} : R m m1 → Exec R m1 p m' a → Exec R m p m' a
  | read {m k m' a} : Exec R m (k m) m' a → Exec R m (.read k) m' a
  | write {m v k m' a} : Exec R v k m' a → Exec R m (.write v k) m' a

theorem Exec.bind_inv {α β : Type} {R : List FF → List FF → Prop} {f : α → Prog β} {m m' : List FF}
    {q : Prog β} {b : β} (h : Exec R m q m' b) :
    ∀ p : Prog α, q = p.bind f → ∃ m1 a, Exec R m p m1 a ∧ Exec R m1 (f a) m' b := by
  induction h with
  | ret m b =>
    intro p hp
    cases p with
    | ret a =>
      refine ⟨m, a, .ret _ _, ?_⟩
      simp only [Prog.bind] at hp
      rw [← hp]
      exact .ret _ _
    | read k => simp [Prog.bind] at hp
    | write v k => simp [Prog.bind] at hp
  | env hr _ ih =>
    intro p hp
    obtain ⟨m1, a, h1, h2⟩ := ih p hp
    exact ⟨m1, a, .env hr h1, h2⟩
  | @read m k m' a h ih =>
    intro p hp
    cases p with
    | ret a =>
      simp only [Prog.bind] at hp
      exact ⟨m, a, .ret _ _, by rw [← hp]; exact .read h⟩
    | read k' =>
      simp only [Prog.bind, Prog.read.injEq] at hp
      obtain ⟨m1, a, h1, h2⟩ := ih (k' m) (by rw [hp])
      exact ⟨m1, a, .read h1, h2⟩
    | write v k' => simp [Prog.bind] at hp
  | @write m v k m' a h ih =>
    intro p hp
    cases p with
    | ret a =>
      simp only [Prog.bind] at hp
      exact ⟨m, a, .ret _ _, by rw [← hp]; exact .write h⟩
    | read k' => simp [Prog.bind] at hp
    | write v' k' =>
      simp only [Prog.bind, Prog.write.injEq] at hp
      obtain ⟨rfl, hp⟩ := hp
      obtain ⟨m1, a, h1, h2⟩ := ih k' hp
      exact ⟨m1, a, .write h1, h2⟩

/-- An execution of a finished program. -/
theorem Exec.ret_inv {α : Type} {R : List FF → List FF → Prop} {m m' : List FF} {q : Prog α} {b : α}
    (h : Exec R m q m' b) : ∀ a, q = .ret a → b = a := by
  induction h with
  | ret m b => intro a ha; simpa using ha
  | env _ _ ih => exact ih
  | read _ _ => intro a ha; simp at ha
  | write _ _ => intro a ha; simp at ha

/-! ### The simulation -/

/-- Replace the failure list and the ghost history of a state. -/
def St.setF (s : St) (f h : List FF) : St := { s with ff := f, hist := h }

/-- Replace the failure list and the ghost history of an outcome. -/
def Out.setF (f h : List FF) : Out → Out
  | .ok v s => .ok v (s.setF f h)
  | .fail s => .fail (s.setF f h)
  | .panic m s => .panic m (s.setF f h)
  | .timeout => .timeout

/-- The run was ended by the index panic. -/
def Out.Race (o : Out) : Prop := ∃ s, o = .panic indexMsg s

/-- How the shared variable is coupled to the failure list of the sequential run (`C`), what the
environment may do (`R`), and whether the index panic may happen (`Bad`). -/
structure Coupling where
  R : List FF → List FF → Prop
  C : List FF → List FF → Prop
  Bad : Prop
  env : ∀ {m m' f}, R m m' → C m f → C m' f
  init : C [] []
  fatal : ∀ e, C [e] [e]
  push : ∀ {m f e s m' out}, C m f → Exec R m (pushErrorC e s) m' out →
    (out = .fail s ∧ C m' (pushFF f e)) ∨ (Bad ∧ out.Race)

namespace Coupling
variable (K : Coupling)

/-- A program simulates a sequential evaluation. -/
def Sim (p : Prog Out) (ev : List FF → List FF → Out) : Prop :=
  ∀ m f h m' out, K.C m f → Exec K.R m p m' out →
    (∃ f' h', K.C m' f' ∧ ev f h = out.setF f' h') ∨ (K.Bad ∧ out.Race)

variable {K}

theorem Sim.ret {out : Out} {ev : List FF → List FF → Out}
    (h : ∀ f h, ev f h = out.setF f h) : K.Sim (.ret out) ev := by
  intro m f hh m' out' hc hx
  generalize hq : Prog.ret out = q at hx
  induction hx generalizing f with
  | ret m a =>
    simp only [Prog.ret.injEq] at hq
    subst hq
    exact .inl ⟨f, hh, hc, h f hh⟩
  | env hr _ ih => exact ih f (K.env hr hc) hq
  | read _ _ => simp at hq
  | write _ _ => simp at hq

/-- Simulation of a composed program. -/
theorem Sim.bind {p : Prog Out} {ev : List FF → List FF → Out} {g : Out → Prog Out}
    {ev' : Out → Out} (hp : K.Sim p ev)
    (hg : ∀ out, K.Sim (g out) fun f h => ev' (out.setF f h))
    (hr : ∀ s, g (.panic indexMsg s) = .ret (.panic indexMsg s)) :
    K.Sim (p.bind g) fun f h => ev' (ev f h) := by
  intro m f h m' out hc hx
  obtain ⟨m1, a, h1, h2⟩ := hx.bind_inv p rfl
  rcases hp m f h m1 a hc h1 with ⟨f', h', hc', he⟩ | ⟨hb, s, rfl⟩
  · have := hg a m1 f' h' m' out hc' h2
    simp only [← he] at this
    exact this
  · rw [hr] at h2
    rw [h2.ret_inv _ rfl]
    exact .inr ⟨hb, s, rfl⟩

/-- Simulation of code predicates. -/
theorem Sim.code (c : Code) (s : St) : K.Sim (runCodeC c s) fun f h => runCode c (s.setF f h) := by
  intro m f h m' out hc hx
  cases c with
  | initParser =>
    simp only [runCodeC] at hx
    generalize hq : Prog.write [] (Prog.ret (Out.ok Val.nil s)) = q at hx
    induction hx generalizing f with
    | ret m a => simp at hq
    | env hr _ ih => exact ih f (K.env hr hc) hq
    | read _ _ => simp at hq
    | @write m v k m' a hx' ih =>
      simp only [Prog.write.injEq] at hq
      obtain ⟨rfl, rfl⟩ := hq
      have := Sim.ret (K := K) (out := .ok .nil s) (ev := fun f h => .ok .nil (s.setF f h))
        (fun _ _ => rfl) _ _ [] _ _ K.init hx'
      rcases this with ⟨f', h', hc', he⟩ | hb
      · refine .inl ⟨f', h', hc', ?_⟩
        rw [← he]; rfl
      · exact .inr hb
  | fatalError msg =>
    simp only [runCodeC] at hx
    generalize hq : Prog.write _ _ = q at hx
    induction hx generalizing f with
    | ret m a => simp at hq
    | env hr _ ih => exact ih f (K.env hr hc) hq
    | read _ _ => simp at hq
    | @write m v k m' a hx' ih =>
      simp only [Prog.write.injEq] at hq
      obtain ⟨rfl, rfl⟩ := hq
      have := Sim.ret (K := K) (out := .panic (ffHeader s.curPos s.errPos s.curText ++ ffLine msg) s)
        (ev := fun f h => .panic (ffHeader s.curPos s.errPos s.curText ++ ffLine msg) (s.setF f h))
        (fun _ _ => rfl) _ _ [⟨msg, s.curPos, s.curText, s.errPos⟩] _ _ (K.fatal _) hx'
      rcases this with ⟨f', h', hc', he⟩ | hb
      · refine .inl ⟨f', h', hc', ?_⟩
        rw [← he]; rfl
      · exact .inr hb
  | pushError msg =>
    simp only [runCodeC] at hx
    rcases K.push hc hx with ⟨rfl, hc'⟩ | hb
    · exact .inl ⟨_, _, hc', rfl⟩
    · exact .inr hb

variable {evC : Ex → St → Prog Out} {ev : Ex → St → Out}

theorem Sim.seqLoop (hev : ∀ e s, K.Sim (evC e s) fun f h => ev e (s.setF f h)) (s0 : St)
    (es : List Ex) (acc : List Val) (s : St) :
    K.Sim (seqLoopC evC s0 es acc s) fun f h => seqLoop ev s0 es acc (s.setF f h) := by
  induction es generalizing acc s with
  | nil => exact Sim.ret fun _ _ => rfl
  | cons e es ih =>
    refine Sim.bind (ev' := fun
      | .ok v s' => Verif.seqLoop ev s0 es (acc ++ [v]) s'
      | .fail s' => .fail { s' with warns := s0.warns, pt := s0.pt }
      | .panic m s' => .panic m s'
      | .timeout => .timeout) (hev e s) ?_ (fun _ => rfl)
    intro out
    cases out with
    | ok v t => exact ih _ _
    | _ => exact Sim.ret fun _ _ => rfl

theorem Sim.choiceLoop (hev : ∀ e s, K.Sim (evC e s) fun f h => ev e (s.setF f h))
    (es : List Ex) (s : St) :
    K.Sim (choiceLoopC evC es s) fun f h => choiceLoop ev es (s.setF f h) := by
  induction es generalizing s with
  | nil => exact Sim.ret fun _ _ => rfl
  | cons e es ih =>
    refine Sim.bind (ev' := fun
      | .ok v s' => .ok v { s' with frame := s.frame }
      | .fail s' => Verif.choiceLoop ev es { s' with frame := s.frame, warns := s.warns }
      | .panic m s' => .panic m s'
      | .timeout => .timeout) (hev e { s with frame := [] }) ?_ (fun _ => rfl)
    intro out
    cases out with
    | fail t => exact ih _
    | _ => exact Sim.ret fun _ _ => rfl

theorem Sim.starLoop {evC : St → Prog Out} {ev : St → Out}
    (hev : ∀ s, K.Sim (evC s) fun f h => ev (s.setF f h)) (n : Nat) (acc : List Val) (s : St) :
    K.Sim (starLoopC evC n acc s) fun f h => starLoop ev n acc (s.setF f h) := by
  induction n generalizing acc s with
  | zero => exact Sim.ret fun _ _ => rfl
  | succ n ih =>
    refine Sim.bind (ev' := fun
      | .ok v s' => Verif.starLoop ev n (acc ++ [v]) { s' with frame := s.frame }
      | .fail s' => .ok (.list acc) { s' with frame := s.frame }
      | .panic m s' => .panic m s'
      | .timeout => .timeout) (hev { s with frame := [] }) ?_ (fun _ => rfl)
    intro out
    cases out with
    | ok v t => exact ih _ _
    | _ => exact Sim.ret fun _ _ => rfl

theorem Sim.rule (G : Gram) (hev : ∀ e s, K.Sim (evC e s) fun f h => ev e (s.setF f h)) (r : Rule)
    (s : St) :
    K.Sim (evalRuleC evC G r s) fun f h => evalRule ev G r (s.setF f h) := by
  refine Sim.bind (ev' := fun
      | .ok v s' => .ok v { s' with rstack := s.rstack, frame := s.frame }
      | .fail s' => .fail { s' with rstack := s.rstack, frame := s.frame }
      | .panic m s' => .panic m s'
      | .timeout => .timeout) (hev (G r) { s with rstack := r :: s.rstack, frame := [] }) ?_
      (fun _ => rfl)
  intro out
  cases out <;> exact Sim.ret fun _ _ => rfl

theorem setF_eq (s : St) (f h : List FF) : s.setF f h = { ({ s with ff := f } : St) with hist := h } := rfl

theorem read_setF (o : Opts) (s : St) (f h : List FF) : (s.setF f h).read o = (s.read o).setF f h := by
  have hp : (s.setF f h).pt = s.pt := rfl
  simp only [St.read, hp]
  cases (s.pt.next.invalid && !o.allowInvalid) <;> rfl

theorem failAt_setF (s : St) (f h : List FF) (b : Bool) (p : Pos) (w : Bytes) :
    (s.setF f h).failAt b p w = (s.failAt b p w).setF f h := by
  simp only [St.failAt, St.setF]
  by_cases h1 : b = s.mfInv
  · simp only [h1]
    by_cases h2 : p.offset < s.mfPos.offset
    · simp [h2]
    · simp only [h2]
      by_cases h3 : p.offset > s.mfPos.offset <;> simp [h3]
  · simp [h1]

theorem litLoop_setF (o : Opts) (want : Bytes) (start : Pt) (cs : Bytes) (s : St) (f h : List FF) :
    litLoop o want start cs (s.setF f h) = (litLoop o want start cs s).setF f h := by
  induction cs generalizing s with
  | nil => simp only [litLoop, failAt_setF, Out.setF]; rfl
  | cons c cs ih =>
    have hp : (s.setF f h).pt = s.pt := rfl
    simp only [litLoop, hp]
    split
    · rw [read_setF, ih]
    · simp only [failAt_setF, Out.setF]; rfl

theorem seqLoop_s0 (ev : Ex → St → Out) (s0 : St) (f h : List FF) (es : List Ex) (acc : List Val)
    (s : St) : Verif.seqLoop ev (s0.setF f h) es acc s = Verif.seqLoop ev s0 es acc s := by
  induction es generalizing acc s with
  | nil => rfl
  | cons e es ih =>
    simp only [Verif.seqLoop]
    cases ev e s with
    | ok v t => exact ih _ _
    | _ => rfl

theorem Sim.step (o : Opts) (G : Gram) (n : Nat)
    (hev : ∀ e s, K.Sim (evC e s) fun f h => ev e (s.setF f h)) (e : Ex) (s : St) :
    K.Sim (stepC o G evC n e s) fun f h => step o G ev n e (s.setF f h) := by
  cases e with
  | action a e =>
    refine Sim.bind (ev' := fun
      | .ok _ s' =>
        let s' := { s' with curPos := s.pt.pos, curText := sliceFrom s.pt s'.pt }
        match runAct o a s'.frame s'.curPos s'.curText s'.warns with
        | .val v => .ok v s'
        | .err v msg => .ok v (s'.addErrAt msg s.pt.pos)
        | .panic m => .panic m s'
      | r => r) (hev e s) ?_ (fun _ => rfl)
    intro out
    cases out with
    | ok v t =>
      simp only [Out.setF, St.setF]
      cases runAct o a t.frame s.pt.pos (sliceFrom s.pt t.pt) t.warns <;>
        exact Sim.ret fun _ _ => rfl
    | _ => exact Sim.ret fun _ _ => rfl
  | andCode c => exact Sim.code c s
  | any =>
    refine Sim.ret fun f h => ?_
    have hp : (s.setF f h).pt = s.pt := rfl
    simp only [Verif.step, hp, failAt_setF, read_setF]
    split <;> rfl
  | cls val inv chars ranges =>
    refine Sim.ret fun f h => ?_
    have hp : (s.setF f h).pt = s.pt := rfl
    simp only [Verif.step, hp, failAt_setF, read_setF]
    split
    · rfl
    · split <;> rfl
  | choice alts => exact Sim.choiceLoop hev alts s
  | labeled l e =>
    refine Sim.bind (ev' := fun
      | .ok v s' => .ok v { s' with frame := (l, v) :: s.frame }
      | .fail s' => .fail { s' with frame := s.frame }
      | r => r) (hev e { s with frame := [] }) ?_ (fun _ => rfl)
    intro out
    cases out <;> exact Sim.ret fun _ _ => rfl
  | lit v => exact Sim.ret fun f h => litLoop_setF o (litWant v) s.pt v s f h
  | not e =>
    refine Sim.bind (ev' := fun
      | .ok _ s' => .fail { s' with frame := s.frame, warns := s.warns, pt := s.pt, mfInv := s.mfInv }
      | .fail s' =>
        .ok .nil { s' with frame := s.frame, warns := s.warns, pt := s.pt, mfInv := s.mfInv }
      | r => r) (hev e { s with frame := [], mfInv := !s.mfInv }) ?_ (fun _ => rfl)
    intro out
    cases out <;> exact Sim.ret fun _ _ => rfl
  | plus e =>
    refine Sim.bind (ev' := fun
      | .ok v s' => Verif.starLoop (ev e) n [v] { s' with frame := s.frame }
      | .fail s' => .fail { s' with frame := s.frame }
      | r => r) (hev e { s with frame := [] }) ?_ (fun _ => rfl)
    intro out
    cases out with
    | ok v t => exact Sim.starLoop (hev e) n [v] { t with frame := s.frame }
    | _ => exact Sim.ret fun _ _ => rfl
  | ref r => exact Sim.rule G hev r s
  | seq es =>
    have := Sim.seqLoop (K := K) hev s es [] s
    intro m f h m' out hc hx
    have := this m f h m' out hc hx
    simp only [Verif.step, seqLoop_s0]
    exact this
  | state c =>
    refine Sim.ret fun f h => ?_
    cases c with
    | initState => rfl
    | warnComment =>
      simp only [Verif.step, runState]
      have h1 : (s.setF f h).curText = s.curText := rfl
      rw [h1]
      split <;> rfl
  | star e => exact Sim.starLoop (hev e) n [] s
  | opt e =>
    refine Sim.bind (ev' := fun
      | .ok v s' => .ok v { s' with frame := s.frame }
      | .fail s' => .ok .nil { s' with frame := s.frame }
      | r => r) (hev e { s with frame := [] }) ?_ (fun _ => rfl)
    intro out
    cases out <;> exact Sim.ret fun _ _ => rfl

theorem Sim.eval (o : Opts) (G : Gram) (n : Nat) (e : Ex) (s : St) :
    K.Sim (evalC o G n e s) fun f h => eval o G n e (s.setF f h) := by
  induction n generalizing e s with
  | zero => exact Sim.ret fun _ _ => rfl
  | succ n ih =>
    simp only [evalC, Verif.eval]
    have hc : ∀ f h, (s.setF f h).cnt = s.cnt := fun _ _ => rfl
    simp only [hc]
    cases tooMany o (s.cnt + 1) with
    | true => exact Sim.ret fun _ _ => rfl
    | false => exact Sim.step o G n ih e { s with cnt := s.cnt + 1 }

end Coupling

/-! ### Inverting executions -/

/-- What others may do is reflexive and transitive. -/
structure Rely (R : List FF → List FF → Prop) : Prop where
  refl : ∀ m, R m m
  trans : ∀ {a b c}, R a b → R b c → R a c

theorem Exec.ret_inv' {α : Type} {R : List FF → List FF → Prop} (hR : Rely R) {m m' : List FF}
    {q : Prog α} {b : α} (h : Exec R m q m' b) : ∀ a, q = .ret a → b = a ∧ R m m' := by
  induction h with
  | ret m b => intro a ha; exact ⟨by simpa using ha, hR.refl _⟩
  | env hr _ ih => intro a ha; exact ⟨(ih a ha).1, hR.trans hr (ih a ha).2⟩
  | read _ _ => intro a ha; simp at ha
  | write _ _ => intro a ha; simp at ha

theorem Exec.read_inv {α : Type} {R : List FF → List FF → Prop} (hR : Rely R) {m m' : List FF}
    {q : Prog α} {b : α} (h : Exec R m q m' b) :
    ∀ k, q = .read k → ∃ v, R m v ∧ Exec R v (k v) m' b := by
  induction h with
  | ret m b => intro a ha; simp at ha
  | env hr _ ih =>
    intro a ha
    obtain ⟨v, h1, h2⟩ := ih a ha
    exact ⟨v, hR.trans hr h1, h2⟩
  | read h _ => intro a ha; simp only [Prog.read.injEq] at ha; subst ha; exact ⟨_, hR.refl _, h⟩
  | write _ _ => intro a ha; simp at ha

theorem Exec.write_inv {α : Type} {R : List FF → List FF → Prop} {m m' : List FF}
    {q : Prog α} {b : α} (h : Exec R m q m' b) :
    ∀ v k, q = .write v k → Exec R v k m' b := by
  induction h with
  | ret m b => intro v k ha; simp at ha
  | env hr _ ih => exact ih
  | read h _ => intro v k ha; simp at ha
  | write h _ =>
    intro v k ha
    simp only [Prog.write.injEq] at ha
    obtain ⟨rfl, rfl⟩ := ha
    exact h

/-- All the ways `pushError` can go, with the values of the variable it saw. -/
theorem pushErrorC_cases {R : List FF → List FF → Prop} (hR : Rely R) {m m' : List FF} {e : FF}
    {s : St} {out : Out} (h : Exec R m (pushErrorC e s) m' out) :
    (∃ v1, R m v1 ∧ v1 = [] ∧ out = .fail s ∧ R [e] m') ∨
    (∃ v1 v2, R m v1 ∧ v1 ≠ [] ∧ R v1 v2 ∧
      ((v2 = [] ∧ out = .panic indexMsg s) ∨
       (∃ f2 r2, v2 = f2 :: r2 ∧
         ((e.pos > f2.pos ∧ out = .fail s ∧ R [e] m') ∨
          (¬ e.pos > f2.pos ∧ ∃ v3, R v2 v3 ∧
            ((v3 = [] ∧ out = .panic indexMsg s) ∨
             (∃ f3 r3, v3 = f3 :: r3 ∧
               ((e.pos ≠ f3.pos ∧ out = .fail s ∧ R v3 m') ∨
                (e.pos = f3.pos ∧ ∃ v4, R v3 v4 ∧
                  ((v4.any (fun x => x.msg == e.msg) = true ∧ out = .fail s ∧ R v4 m') ∨
                   (v4.any (fun x => x.msg == e.msg) = false ∧
                     ∃ v5, R v4 v5 ∧ out = .fail s ∧ R (v5 ++ [e]) m'))))))))))) := by
  obtain ⟨v1, hr1, h⟩ := h.read_inv hR _ rfl
  by_cases h1 : v1 = []
  · subst h1
    have h := h.write_inv _ _ rfl
    obtain ⟨rfl, hm⟩ := h.ret_inv' hR _ rfl
    exact .inl ⟨[], hr1, rfl, rfl, hm⟩
  · have h1' : v1.isEmpty = false := by cases v1 with
      | nil => exact absurd rfl h1
      | cons => rfl
    rw [if_neg (by rw [h1']; decide)] at h
    obtain ⟨v2, hr2, h⟩ := h.read_inv hR _ rfl
    refine .inr ⟨v1, v2, hr1, h1, hr2, ?_⟩
    cases v2 with
    | nil => exact .inl ⟨rfl, (h.ret_inv' hR _ rfl).1⟩
    | cons f2 r2 =>
      refine .inr ⟨f2, r2, rfl, ?_⟩
      simp only at h
      by_cases h2 : e.pos > f2.pos
      · rw [if_pos h2] at h
        have h := h.write_inv _ _ rfl
        obtain ⟨rfl, hm⟩ := h.ret_inv' hR _ rfl
        exact .inl ⟨h2, rfl, hm⟩
      · rw [if_neg h2] at h
        obtain ⟨v3, hr3, h⟩ := h.read_inv hR _ rfl
        refine .inr ⟨h2, v3, hr3, ?_⟩
        cases v3 with
        | nil => exact .inl ⟨rfl, (h.ret_inv' hR _ rfl).1⟩
        | cons f3 r3 =>
          refine .inr ⟨f3, r3, rfl, ?_⟩
          simp only at h
          by_cases h3 : e.pos = f3.pos
          · rw [if_pos h3] at h
            obtain ⟨v4, hr4, h⟩ := h.read_inv hR _ rfl
            refine .inr ⟨h3, v4, hr4, ?_⟩
            cases h4 : v4.any (fun x => x.msg == e.msg) with
            | true =>
              rw [if_pos h4] at h
              obtain ⟨rfl, hm⟩ := h.ret_inv' hR _ rfl
              exact .inl ⟨rfl, rfl, hm⟩
            | false =>
              rw [if_neg (by rw [h4]; decide)] at h
              obtain ⟨v5, hr5, h⟩ := h.read_inv hR _ rfl
              have h := h.write_inv _ _ rfl
              obtain ⟨rfl, hm⟩ := h.ret_inv' hR _ rfl
              exact .inr ⟨rfl, v5, hr5, rfl, hm⟩
          · rw [if_neg h3] at h
            obtain ⟨rfl, hm⟩ := h.ret_inv' hR _ rfl
            exact .inl ⟨h3, rfl, hm⟩

/-! ### Three couplings -/

/-- Others may do anything to the variable. -/
def Coupling.any : Coupling where
  R _ _ := True
  C _ _ := True
  Bad := True
  env _ _ := trivial
  init := trivial
  fatal _ := trivial
  push := by
    intro m f e s m' out _ h
    have := pushErrorC_cases ⟨fun _ => trivial, fun _ _ => trivial⟩ h
    simp only [Out.Race]
    grind

/-- Others never empty the variable. -/
def Steady (m m' : List FF) : Prop := m ≠ [] → m' ≠ []

theorem Steady.rely : Rely Steady := ⟨fun _ h => h, fun h1 h2 h => h2 (h1 h)⟩

/-- Others may do anything to the variable but empty it. -/
def Coupling.steady : Coupling where
  R := Steady
  C _ _ := True
  Bad := False
  env _ _ := trivial
  init := trivial
  fatal _ := trivial
  push := by
    intro m f e s m' out _ h
    have := pushErrorC_cases Steady.rely h
    simp only [Out.Race, Steady] at this ⊢
    grind

/-- Others do nothing. -/
def Coupling.alone : Coupling where
  R m m' := m' = m
  C m f := m = f
  Bad := False
  env h1 h2 := h1.trans h2
  init := rfl
  fatal _ := rfl
  push := by
    intro m f e s m' out hc h
    have := pushErrorC_cases (R := fun m m' => m' = m) ⟨fun _ => rfl, fun h1 h2 => h2.trans h1⟩ h
    subst hc
    left
    cases m with
    | nil => simp only [pushFF]; grind
    | cons x r => simp only [pushFF]; grind

end Verif
