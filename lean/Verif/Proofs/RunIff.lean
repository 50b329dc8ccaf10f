import Verif.Proofs.RunParse
/-
When does a run succeed or fail?  One equivalence per kind of grammar expression.
-/
namespace Verif

section
variable {o : Opts}

/-- `e` succeeds on `b` with value `v`, leaving `b'`. -/
def Runs (o : Opts) (e : Ex) (b : Bytes) (v : Val) (b' : Bytes) : Prop := ∃ f, run o e b [] = .ok v b' f

/-- `e` fails on `b`, recording no error. -/
def Fails (o : Opts) (e : Ex) (b : Bytes) : Prop := run o e b [] = .fail

theorem run_action (a : Act) (e : Ex) (b : Bytes) (fr : Frame) :
    run o (.action a e) b fr = match run o e b fr with
      | .ok _ b' fr' => actR o a b b' fr'
      | r => r := run_step o _ rfl b fr

theorem run_labeled (l : Lbl) (e : Ex) (b : Bytes) (fr : Frame) :
    run o (.labeled l e) b fr = match run o e b [] with
      | .ok v b' _ => .ok v b' ((l, v) :: fr)
      | r => r := run_step o _ rfl b fr

theorem run_ref (r : Rule) (b : Bytes) (fr : Frame) :
    run o (.ref r) b fr = match run o (gram r) b [] with
      | .ok v b' _ => .ok v b' fr
      | r => r := run_step o _ rfl b fr

theorem run_seq (es : List Ex) (b : Bytes) (fr : Frame) :
    run o (.seq es) b fr = seqR (run o) es [] b fr := run_step o _ rfl b fr

theorem run_choice (es : List Ex) (b : Bytes) (fr : Frame) :
    run o (.choice es) b fr = choiceR (run o) es b fr := run_step o _ rfl b fr

theorem run_opt (e : Ex) (b : Bytes) (fr : Frame) :
    run o (.opt e) b fr = match run o e b [] with
      | .ok v b' _ => .ok v b' fr
      | .fail => .ok .nil b fr
      | r => r := run_step o _ rfl b fr

theorem run_not (e : Ex) (b : Bytes) (fr : Frame) :
    run o (.not e) b fr = match run o e b [] with
      | .ok _ _ _ => .fail
      | .fail => .ok .nil b fr
      | r => r := run_step o _ rfl b fr

theorem run_any (b : Bytes) (fr : Frame) :
    run o .any b fr = if b = [] then .fail else .ok (.bytes (consumed b (nextB b))) (nextB b) fr :=
  run_step o _ rfl b fr

theorem run_cls (x : Bytes) (inv : Bool) (chars : List Nat) (ranges : List (Nat × Nat)) (b : Bytes) (fr : Frame) :
    run o (.cls x inv chars ranges) b fr = if b = [] then .fail
      else if clsMatches inv chars ranges (decodeRune b).1 then
        .ok (.bytes (consumed b (nextB b))) (nextB b) fr
      else .fail := run_step o _ rfl b fr

theorem run_lit (v : Bytes) (b : Bytes) (fr : Frame) :
    run o (.lit v) b fr = litR b fr v b := run_step o _ rfl b fr

theorem run_state (c : StCode) (b : Bytes) (fr : Frame) :
    run o (.state c) b fr = .ok .nil b fr := run_step o _ rfl b fr

theorem run_initParser (b : Bytes) (fr : Frame) : run o (.andCode .initParser) b fr = .ok .nil b fr :=
  run_step o _ rfl b fr
theorem run_pushError (m : Bytes) (b : Bytes) (fr : Frame) : run o (.andCode (.pushError m)) b fr = .fail :=
  run_step o _ rfl b fr
theorem run_fatalError (m : Bytes) (b : Bytes) (fr : Frame) : run o (.andCode (.fatalError m)) b fr = .abort :=
  run_step o _ rfl b fr

/-! ### Success -/

theorem action_ok {a : Act} {e : Ex} {b : Bytes} {fr : Frame} {v : Val} {b' : Bytes} {fr' : Frame} :
    run o (.action a e) b fr = .ok v b' fr' ↔
      ∃ v1, run o e b fr = .ok v1 b' fr' ∧ runAct o a fr' Pos.zero (consumed b b') [] = .val v := by
  rw [run_action]
  cases run o e b fr with
  | ok v1 b1 fr1 =>
    simp only [actR, Res.ok.injEq]
    constructor
    · intro h
      split at h <;> simp_all
    · rintro ⟨v2, ⟨rfl, rfl, rfl⟩, h⟩
      rw [h]
  | _ => simp

theorem labeled_ok {l : Lbl} {e : Ex} {b : Bytes} {fr : Frame} {v : Val} {b' : Bytes} {fr' : Frame} :
    run o (.labeled l e) b fr = .ok v b' fr' ↔ Runs o e b v b' ∧ fr' = (l, v) :: fr := by
  rw [run_labeled]
  unfold Runs
  cases run o e b [] with
  | ok v1 b1 fr1 =>
    simp only [Res.ok.injEq]
    constructor
    · rintro ⟨rfl, rfl, rfl⟩; exact ⟨⟨_, rfl, rfl, rfl⟩, rfl⟩
    · rintro ⟨⟨f, rfl, rfl, rfl⟩, rfl⟩; exact ⟨rfl, rfl, rfl⟩
  | _ => simp

theorem ref_ok {r : Rule} {b : Bytes} {fr : Frame} {v : Val} {b' : Bytes} {fr' : Frame} :
    run o (.ref r) b fr = .ok v b' fr' ↔ Runs o (gram r) b v b' ∧ fr' = fr := by
  rw [run_ref]
  unfold Runs
  cases run o (gram r) b [] with
  | ok v1 b1 fr1 =>
    simp only [Res.ok.injEq]
    constructor
    · rintro ⟨rfl, rfl, rfl⟩; exact ⟨⟨_, rfl, rfl, rfl⟩, rfl⟩
    · rintro ⟨⟨f, rfl, rfl, rfl⟩, rfl⟩; exact ⟨rfl, rfl, rfl⟩
  | _ => simp

theorem runs_ref {r : Rule} {b : Bytes} {v : Val} {b' : Bytes} :
    Runs o (.ref r) b v b' ↔ Runs o (gram r) b v b' := by
  constructor
  · rintro ⟨f, h⟩; exact (ref_ok.1 h).1
  · intro h; exact ⟨[], ref_ok.2 ⟨h, rfl⟩⟩

theorem seqR_cons_ok {e : Ex} {es : List Ex} {acc : List Val} {b : Bytes} {fr : Frame} {v : Val} {b' : Bytes}
    {fr' : Frame} : seqR (run o) (e :: es) acc b fr = .ok v b' fr' ↔
      ∃ v1 b1 fr1, run o e b fr = .ok v1 b1 fr1 ∧ seqR (run o) es (acc ++ [v1]) b1 fr1 = .ok v b' fr' := by
  rw [seqR]
  cases run o e b fr with
  | ok v1 b1 fr1 =>
    constructor
    · intro h; exact ⟨_, _, _, rfl, h⟩
    · rintro ⟨_, _, _, h1, h⟩
      simp only [Res.ok.injEq] at h1
      obtain ⟨rfl, rfl, rfl⟩ := h1
      exact h
  | _ => simp

theorem seqR_nil_ok {acc : List Val} {b : Bytes} {fr : Frame} {v : Val} {b' : Bytes}
    {fr' : Frame} : seqR (run o) [] acc b fr = .ok v b' fr' ↔ v = .list acc ∧ b' = b ∧ fr' = fr := by
  rw [seqR]; simp [eq_comm]

theorem choiceR_cons_ok {e : Ex} {es : List Ex} {b : Bytes} {fr : Frame} {v : Val} {b' : Bytes}
    {fr' : Frame} : choiceR (run o) (e :: es) b fr = .ok v b' fr' ↔
      (Runs o e b v b' ∧ fr' = fr) ∨ (Fails o e b ∧ choiceR (run o) es b fr = .ok v b' fr') := by
  rw [choiceR]
  unfold Runs Fails
  cases run o e b [] with
  | ok v1 b1 fr1 => simp [eq_comm, and_assoc]
  | _ => simp

theorem choiceR_nil_ok {b : Bytes} {fr : Frame} {v : Val} {b' : Bytes}
    {fr' : Frame} : choiceR (run o) [] b fr = .ok v b' fr' ↔ False := by
  rw [choiceR]; simp

theorem opt_ok {e : Ex} {b : Bytes} {fr : Frame} {v : Val} {b' : Bytes} {fr' : Frame} :
    run o (.opt e) b fr = .ok v b' fr' ↔
      (Runs o e b v b' ∧ fr' = fr) ∨ (Fails o e b ∧ v = .nil ∧ b' = b ∧ fr' = fr) := by
  rw [run_opt]
  unfold Runs Fails
  cases run o e b [] with
  | ok v1 b1 fr1 => simp [eq_comm, and_assoc]
  | _ => simp [eq_comm]

theorem not_ok {e : Ex} {b : Bytes} {fr : Frame} {v : Val} {b' : Bytes} {fr' : Frame} :
    run o (.not e) b fr = .ok v b' fr' ↔ Fails o e b ∧ v = .nil ∧ b' = b ∧ fr' = fr := by
  rw [run_not]
  unfold Fails
  cases run o e b [] with
  | ok v1 b1 fr1 => simp
  | _ => simp [eq_comm]

/-! ### Failure -/

theorem action_fail {a : Act} {e : Ex} {b : Bytes} {fr : Frame} :
    run o (.action a e) b fr = .fail ↔ run o e b fr = .fail := by
  rw [run_action]
  cases run o e b fr with
  | ok v1 b1 fr1 =>
    simp only [actR]
    split <;> simp
  | _ => simp

theorem labeled_fail {l : Lbl} {e : Ex} {b : Bytes} {fr : Frame} :
    run o (.labeled l e) b fr = .fail ↔ Fails o e b := by
  rw [run_labeled]
  unfold Fails
  cases run o e b [] <;> simp

theorem ref_fail {r : Rule} {b : Bytes} {fr : Frame} :
    run o (.ref r) b fr = .fail ↔ Fails o (gram r) b := by
  rw [run_ref]
  unfold Fails
  cases run o (gram r) b [] <;> simp

theorem seqR_cons_fail {e : Ex} {es : List Ex} {acc : List Val} {b : Bytes} {fr : Frame} :
    seqR (run o) (e :: es) acc b fr = .fail ↔ run o e b fr = .fail ∨
      ∃ v1 b1 fr1, run o e b fr = .ok v1 b1 fr1 ∧ seqR (run o) es (acc ++ [v1]) b1 fr1 = .fail := by
  rw [seqR]
  cases run o e b fr with
  | ok v1 b1 fr1 =>
    constructor
    · intro h; exact .inr ⟨_, _, _, rfl, h⟩
    · rintro (h | ⟨_, _, _, h1, h⟩)
      · cases h
      simp only [Res.ok.injEq] at h1
      obtain ⟨rfl, rfl, rfl⟩ := h1
      exact h
  | _ => simp

theorem seqR_nil_fail {acc : List Val} {b : Bytes} {fr : Frame} :
    seqR (run o) [] acc b fr = .fail ↔ False := by
  rw [seqR]; simp

theorem choiceR_cons_fail {e : Ex} {es : List Ex} {b : Bytes} {fr : Frame} :
    choiceR (run o) (e :: es) b fr = .fail ↔ Fails o e b ∧ choiceR (run o) es b fr = .fail := by
  rw [choiceR]
  unfold Fails
  cases run o e b [] <;> simp

theorem choiceR_nil_fail {b : Bytes} {fr : Frame} : choiceR (run o) [] b fr = .fail ↔ True := by
  rw [choiceR]; simp

theorem opt_fail {e : Ex} {b : Bytes} {fr : Frame} : run o (.opt e) b fr = .fail ↔ False := by
  rw [run_opt]
  cases run o e b [] <;> simp

/-! ### Repetitions -/

/-- Successive successes of `e`. -/
inductive Steps (o : Opts) (e : Ex) : Bytes → List Val → Bytes → Prop
  | nil (b) : Steps o e b [] b
  | cons {b v b1 vs b'} : Runs o e b v b1 → Steps o e b1 vs b' → Steps o e b (v :: vs) b'

theorem Steps.append {e : Ex} {b b1 b2 : Bytes} {vs ws : List Val} (h : Steps o e b vs b1)
    (h2 : Steps o e b1 ws b2) : Steps o e b (vs ++ ws) b2 := by
  induction h with
  | nil => exact h2
  | cons h1 _ ih => exact .cons h1 (ih h2)

theorem star_of_steps {e : Ex} {b b' : Bytes} {vs : List Val} (fr : Frame) (h : Steps o e b vs b')
    (hf : Fails o e b') : run o (.star e) b fr = .ok (.list vs) b' fr := by
  induction h with
  | nil => rw [run_star, hf]
  | cons h1 _ ih =>
    obtain ⟨f, h1⟩ := h1
    rw [run_star, h1]
    simp only [ih hf, Res.consV]

theorem starR_steps {e : Ex} {n k : Nat} {acc : List Val} {b b' : Bytes} {v : Val} {fr fr' : Frame}
    (h : starR (fun b => reval o gram n e b []) fr k acc b = .ok v b' fr') :
    fr' = fr ∧ ∃ vs, v = .list (acc ++ vs) ∧ Steps o e b vs b' ∧ Fails o e b' := by
  induction k generalizing acc b with
  | zero => simp [starR] at h
  | succ k ih =>
    simp only [starR] at h
    cases h1 : reval o gram n e b [] with
    | ok v1 b1 f1 =>
      rw [h1] at h
      obtain ⟨h2, vs, h3, h4, h5⟩ := ih h
      refine ⟨h2, v1 :: vs, by simpa using h3, .cons ⟨f1, ?_⟩ h4, h5⟩
      rw [run_of_reval o (by rw [h1]; simp), h1]
    | fail =>
      rw [h1] at h
      simp only [Res.ok.injEq] at h
      obtain ⟨rfl, rfl, rfl⟩ := h
      refine ⟨rfl, [], by simp, .nil _, ?_⟩
      unfold Fails
      rw [run_of_reval o (by rw [h1]; simp), h1]
    | _ => rw [h1] at h; simp at h

theorem star_ok {e : Ex} {b b' : Bytes} {v : Val} {fr fr' : Frame} :
    run o (.star e) b fr = .ok v b' fr' ↔
      fr' = fr ∧ ∃ vs, v = .list vs ∧ Steps o e b vs b' ∧ Fails o e b' := by
  constructor
  · intro h
    obtain ⟨n, hn⟩ := reval_of_run o (e := .star e) (b := b) (fr := fr) (by simp [h])
    have h1 := hn (n + 1) (by omega)
    rw [h] at h1
    rw [reval, stepR] at h1
    simpa using starR_steps h1
  · rintro ⟨rfl, vs, rfl, h1, h2⟩
    exact star_of_steps _ h1 h2

theorem plus_ok {e : Ex} {b b' : Bytes} {v : Val} {fr fr' : Frame} :
    run o (.plus e) b fr = .ok v b' fr' ↔
      fr' = fr ∧ ∃ vs, vs ≠ [] ∧ v = .list vs ∧ Steps o e b vs b' ∧ Fails o e b' := by
  rw [run_plus]
  constructor
  · intro h
    cases h1 : run o e b [] with
    | ok v1 b1 f1 =>
      rw [h1] at h
      simp only at h
      cases h2 : run o (.star e) b1 fr with
      | ok v2 b2 f2 =>
        obtain ⟨h3, vs, h4, h5, h6⟩ := star_ok.1 h2
        rw [h2, h4] at h
        simp only [Res.consV, Res.ok.injEq] at h
        obtain ⟨rfl, rfl, rfl⟩ := h
        exact ⟨h3, v1 :: vs, by simp, rfl, .cons ⟨_, h1⟩ h5, h6⟩
      | _ => rw [h2] at h; simp [Res.consV] at h
    | _ => rw [h1] at h; simp at h
  · rintro ⟨rfl, vs, h0, rfl, h1, h2⟩
    cases h1 with
    | nil => exact absurd rfl h0
    | cons h3 h4 =>
      obtain ⟨f, h3⟩ := h3
      rw [h3]
      simp only [star_of_steps fr' h4 h2, Res.consV]

theorem starR_never_fail {ev : Bytes → Res} {fr : Frame} {n : Nat} {acc : List Val} {b : Bytes} :
    starR ev fr n acc b ≠ .fail := by
  induction n generalizing acc b with
  | zero => simp [starR]
  | succ n ih =>
    simp only [starR]
    cases ev b with
    | ok v b' f => exact ih
    | _ => simp

theorem star_never_fail {e : Ex} {b : Bytes} {fr : Frame} : run o (.star e) b fr ≠ .fail := by
  intro h
  obtain ⟨n, hn⟩ := reval_of_run o (e := .star e) (b := b) (fr := fr) (by simp [h])
  have h1 := hn (n + 1) (by omega)
  rw [h, reval, stepR] at h1
  exact starR_never_fail h1

theorem plus_fail {e : Ex} {b : Bytes} {fr : Frame} (h : Fails o e b) : run o (.plus e) b fr = .fail := by
  rw [run_plus, h]

theorem Runs.det {e : Ex} {b b1 b2 : Bytes} {v1 v2 : Val} (h1 : Runs o e b v1 b1) (h2 : Runs o e b v2 b2) :
    v1 = v2 ∧ b1 = b2 := by
  obtain ⟨f1, h1⟩ := h1
  obtain ⟨f2, h2⟩ := h2
  rw [h1] at h2
  simp only [Res.ok.injEq] at h2
  exact ⟨h2.1, h2.2.1⟩

theorem Runs.not_fails {e : Ex} {b b1 : Bytes} {v : Val} (h1 : Runs o e b v b1) : ¬ Fails o e b := by
  obtain ⟨f1, h1⟩ := h1
  unfold Fails
  rw [h1]; simp

end

end Verif
