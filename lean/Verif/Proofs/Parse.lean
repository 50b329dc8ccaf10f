import Verif.Proofs.Term
import Verif.Proofs.Fail
import Verif.Proofs.Utf8
import Verif.Proofs.MapAst
/-
From the engine to `parse`: what `init` guarantees, and the lifting of the simulations.
-/
namespace Verif
open Spec

/-! ### `parse` in terms of the evaluation of `init` -/

/-- The result of `parse` for an outcome of the start rule. -/
def finish (filename : Bytes) : Out → ParseRes × List FF
  | .ok v s => (.done v (dedupe filename [] s.errs), s.ff)
  | .fail s =>
    let s := if s.errs.isEmpty then s.addErrAt (noMatchMsg s.mfExp) s.mfPos else s
    (.done .nil (dedupe filename [] s.errs), s.ff)
  | .panic m s => (.done .nil (dedupe filename [] (s.addErr m).errs), s.ff)
  | .timeout => (.diverges, [])

theorem parseWith_finish (fuel : Nat) (o : Opts) (filename data : Bytes) (ff : List FF)
    (h : evalInit fuel o data ff ≠ .timeout) :
    parseWith fuel o filename data ff = finish filename (evalInit fuel o data ff) := by
  unfold parseWith finish
  cases he : evalInit fuel o data ff with
  | timeout => exact absurd he h
  | _ => rfl

theorem parse_finish (o : Opts) (filename data : Bytes) (ff : List FF) :
    parse o filename data ff = finish filename (evalInit (parseFuel data) o data ff) :=
  parseWith_finish _ o filename data ff (evalInit_term _ o data ff (Nat.le_refl _))

theorem dedupe_mem {filename : Bytes} {seen : List Bytes} {es : List PErr} {e : PErr}
    (h : e ∈ dedupe filename seen es) : e ∈ es := by
  induction es generalizing seen with
  | nil => simp [dedupe] at h
  | cons x es ih =>
    simp only [dedupe] at h
    split at h
    · exact List.mem_cons_of_mem _ (ih h)
    · rcases List.mem_cons.1 h with h | h
      · exact h ▸ List.mem_cons_self ..
      · exact List.mem_cons_of_mem _ (ih h)

theorem dedupe_nil_iff (filename : Bytes) (es : List PErr) : dedupe filename [] es = [] ↔ es = [] := by
  cases es <;> simp [dedupe]

/-- Every error is represented by one with the same text. -/
theorem dedupe_text {filename : Bytes} {seen : List Bytes} {es : List PErr} {e : PErr} (h : e ∈ es) :
    e.text filename ∈ seen ∨ ∃ e' ∈ dedupe filename seen es, e'.text filename = e.text filename := by
  induction es generalizing seen with
  | nil => cases h
  | cons x es ih =>
    simp only [dedupe]
    rcases List.mem_cons.1 h with h | h
    · subst h
      split
      · rename_i hc; exact .inl (by simpa using hc)
      · exact .inr ⟨e, List.mem_cons_self .., rfl⟩
    · split
      · exact ih h
      · rcases ih (seen := x.text filename :: seen) h with h' | ⟨e', he', ht⟩
        · rcases List.mem_cons.1 h' with h' | h'
          · exact .inr ⟨x, List.mem_cons_self .., h'.symm⟩
          · exact .inl h'
        · exact .inr ⟨e', List.mem_cons_of_mem _ he', ht⟩

/-! ### What `init` returns -/

/-- A success of `init` returns a configuration. -/
theorem init_ok_config (o : Opts) (n : Nat) (s : St) (v : Val) (t : St)
    (h : eval o gram n G.init s = .ok v t) : ∃ c, v = .config c := by
  cases n with
  | zero => cases h
  | succ n =>
    unfold G.init at h
    simp only [eval] at h
    split at h
    · cases h
    · simp only [step] at h
      split at h
      · simp only [runAct] at h
        split at h
        · rename_i heq
          split at heq
          · injection heq with heq; injection h with h1 h2; exact ⟨_, by rw [← h1, ← heq]⟩
          · injection heq with heq; injection h with h1 h2; exact ⟨_, by rw [← h1, ← heq]⟩
        · rename_i heq; split at heq <;> cases heq
        · cases h
      · rename_i hr; rw [h] at hr; exact absurd rfl (hr v t)

theorem evalInit_ok {fuel : Nat} {o : Opts} {data : Bytes} {ff : List FF} {v : Val} {t : St}
    (h : evalInit fuel o data ff = .ok v t) :
    ∃ t', eval o gram fuel G.init (initSt o data ff) = .ok v t' ∧
      t = { t' with rstack := [], frame := [] } := by
  rw [evalInit_eq] at h
  cases he : eval o gram fuel G.init (initSt o data ff) with
  | ok w u => rw [he] at h; injection h with h1 h2; exact ⟨u, by rw [h1], h2.symm⟩
  | _ => rw [he] at h; cases h

/-! ### A success reaches the end of the input -/

mutual
/-- Does the expression only succeed at the end of the input? -/
def Ex.endsEof : Ex → Bool
  | .action _ e => e.endsEof
  | .labeled _ e => e.endsEof
  | .choice l => endsEofAll l
  | .seq l => endsEofLast l
  | .not .any => true
  | _ => false
def endsEofAll : List Ex → Bool
  | [] => true
  | e :: l => e.endsEof && endsEofAll l
def endsEofLast : List Ex → Bool
  | [] => false
  | [e] => e.endsEof
  | _ :: e :: l => endsEofLast (e :: l)
end

/-- A success is at the end of the input. -/
def AtEnd : Out → Prop
  | .ok _ t => t.pt.rest = []
  | _ => True

theorem eval_endsEof (o : Opts) (G : Gram) (n : Nat) (e : Ex) (s : St) (he : e.endsEof = true) :
    AtEnd (eval o G n e s) := by
  induction n generalizing e s with
  | zero => trivial
  | succ n ih =>
    simp only [eval]
    split
    · trivial
    · generalize ({ s with cnt := s.cnt + 1 } : St) = s
      unfold step
      cases e with
      | action a e =>
        simp only [Ex.endsEof] at he ⊢
        have := ih e s he
        cases h : eval o G n e s with
        | ok v t =>
          rw [h] at this
          simp only
          split
          · exact this
          · exact this
          · trivial
        | _ => trivial
      | labeled l e =>
        simp only [Ex.endsEof] at he ⊢
        have := ih e { s with frame := [] } he
        cases h : eval o G n e { s with frame := [] } with
        | ok v t => rw [h] at this; exact this
        | _ => trivial
      | choice l =>
        simp only [Ex.endsEof] at he ⊢
        induction l generalizing s with
        | nil => trivial
        | cons e l ihl =>
          simp only [endsEofAll, Bool.and_eq_true] at he
          simp only [choiceLoop]
          have := ih e { s with frame := [] } he.1
          cases h : eval o G n e { s with frame := [] } with
          | ok v t => rw [h] at this; exact this
          | fail t => exact ihl _ he.2
          | _ => trivial
      | seq l =>
        simp only [Ex.endsEof] at he ⊢
        generalize s = s0 at *
        suffices H : ∀ acc s, AtEnd (seqLoop (eval o G n) s0 l acc s) from H [] s0
        induction l with
        | nil => cases he
        | cons e l ihl =>
          intro acc s
          simp only [seqLoop]
          cases l with
          | nil =>
            have := ih e s he
            cases h : eval o G n e s with
            | ok v t => rw [h] at this; exact this
            | _ => trivial
          | cons e' l =>
            cases h : eval o G n e s with
            | ok v t => exact ihl he _ _
            | _ => trivial
      | not e =>
        cases e <;> try (cases he; done)
        simp only
        cases n with
        | zero => trivial
        | succ n =>
          simp only [eval]
          by_cases ht : tooMany o (s.cnt + 1) = true
          · rw [if_pos ht]; trivial
          · rw [if_neg ht]
            simp only [step]
            by_cases ha : s.pt.atEof = true
            · rw [if_pos ha]; exact (Pt.atEof_iff _).1 ha
            · rw [if_neg ha]; trivial
      | _ => cases he

theorem init_ends (o : Opts) (n : Nat) (s : St) : AtEnd (eval o gram n G.init s) :=
  eval_endsEof o gram n G.init s (by decide)

/-! ### Lifting of simulations -/

theorem firstRead_sim {M : VMap} {o1 o2 : Opts} (h : M.Compat o1 o2) (s : St) :
    (M.st s).firstRead o2 = M.st (s.firstRead o1) := by
  have hp : (M.st s).pt = s.pt := rfl
  simp only [St.firstRead, h.invalid, hp]
  cases ((s.pt.moveTo 0 s.pt.rest).invalid && !o1.allowInvalid) <;> rfl

theorem evalRule_sim {M : VMap} {o1 o2 : Opts} (h : M.Compat o1 o2) (fuel : Nat) (r : Rule) (s : St) :
    evalRule (eval o2 gram fuel) gram r (M.st s) = M.out (evalRule (eval o1 gram fuel) gram r s) := by
  unfold evalRule
  have := VMap.eval_sim h gram fuel (gram r) { s with rstack := r :: s.rstack, frame := [] }
  have e1 : M.st { s with rstack := r :: s.rstack, frame := [] } =
      { M.st s with rstack := r :: (M.st s).rstack, frame := [] } := rfl
  rw [e1] at this
  rw [this]
  cases eval o1 gram fuel (gram r) { s with rstack := r :: s.rstack, frame := [] } <;> rfl

theorem evalInit_sim {M : VMap} {o1 o2 : Opts} (h : M.Compat o1 o2) (hw : M.w [] = []) (fuel : Nat)
    (data : Bytes) (ff : List FF) (hk : M.k = 0 := by rfl) :
    evalInit fuel o2 data ff = M.out (evalInit fuel o1 data ff) := by
  have hs : M.st (St.start data ff) = St.start data ff := by
    simp [VMap.st, St.start, VMap.fr, hw, hk]
  have hr := firstRead_sim h (St.start data ff)
  rw [hs] at hr
  unfold evalInit
  rw [hr]
  exact evalRule_sim h fuel .init _

/-- Change the configuration inside a result. -/
def mapConfig (f : Config → Config) : ParseRes → ParseRes
  | .done (.config c) es => .done (.config (f c)) es
  | r => r

theorem finish_sim (m : AMap) (fw : List Bytes → List Bytes) (filename : Bytes) (r : Out)
    (hr : ∀ v t, r = .ok v t → ∃ c, v = .config c) :
    finish filename ((valVMap m fw).out r) =
      (mapConfig (fun c => { m.config c with warnings := fw c.warnings }) (finish filename r).1,
       (finish filename r).2) := by
  cases r with
  | ok v t => obtain ⟨c, rfl⟩ := hr v t rfl; rfl
  | fail t =>
    have : ((valVMap m fw).st t).errs = t.errs := rfl
    simp only [VMap.out, finish, this]
    cases t.errs.isEmpty <;> rfl
  | panic m t => rfl
  | timeout => rfl

theorem evalInit_config {fuel : Nat} {o : Opts} {data : Bytes} {ff : List FF} (v : Val) (t : St)
    (h : evalInit fuel o data ff = .ok v t) : ∃ c, v = .config c := by
  obtain ⟨t', h', -⟩ := evalInit_ok h
  exact init_ok_config o fuel _ v t' h'

/-! ### Invariants of the failure history -/

/-- The failure list is the report on the history. -/
def HistInv (s : St) : Prop := s.ff = s.hist.foldl pushFF []

/-- A property of states that holds after every outcome. -/
def Out.all (P : St → Prop) : Out → Prop
  | .ok _ s => P s
  | .fail s => P s
  | .panic _ s => P s
  | .timeout => True

section
variable {P : St → Prop}

theorem eval_hist (hP : ∀ s t : St, t.ff = s.ff → t.hist = s.hist → P s → P t)
    (hC : ∀ c s, P s → (runCode c s).all P) (o : Opts) (G : Gram) (n : Nat) (e : Ex) (s : St) (hs : P s) :
    (eval o G n e s).all P := by
  have hread : ∀ (o : Opts) (s : St), P s → P (s.read o) := by
    intro o s h
    refine hP s _ ?_ ?_ h <;> (unfold St.read; simp only; split <;> rfl)
  have hfail : ∀ (s : St) f p w, P s → P (s.failAt f p w) := by
    intro s f p w h
    refine hP s _ ?_ ?_ h <;> (unfold St.failAt; simp only; repeat' split) <;> rfl
  induction n generalizing e s with
  | zero => trivial
  | succ n ih =>
    simp only [eval]
    split
    · exact hP s _ rfl rfl hs
    · have hs : P { s with cnt := s.cnt + 1 } := hP s _ rfl rfl hs
      generalize ({ s with cnt := s.cnt + 1 } : St) = s at hs
      have hs0 : P { s with frame := [] } := hP s _ rfl rfl hs
      have hstar : ∀ e m acc s, P s → (starLoop (eval o G n e) m acc s).all P := by
        intro e m
        induction m with
        | zero => intros; trivial
        | succ m ihm =>
          intro acc s hs
          simp only [starLoop]
          have := ih e { s with frame := [] } (hP s _ rfl rfl hs)
          cases h : eval o G n e { s with frame := [] } with
          | ok v t => rw [h] at this; exact ihm _ _ (hP t _ rfl rfl this)
          | fail t => rw [h] at this; exact hP t _ rfl rfl this
          | panic m t => rw [h] at this; exact this
          | timeout => trivial
      unfold step
      cases e with
      | action a e =>
        simp only
        have := ih e s hs
        cases h : eval o G n e s with
        | ok v t =>
          rw [h] at this
          simp only
          split
          · exact hP t _ rfl rfl this
          · exact hP t _ rfl rfl this
          · exact hP t _ rfl rfl this
        | fail t => rw [h] at this; exact this
        | panic m t => rw [h] at this; exact this
        | timeout => trivial
      | andCode c => exact hC c s hs
      | any =>
        simp only
        split
        · exact hfail _ _ _ _ hs
        · exact hfail _ _ _ _ (hread o s hs)
      | cls val inv chars ranges =>
        simp only
        split
        · exact hfail _ _ _ _ hs
        · split
          · exact hfail _ _ _ _ (hread o s hs)
          · exact hfail _ _ _ _ hs
      | choice alts =>
        simp only
        clear hs0
        induction alts generalizing s with
        | nil => exact hs
        | cons e es ihl =>
          simp only [choiceLoop]
          have := ih e { s with frame := [] } (hP s _ rfl rfl hs)
          cases h : eval o G n e { s with frame := [] } with
          | ok v t => rw [h] at this; exact hP t _ rfl rfl this
          | fail t => rw [h] at this; exact ihl _ (hP t _ rfl rfl this)
          | panic m t => rw [h] at this; exact this
          | timeout => trivial
      | labeled l e =>
        simp only
        have := ih e _ hs0
        cases h : eval o G n e { s with frame := [] } with
        | ok v t => rw [h] at this; exact hP t _ rfl rfl this
        | fail t => rw [h] at this; exact hP t _ rfl rfl this
        | panic m t => rw [h] at this; exact this
        | timeout => trivial
      | lit v =>
        simp only
        generalize litWant v = w
        generalize s.pt = p
        clear hs0
        induction v generalizing s with
        | nil => exact hfail _ _ _ _ hs
        | cons c cs ihv =>
          simp only [litLoop]
          split
          · exact ihv _ (hread o s hs)
          · exact hP (s.failAt false p.pos w) _ rfl rfl (hfail s false p.pos w hs)
      | not e =>
        simp only
        have := ih e { s with frame := [], mfInv := !s.mfInv } (hP s _ rfl rfl hs)
        cases h : eval o G n e { s with frame := [], mfInv := !s.mfInv } with
        | ok v t => rw [h] at this; exact hP t _ rfl rfl this
        | fail t => rw [h] at this; exact hP t _ rfl rfl this
        | panic m t => rw [h] at this; exact this
        | timeout => trivial
      | plus e =>
        simp only
        have := ih e _ hs0
        cases h : eval o G n e { s with frame := [] } with
        | ok v t => rw [h] at this; exact hstar e n _ _ (hP t _ rfl rfl this)
        | fail t => rw [h] at this; exact hP t _ rfl rfl this
        | panic m t => rw [h] at this; exact this
        | timeout => trivial
      | ref r =>
        simp only [evalRule]
        have := ih (G r) { s with rstack := r :: s.rstack, frame := [] } (hP s _ rfl rfl hs)
        cases h : eval o G n (G r) { s with rstack := r :: s.rstack, frame := [] } with
        | ok v t => rw [h] at this; exact hP t _ rfl rfl this
        | fail t => rw [h] at this; exact hP t _ rfl rfl this
        | panic m t => rw [h] at this; exact this
        | timeout => trivial
      | seq es =>
        simp only
        suffices H : ∀ s0 acc s, P s → (seqLoop (eval o G n) s0 es acc s).all P from H s [] s hs
        intro s0
        induction es with
        | nil => intro acc s hs; exact hs
        | cons e es ihl =>
          intro acc s hs
          simp only [seqLoop]
          have := ih e s hs
          cases h : eval o G n e s with
          | ok v t => rw [h] at this; exact ihl _ _ this
          | fail t => rw [h] at this; exact hP t _ rfl rfl this
          | panic m t => rw [h] at this; exact this
          | timeout => trivial
      | state c =>
        refine hP s _ ?_ ?_ hs <;>
          (cases c <;> simp only [runState] <;> (try split) <;> rfl)
      | star e => exact hstar e n _ _ hs
      | opt e =>
        simp only
        have := ih e _ hs0
        cases h : eval o G n e { s with frame := [] } with
        | ok v t => rw [h] at this; exact hP t _ rfl rfl this
        | fail t => rw [h] at this; exact hP t _ rfl rfl this
        | panic m t => rw [h] at this; exact this
        | timeout => trivial

end

theorem runCode_hist (c : Code) (s : St) (h : HistInv s) : (runCode c s).all HistInv := by
  cases c with
  | initParser => rfl
  | pushError m => simp only [runCode, Out.all, HistInv] at h ⊢; rw [List.foldl_append, ← h]; rfl
  | fatalError m => rfl

theorem eval_histInv (o : Opts) (G : Gram) (n : Nat) (e : Ex) (s : St) (h : HistInv s) :
    (eval o G n e s).all HistInv :=
  eval_hist (fun s t h1 h2 hs => by unfold HistInv at *; rw [h1, h2]; exact hs) runCode_hist o G n e s h

/-! ### The failure list at the start does not matter -/

/-- With a limit of at least four expressions the failure list is reset before anything
else happens. -/
theorem init_ff (o : Opts) (n : Nat) (s : St) (f : List FF) (hc : tooMany o (s.cnt + 4) = false) :
    eval o gram (n + 4) G.init { s with ff := f } = eval o gram (n + 4) G.init s := by
  have hle : ∀ k, k ≤ 4 → tooMany o (s.cnt + k) = false := by
    intro k hk
    unfold tooMany at hc ⊢
    cases hm : o.maxExpr with
    | none => rfl
    | some m => rw [hm] at hc; simp at hc ⊢; omega
  have h1 := hle 1 (by omega)
  have h2 := hle 2 (by omega)
  have h3 := hle 3 (by omega)
  have h4 := hle 4 (by omega)
  unfold G.init
  simp only [eval, step, seqLoop, h1, h2, h3, h4, Nat.add_assoc, Nat.reduceAdd, runState, runCode, Bool.false_eq_true, if_false]

theorem initSt_ff (o : Opts) (data : Bytes) (ff : List FF) :
    initSt o data ff = { initSt o data [] with ff := ff } := by
  unfold initSt St.firstRead
  have : (St.start data ff).pt = (St.start data []).pt := rfl
  simp only [this]
  split <;> rfl

theorem evalInit_setFF (fuel : Nat) (o : Opts) (data : Bytes) (ff : List FF) :
    ∃ f, evalInit fuel o data ff = (evalInit fuel o data []).setFF f := by
  obtain ⟨k, hk⟩ := eval_ff o gram fuel G.init (initSt o data [])
  refine ⟨k.apply ff, ?_⟩
  rw [evalInit_eq, evalInit_eq, initSt_ff, hk ff]
  cases eval o gram fuel G.init (initSt o data []) <;> rfl

theorem initSt_cnt (o : Opts) (data : Bytes) (ff : List FF) : (initSt o data ff).cnt = 0 :=
  (firstRead_fields o _).2.2.2.2.2.1

theorem evalInit_ff (fuel : Nat) (o : Opts) (data : Bytes) (ff : List FF)
    (hm : o.maxExpr = none ∨ ∃ m, o.maxExpr = some m ∧ 4 ≤ m) (hf : 4 ≤ fuel) :
    evalInit fuel o data ff = evalInit fuel o data [] := by
  obtain ⟨n, rfl⟩ : ∃ n, fuel = n + 4 := ⟨fuel - 4, by omega⟩
  rw [evalInit_eq, evalInit_eq, initSt_ff, init_ff]
  rw [initSt_cnt]
  unfold tooMany
  rcases hm with h | ⟨m, h, h4⟩
  · rw [h]
  · rw [h]; simp; omega

theorem evalInit_hist (fuel : Nat) (o : Opts) (data : Bytes) (ff : List FF)
    (hm : o.maxExpr = none ∨ ∃ m, o.maxExpr = some m ∧ 4 ≤ m) (hf : 4 ≤ fuel) :
    (evalInit fuel o data ff).all HistInv := by
  rw [evalInit_ff fuel o data ff hm hf, evalInit_eq]
  have : HistInv (initSt o data []) := by
    unfold HistInv initSt St.firstRead
    simp only
    split <;> rfl
  have := eval_histInv o gram fuel G.init _ this
  cases h : eval o gram fuel G.init (initSt o data []) with
  | timeout => trivial
  | _ => rw [h] at this; exact this

/-- All messages of errors recorded by `init`. -/
def OutMsgs : Out → Prop
  | .ok _ t => ∀ e ∈ t.errs, e.msg ∈ errMsgs
  | .fail t => ∀ e ∈ t.errs, e.msg ∈ errMsgs
  | .panic m t => (∀ e ∈ t.errs, e.msg ∈ errMsgs) ∧
      (m = maxExprMsg ∨ m = convMsg ∨ getFarthestFailure t.ff = (m, true))
  | .timeout => True

theorem evalInit_msgs (fuel : Nat) (o : Opts) (data : Bytes) (ff : List FF) :
    OutMsgs (evalInit fuel o data ff) := by
  have h0 : ∀ e ∈ (initSt o data ff).errs, e.msg ∈ errMsgs := by
    unfold initSt St.firstRead
    simp only
    split
    · intro e he
      simp [St.addErr, St.addErrAt, St.start] at he
      subst he; exact List.mem_cons_self ..
    · intro e he; simp [St.start] at he
  rw [evalInit_eq]
  have := eval_msgs o gram fuel G.init (initSt o data ff)
  cases h : eval o gram fuel G.init (initSt o data ff) with
  | timeout => trivial
  | ok v t => rw [h] at this; exact fun e he => (this e he).elim (h0 e) (fun x => x)
  | fail t => rw [h] at this; exact fun e he => (this e he).elim (h0 e) (fun x => x)
  | panic m t => rw [h] at this; exact ⟨fun e he => (this.1 e he).elim (h0 e) (fun x => x), this.2⟩

theorem evalInit_lim (fuel : Nat) (o : Opts) (data : Bytes) (ff : List FF) :
    evalInit fuel o data ff = evalInit fuel { o with maxExpr := none } data ff ∨
    ∃ t, evalInit fuel o data ff = .panic maxExprMsg t ∧ ∀ e ∈ t.errs, e.msg ∈ errMsgs := by
  have hm := evalInit_msgs fuel o data ff
  have hi : initSt { o with maxExpr := none } data ff = initSt o data ff := rfl
  rw [evalInit_eq fuel o] at hm ⊢
  rw [evalInit_eq fuel { o with maxExpr := none }, hi]
  rcases eval_lim (o1 := o) (o2 := { o with maxExpr := none }) rfl rfl rfl rfl gram fuel G.init
    (initSt o data ff) with h | ⟨t, h⟩
  · rw [h]; exact .inl rfl
  · rw [h] at hm ⊢; exact .inr ⟨t, rfl, hm.1⟩

/-- An error whose text is new at the end is kept. -/
theorem dedupe_snoc_aux (filename : Bytes) (es : List PErr) (e : PErr) (seen : List Bytes)
    (hs : e.text filename ∉ seen) (h : ∀ x ∈ es, x.text filename ≠ e.text filename) :
    dedupe filename seen (es ++ [e]) = dedupe filename seen es ++ [e] := by
  induction es generalizing seen with
  | nil => simp [dedupe, hs]
  | cons x es ih =>
    simp only [List.cons_append, dedupe]
    split
    · exact ih seen hs fun y hy => h y (List.mem_cons_of_mem _ hy)
    · rw [ih]
      · rfl
      · intro hmem
        rcases List.mem_cons.1 hmem with hx | hx
        · exact h x (List.mem_cons_self ..) hx.symm
        · exact hs hx
      · exact fun y hy => h y (List.mem_cons_of_mem _ hy)

theorem dedupe_snoc (filename : Bytes) (es : List PErr) (e : PErr)
    (h : ∀ x ∈ es, x.text filename ≠ e.text filename) :
    ∃ l, dedupe filename [] (es ++ [e]) = l ++ [e] :=
  ⟨_, dedupe_snoc_aux filename es e [] (by simp) h⟩

theorem getLast?_of_suffix {a b : Bytes} (hb : b ≠ []) (n : Nat) (hn : n ≤ b.length) :
    (a ++ b).drop ((a ++ b).length - n) = b.drop (b.length - n) := by
  rw [List.length_append, List.drop_append, List.drop_eq_nil_of_le (by omega)]
  simp; congr 1; omega

/-- The text of the limit error differs from that of all other errors: it ends differently. -/
theorem text_ne (filename : Bytes) (e : PErr) (pos : Pos) (r : Option Rule) (he : e.msg ∈ errMsgs) :
    e.text filename ≠ PErr.text filename ⟨pos, r, maxExprMsg⟩ := by
  have key : ∀ m ∈ errMsgs, m.drop (m.length - 3) ≠ maxExprMsg.drop (maxExprMsg.length - 3) ∧
      3 ≤ m.length := by decide
  intro h
  have := congrArg (fun t => t.drop (t.length - 3)) h
  simp only [PErr.text] at this
  rw [getLast?_of_suffix (by intro hn; have := (key _ he).2; rw [hn] at this; simp at this) 3 (key _ he).2,
    getLast?_of_suffix (by decide) 3 (by decide)] at this
  exact (key _ he).1 this

end Verif
