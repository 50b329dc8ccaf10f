import Verif.Model.Entry
import Verif.Spec.Entry
import Verif.Proofs.CostLim
import Verif.Proofs.RunPosDet
import Verif.Proofs.TreetopSame
import Verif.Proofs.TypeSound
import Verif.Proofs.ErrText
import Verif.Proofs.SoundPosBlock
import Verif.Proofs.CompletePosBlock
/-
The entry points with all options.
-/
namespace Verif.Entry
open Verif Spec

/-- The state in which the expression of the start rule is evaluated. -/
def st0 (o : Opts) (r : Rule) (k : Nat) (data : Bytes) (ff : List FF) : St :=
  { { St.start data ff with cnt := k }.firstRead o with rstack := [r], frame := [] }

theorem fr_cnt (o : Opts) (s : St) : (s.firstRead o).cnt = s.cnt := by
  unfold St.firstRead; simp only; split <;> rfl

theorem fr_rstack (o : Opts) (s : St) : (s.firstRead o).rstack = s.rstack := by
  unfold St.firstRead; simp only; split <;> rfl

theorem fr_frame (o : Opts) (s : St) : (s.firstRead o).frame = s.frame := by
  unfold St.firstRead; simp only; split <;> rfl

theorem fr_ff (o : Opts) (s : St) : (s.firstRead o).ff = s.ff := by
  unfold St.firstRead; simp only; split <;> rfl

theorem fr_warns (o : Opts) (s : St) : (s.firstRead o).warns = s.warns := by
  unfold St.firstRead; simp only; split <;> rfl

/-- The outcome of the start rule. -/
def out (o : Opts) (r : Rule) (k : Nat) (data : Bytes) (ff : List FF) : Out :=
  evalRule (eval o gram (parseFuel data)) gram r ({ St.start data ff with cnt := k }.firstRead o)

theorem out_eq (o : Opts) (r : Rule) (k : Nat) (data : Bytes) (ff : List FF) :
    out o r k data ff = match eval o gram (parseFuel data) (gram r) (st0 o r k data ff) with
      | .ok v s => .ok v { s with rstack := [], frame := [] }
      | .fail s => .fail { s with rstack := [], frame := [] }
      | .panic m s => .panic m s
      | .timeout => .timeout := by
  unfold out evalRule st0
  rw [fr_rstack, fr_frame]
  rfl

theorem out_init (o : Opts) (data : Bytes) (ff : List FF) : out o .init 0 data ff = evalInit (parseFuel data) o data ff := rfl

theorem st0_rest (o : Opts) (r : Rule) (k : Nat) (data : Bytes) (ff : List FF) : (st0 o r k data ff).pt.rest = data := by
  unfold st0 St.firstRead
  simp only
  split <;> simp only [St.addErr, St.addErrAt, Pt.moveTo_rest] <;> rfl

theorem out_term (o : Opts) (r : Rule) (k : Nat) (data : Bytes) (ff : List FF) : out o r k data ff ≠ .timeout := by
  have h : eval o gram (parseFuel data) (gram r) (st0 o r k data ff) ≠ .timeout := by
    refine eval_gram_term o _ r _ ?_
    rw [st0_rest]; unfold parseFuel; omega
  rw [out_eq]
  cases hr : eval o gram (parseFuel data) (gram r) (st0 o r k data ff) with
  | timeout => exact absurd hr h
  | _ => simp

/-! ### The counter -/

/-- Only the counter changes. -/
def shift (k : Nat) : VMap where
  g := _root_.id
  w := _root_.id
  k := k
  g_nil := rfl
  g_bytes := fun _ => rfl
  g_list := fun l => by simp

theorem shift_fr (k : Nat) (f : Frame) : (shift k).fr f = f := by
  simp [VMap.fr, shift]

theorem shift_act (k : Nat) (r : ActRes) : (shift k).act r = r := by cases r <;> rfl

theorem shift_compat (k : Nat) (o : Opts) (m : Option Nat) :
    (shift k).Compat { o with maxExpr := m.map (· - k) } { o with maxExpr := m } := by
  refine ⟨fun a fr pos text w => ?_, fun c s => ?_, rfl, fun c => ?_⟩
  · rw [shift_fr, shift_act]
    exact runAct_opts _ _ rfl a fr pos text w
  · cases c with
    | initState => rfl
    | warnComment =>
      simp only [runState]
      have : ((shift k).st s).curText = s.curText := rfl
      rw [this]
      split <;> rfl
  · cases m with
    | none => rfl
    | some m =>
      simp only [tooMany, Option.map_some]
      show decide (c + 1 + k > m) = decide (c + 1 > m - k)
      congr 1
      simp only [eq_iff_iff]; omega

theorem out_shift (o : Opts) (m : Option Nat) (r : Rule) (k : Nat) (data : Bytes) (ff : List FF) :
    out { o with maxExpr := m } r k data ff = (shift k).out (out { o with maxExpr := m.map (· - k) } r 0 data ff) := by
  have h := shift_compat k o m
  have h1 := firstRead_sim h (St.start data ff)
  have h2 : (shift k).st (St.start data ff) = { St.start data ff with cnt := k } := by
    simp only [VMap.st, shift_fr]
    simp [shift, St.start]
  rw [h2] at h1
  unfold out
  rw [h1, evalRule_sim h]
  rfl

theorem shift_finish (k : Nat) (rc : Bool) (filename : Bytes) (ff ff' : List FF) (c c' : Nat) (r : Out) (h : r ≠ .timeout) :
    finishCall rc filename ff c ((shift k).out r) =
      ((finishCall rc filename ff' c' r).1, (finishCall rc filename ff' c' r).2.1, (finishCall rc filename ff' c' r).2.2 + k) := by
  cases r with
  | timeout => exact absurd rfl h
  | ok v t => rfl
  | fail t =>
    have : ((shift k).st t).errs = t.errs := rfl
    simp only [VMap.out, finishCall, this]
    cases t.errs.isEmpty <;> rfl
  | panic m t => rfl

theorem finishCall_finish (filename : Bytes) (ff : List FF) (c : Nat) (r : Out) (h : r ≠ .timeout) :
    (finishCall true filename ff c r).1 = .returned (finish filename r).1 ∧
      (finishCall true filename ff c r).2.1 = (finish filename r).2 := by
  cases r with
  | timeout => exact absurd rfl h
  | ok v t => exact ⟨rfl, rfl⟩
  | fail t => exact ⟨rfl, by simp only [finishCall, finish]; split <;> rfl⟩
  | panic m t => exact ⟨rfl, rfl⟩

/-! ### Successful calls -/

theorem finishCall_ok {rc : Bool} {filename : Bytes} {ff : List FF} {c : Nat} {r : Out} {v : Val}
    (h : (finishCall rc filename ff c r).1 = .returned (.done v [])) : ∃ t, r = .ok v t ∧ t.errs = [] := by
  cases r with
  | timeout => cases h
  | ok w t =>
    simp only [finishCall, CallRes.returned.injEq, ParseRes.done.injEq, dedupe_nil_iff] at h
    obtain ⟨rfl, h⟩ := h
    exact ⟨t, rfl, h⟩
  | fail t =>
    simp only [finishCall, CallRes.returned.injEq, ParseRes.done.injEq, dedupe_nil_iff] at h
    obtain ⟨-, h⟩ := h
    split at h
    · simp [St.addErrAt] at h
    · rename_i hh; exact absurd (by rw [h]; rfl) hh
  | panic m t =>
    cases rc with
    | false => cases h
    | true =>
      simp only [finishCall, if_true, CallRes.returned.injEq, ParseRes.done.injEq, dedupe_nil_iff, St.addErr, St.addErrAt] at h
      simp at h

theorem st0_errs {o : Opts} {r : Rule} {k : Nat} {data : Bytes} (ff : List FF) (h : Fine o data) :
    (st0 o r k data ff).errs = [] := by
  have := initSt_errs (o := o) (data := data) ff h
  have h2 : (st0 o r k data ff).errs = (initSt o data ff).errs := by
    unfold st0 initSt St.firstRead
    simp only
    have : (({ St.start data ff with cnt := k } : St).pt) = (St.start data ff).pt := rfl
    rw [this]
    split <;> rfl
  rw [h2, this]

theorem st0_pt {o : Opts} {r : Rule} {k : Nat} {data : Bytes} (ff : List FF) : (st0 o r k data ff).pt = (initSt o data ff).pt := by
  unfold st0 initSt St.firstRead
  simp only
  have : (({ St.start data ff with cnt := k } : St).pt) = (St.start data ff).pt := rfl
  rw [this]
  split <;> rfl

/-- The projection of the outcome. -/
theorem eval_run {o : Opts} {data : Bytes} (r : Rule) (k : Nat) (ff : List FF) (hm : o.maxExpr = none) (h : Fine o data) :
    proj (eval o gram (parseFuel data) (gram r) (st0 o r k data ff)) = run o (gram r) data [] := by
  have ht : eval o gram (parseFuel data) (gram r) (st0 o r k data ff) ≠ .timeout := by
    refine eval_gram_term o _ r _ ?_
    rw [st0_rest]; unfold parseFuel; omega
  have h1 := eval_proj hm gram (parseFuel data) (gram r) (st0 o r k data ff) (st0_errs ff h)
    (by rw [st0_rest]; exact h) ht
  rw [st0_rest] at h1
  have h2 : erF (st0 o r k data ff).frame = [] := rfl
  rw [h2] at h1
  rw [h1]
  refine (run_of_reval o ?_).symm
  rw [← h1]
  cases hr : eval o gram (parseFuel data) (gram r) (st0 o r k data ff) with
  | timeout => exact absurd hr ht
  | ok v s => simp only [proj]; split <;> simp
  | fail s => simp only [proj]; split <;> simp
  | panic m s => simp [proj]

/-! ### Messages -/

theorem st0_ff (o : Opts) (r : Rule) (k : Nat) (data : Bytes) (ff : List FF) : (st0 o r k data ff).ff = ff := by
  show (St.firstRead o _).ff = ff
  rw [fr_ff]; rfl

theorem st0_first {o : Opts} {r : Rule} {k : Nat} {data : Bytes} {ff : List FF} {e : PErr} (h : e ∈ (st0 o r k data ff).errs) :
    e.rule = none ∧ e.msg = invalidEncoding := by
  have h : e ∈ (St.firstRead o { St.start data ff with cnt := k }).errs := h
  unfold St.firstRead at h
  simp only at h
  split at h
  · simp only [St.addErr, St.addErrAt, St.start, List.nil_append, List.mem_singleton] at h
    subst h; exact ⟨rfl, rfl⟩
  · simp [St.start] at h

/-- The messages in the outcome of a start rule. -/
theorem out_reports (o : Opts) (r : Rule) (k : Nat) (data : Bytes) (ff : List FF) :
    match out o r k data ff with
    | .ok _ t => (∀ e ∈ t.errs, Raises o.maxExpr.isSome e.rule e.msg) ∧ ∀ e ∈ t.errs, e.msg ∈ errMsgs
    | .fail t => (∀ e ∈ t.errs, Raises o.maxExpr.isSome e.rule e.msg) ∧ (∀ e ∈ t.errs, e.msg ∈ errMsgs) ∧ t.rstack = []
    | .panic m t => (∀ e ∈ t.errs, Raises o.maxExpr.isSome e.rule e.msg) ∧ (∀ e ∈ t.errs, e.msg ∈ errMsgs) ∧
        Raises o.maxExpr.isSome t.rstack.head? m ∧ (m = maxExprMsg ∨ m = convMsg ∨ getFarthestFailure t.ff = (m, true))
    | .timeout => True := by
  have hk := gram_typed r
  unfold ruleOk at hk
  split at hk
  · cases hk
  rename_i p hp
  have h0 : RepOk o.maxExpr.isSome ff (st0 o r k data ff) := by
    refine ⟨fun e he => ?_, fun x hx => .inr (by rw [st0_ff] at hx; exact hx)⟩
    obtain ⟨h1, h2⟩ := st0_first he
    rw [h2]; exact .encoding _
  have h := eval_typed (o := o) (L := ff) (parseFuel data) r (gram r) [] _ _ (st0 o r k data ff) hp h0 rfl FrTy.nil
  have hmsg := eval_msgs o gram (parseFuel data) (gram r) (st0 o r k data ff)
  have hfirst : ∀ {t : St}, (∀ e ∈ t.errs, e ∈ (st0 o r k data ff).errs ∨ e.msg ∈ errMsgs) → ∀ e ∈ t.errs, e.msg ∈ errMsgs := by
    intro t ht e he
    rcases ht e he with h | h
    · rw [(st0_first h).2]; exact List.mem_cons_self ..
    · exact h
  rw [out_eq]
  cases hr : eval o gram (parseFuel data) (gram r) (st0 o r k data ff) with
  | ok v t => rw [hr] at h hmsg; exact ⟨h.1.errs, hfirst hmsg⟩
  | fail t => rw [hr] at h hmsg; exact ⟨h.errs, hfirst hmsg, rfl⟩
  | panic m t => rw [hr] at h hmsg; exact ⟨h.1.errs, hfirst hmsg.1, h.2, hmsg.2⟩
  | timeout => trivial

/-! ### The limit -/

theorem st0_opts {o o' : Opts} (h : o'.allowInvalid = o.allowInvalid) (r : Rule) (k : Nat) (data : Bytes) (ff : List FF) :
    st0 o' r k data ff = st0 o r k data ff := by
  unfold st0 St.firstRead
  rw [h]

theorem out_over {o : Opts} {r : Rule} {k : Nat} {data : Bytes} {ff : List FF} {m : Nat} :
    (out o r k data ff).over m ↔ (eval o gram (parseFuel data) (gram r) (st0 o r k data ff)).over m := by
  rw [out_eq]
  cases eval o gram (parseFuel data) (gram r) (st0 o r k data ff) <;> exact Iff.rfl

/-- The limit is not reached: it changes nothing. -/
theorem out_cap (o : Opts) (r : Rule) (k : Nat) (data : Bytes) (ff : List FF) (m : Nat)
    (h : ¬ (out { o with maxExpr := none } r k data ff).over m) :
    out { o with maxExpr := some m } r k data ff = out { o with maxExpr := none } r k data ff := by
  have e1 := st0_opts (o := o) (o' := { o with maxExpr := none }) rfl r k data ff
  have e2 := st0_opts (o := o) (o' := { o with maxExpr := some m }) rfl r k data ff
  rw [out_over, e1] at h
  rw [out_eq, out_eq, e1, e2]
  rcases (eval_cap o m gram (parseFuel data) (gram r) (st0 o r k data ff)).2 with h3 | h3
  · rw [h3]
  · exact absurd h3 h

/-- The limit is reached: the evaluation stops at the first expression too many. -/
theorem out_stop (o : Opts) (r : Rule) (data : Bytes) (ff : List FF) (m : Nat)
    (h : (out { o with maxExpr := none } r 0 data ff).over m) :
    ∃ t, out { o with maxExpr := some m } r 0 data ff = .panic maxExprMsg t ∧ t.cnt = m + 1 := by
  have hu := eval_under { o with maxExpr := some m } m rfl gram (parseFuel data) (gram r)
    (st0 { o with maxExpr := some m } r 0 data ff) (by
      have : (st0 { o with maxExpr := some m } r 0 data ff).cnt = 0 := fr_cnt _ _
      omega)
  have ht := out_term { o with maxExpr := none } r 0 data ff
  rw [out_over] at h
  rw [out_eq] at ht
  rw [out_eq]
  have e1 := st0_opts (o := o) (o' := { o with maxExpr := none }) rfl r 0 data ff
  have e2 := st0_opts (o := o) (o' := { o with maxExpr := some m }) rfl r 0 data ff
  rw [e1] at h ht
  rw [e2] at hu
  rw [e2]
  rcases eval_lim (o1 := { o with maxExpr := some m }) (o2 := { o with maxExpr := none }) rfl rfl rfl rfl gram (parseFuel data)
    (gram r) (st0 o r 0 data ff) with h1 | ⟨t, h1⟩
  · rw [← h1] at h ht
    cases hr : eval { o with maxExpr := some m } gram (parseFuel data) (gram r) (st0 o r 0 data ff) with
    | timeout => rw [hr] at ht; exact absurd rfl ht
    | ok v t => rw [hr] at hu h; simp only [Under, Out.over] at hu h; omega
    | fail t => rw [hr] at hu h; simp only [Under, Out.over] at hu h; omega
    | panic x t =>
      rw [hr] at hu h
      rcases hu with ⟨rfl, hc⟩ | ⟨-, hc⟩
      · exact ⟨t, rfl, hc⟩
      · simp only [Out.over] at h; omega
  · rw [h1] at hu ⊢
    rcases hu with ⟨-, hc⟩ | ⟨hx, -⟩
    · exact ⟨t, rfl, hc⟩
    · exact absurd rfl hx

/-- At least one expression is evaluated. -/
theorem out_pos (o : Opts) (r : Rule) (data : Bytes) (ff : List FF) : (out { o with maxExpr := none } r 0 data ff).over 0 := by
  refine Classical.byContradiction fun hn => ?_
  have h := out_cap o r 0 data ff 0 hn
  refine hn ?_
  rw [← h, out_over]
  have hf : ∃ n, parseFuel data = n + 1 := ⟨60 * data.length + 119, by unfold parseFuel; omega⟩
  obtain ⟨n, hn⟩ := hf
  have hc : (st0 { o with maxExpr := some 0 } r 0 data ff).cnt = 0 := fr_cnt _ _
  rw [hn, eval, if_pos (by simp [tooMany])]
  simp only [Out.over, hc]
  omega

/-! ### Messages that stop the parser -/

/-- The text of an error whose message is not among the errors before: it is kept. -/
theorem dedupe_keep {filename : Bytes} {es : List PErr} {e : PErr} (hes : ∀ x ∈ es, Reports x.rule x.msg)
    (he : Reports e.rule e.msg) (hn : ∀ x ∈ es, x.msg ≠ e.msg) :
    dedupe filename [] (es ++ [e]) = dedupe filename [] es ++ [e] := by
  refine dedupe_snoc_aux filename es e [] (by simp) fun x hx h => ?_
  have := text_inj (hes x hx) he h
  exact hn x hx (by rw [this])

/-! ### Successful calls and runs with positions -/

theorem st0_clean {o : Opts} {r : Rule} {k : Nat} {data : Bytes} {ff : List FF} (h : ValidUTF8 data) :
    Clean o data (st0 o r k data ff) :=
  ⟨st0_errs ff (fine_of_valid (.inr h)), by rw [st0_rest]; exact fine_of_valid (.inr h), by
    rw [st0_pt]; exact PtOk.init _ data ff h⟩

theorem st0_warns (o : Opts) (r : Rule) (k : Nat) (data : Bytes) (ff : List FF) : (st0 o r k data ff).warns = [] := by
  show (St.firstRead o _).warns = []
  rw [fr_warns]; rfl

theorem out_runsP {o : Opts} {r : Rule} {k : Nat} {data : Bytes} {ff : List FF} (hm : o.maxExpr = none) (h : ValidUTF8 data)
    {v : Val} : (∃ t, out o r k data ff = .ok v t ∧ t.errs = []) ↔ ∃ b ws, RunsP o (pfOf data) (gram r) data [] v b ws := by
  constructor
  · rintro ⟨t, h1, h2⟩
    rw [out_eq] at h1
    cases hr : eval o gram (parseFuel data) (gram r) (st0 o r k data ff) with
    | ok w t' =>
      rw [hr] at h1
      simp only [Out.ok.injEq] at h1
      obtain ⟨rfl, rfl⟩ := h1
      have hg := (eval_rp hm _ _ _ _ _ (gram_warnOk r) (st0_clean h) hr h2).1
      rw [st0_rest, st0_warns] at hg
      exact ⟨_, _, _, hg⟩
    | fail t' => rw [hr] at h1; cases h1
    | panic m t' => rw [hr] at h1; cases h1
    | timeout => rw [hr] at h1; cases h1
  · rintro ⟨b, ws, f, hr⟩
    have h1 := eval_run r k ff hm (fine_of_valid (.inr h) : Fine o data)
    have h2 : Verif.run o (gram r) data [] = .ok (er v) b (erF f) := hr.run
    rw [h2] at h1
    rw [out_eq]
    cases he : eval o gram (parseFuel data) (gram r) (st0 o r k data ff) with
    | ok w t =>
      rw [he] at h1
      simp only [proj] at h1
      split at h1
      · rename_i ht
        have hg := (eval_rp hm _ _ _ _ _ (gram_warnOk r) (st0_clean h) he ht).1
        rw [st0_rest, st0_warns] at hg
        have hfr : (st0 o r k data ff).frame = [] := rfl
        rw [hfr] at hg
        obtain ⟨rfl, -⟩ := RP.det hr hg
        exact ⟨_, rfl, ht⟩
      · cases h1
    | fail t => rw [he] at h1; simp only [proj] at h1; split at h1 <;> cases h1
    | panic m t => rw [he] at h1; simp [proj] at h1
    | timeout => rw [he] at h1; simp [proj] at h1

/-- The rule `config` succeeds: so does `init`. -/
theorem init_of_config {o : Opts} {pf : Bytes → Pos} {b : Bytes} {c : Config} {ws : List Bytes}
    (h : RunsP o pf G.config b [] (.config c) [] ws) :
    ∃ w ws', RunsP o pf G.init b [] (.config { c with warnings := w }) [] ws' := by
  have key : RunsP o pf (.choice [.action (.ret .conf) (.seq [.labeled .conf (.ref .config), G.eof]),
      .action .newConfig (.seq [G.gap, G.eof])]) b [] (.config c) [] ws := by
    refine choice1Q (actQ _ (seqQ (labQ (refQ (r := .config) h)) (seqQ eofQ endQ)) ?_)
    simp only [runAct, Frame.get, if_true]
  refine ⟨ws, ws, actQ _ (seqQ .initState (seqQ .initParser (seqQ (labQ key) endQ))) ?_⟩
  simp only [runAct, Frame.get, if_true]

/-- The rule `init` succeeds: so does `config`, unless there is no section. -/
theorem config_of_init {o : Opts} {pf : Bytes → Pos} {b b' : Bytes} {c : Config} {ws : List Bytes}
    (h : RunsP o pf G.init b [] (.config c) b' ws) :
    (∃ c0 b2 ws', RunsP o pf G.config b [] (.config c0) b2 ws' ∧ ∃ w, c = { c0 with warnings := w }) ∨
      c.input = [] ∧ c.filter = [] ∧ c.output = [] := by
  obtain ⟨f, h⟩ := h
  simp (discharger := decide) only [G.init, action_rp, seq_rp, rseq_cons, rseq_nil, labeled_rp] at h
  obtain ⟨v0, ⟨vs, ⟨v1, b1, f1, w1, vs1, hs, ⟨v2, b2, f2, w2, vs2, hi, ⟨v3, b3, f3, w3, vs3, ⟨h1, rfl⟩,
    ⟨rfl, rfl, rfl, rfl⟩, rfl⟩, rfl⟩, rfl⟩, rfl⟩, h2⟩ := h
  obtain ⟨rfl, rfl, rfl⟩ : b1 = b ∧ f1 = [] ∧ w1 = [] := by
    cases hs with
    | initState => exact ⟨rfl, rfl, rfl⟩
    | term h => cases h
  obtain ⟨rfl, rfl, rfl⟩ : b2 = b1 ∧ f2 = [] ∧ w2 = [] := by
    cases hi with
    | initParser => exact ⟨rfl, rfl, rfl⟩
    | term h => cases h
  obtain ⟨fc, h1⟩ := h1
  simp only [choice_rp, choice_nil_rp, and_false, or_false] at h1
  rcases h1 with ⟨⟨f5, h1⟩, _⟩ | ⟨_, ⟨f5, h1⟩, _⟩
  · simp (discharger := decide) only [action_rp, seq_rp, rseq_cons, rseq_nil, labeled_rp, runsP_ref, gram] at h1
    obtain ⟨w0, ⟨us, ⟨w1, c1, g1, x1, us1, ⟨h3, rfl⟩, ⟨w2, c2, g2, x2, us2, h4, ⟨rfl, rfl, rfl, rfl⟩, rfl⟩, rfl⟩, rfl⟩, h5⟩ := h1
    obtain ⟨-, rfl, rfl, rfl⟩ := eof_rp h4
    simp only [runAct, Frame.get, if_true] at h5
    injection h5 with h5
    subst h5
    simp only [runAct, Frame.get, if_true] at h2
    split at h2
    · injection h2 with h2
      injection h2 with h2
      exact .inl ⟨_, _, _, h3, _, h2.symm⟩
    · injection h2 with h2
      injection h2 with h2
      subst h2
      exact .inr ⟨rfl, rfl, rfl⟩
  · simp (discharger := decide) only [action_rp, seq_rp, rseq_cons, rseq_nil, labeled_rp] at h1
    obtain ⟨w0, ⟨us, ⟨w1, c1, g1, x1, us1, h3, ⟨w2, c2, g2, x2, us2, h4, ⟨rfl, rfl, rfl, rfl⟩, rfl⟩, rfl⟩, rfl⟩, h5⟩ := h1
    simp only [runAct] at h5
    injection h5 with h5
    subst h5
    simp only [runAct, Frame.get, if_true] at h2
    injection h2 with h2
    injection h2 with h2
    subst h2
    exact .inr ⟨rfl, rfl, rfl⟩

end Verif.Entry
