import Verif.Proofs.RunGap
import Verif.Proofs.Positions
/-
Successful evaluations with positions and warnings: `RP e b fr ws v b' fr' ws'` says that `e`,
tried on the remaining input `b` with variables `fr` and warnings `ws`, succeeds with value `v` and
leaves `b'`, `fr'` and `ws'`.  The values are the ones of the engine, positions included
(`pf` gives the position of a point from the remaining input).
-/
namespace Verif
open Spec

/-- The warning of an exceptional gap that starts where `p.1` remains and ends where `p.2` remains. -/
def warnOf (o : Opts) (pf : Bytes → Pos) (p : Bytes × Bytes) : List Bytes :=
  if o.excWarn && (consumed p.1 p.2).contains 35 then [b!"exceptional comment at " ++ posStr (pf p.1)] else []

/-- Is this a terminal? -/
def Ex.isTerm : Ex → Bool
  | .any => true
  | .cls .. => true
  | .lit _ => true
  | _ => false

/-- The state code that records a warning. -/
abbrev warnEx : Ex := .state .warnComment

mutual
/-- Successful evaluation of an expression. -/
inductive RP (o : Opts) (pf : Bytes → Pos) :
    Ex → Bytes → Frame → List Bytes → Val → Bytes → Frame → List Bytes → Prop
  | action {a e b fr ws v0 v b' fr' ws'} : RP o pf e b fr ws v0 b' fr' ws' →
      runAct o a fr' (pf b) (consumed b b') ws' = .val v → RP o pf (.action a e) b fr ws v b' fr' ws'
  | term {e b fr ws v b'} : e.isTerm = true → (∀ fr, run o e b fr = .ok v b' fr) → RP o pf e b fr ws v b' fr ws
  | initParser {b fr ws} : RP o pf (.andCode .initParser) b fr ws .nil b fr ws
  | initState {b fr ws} : RP o pf (.state .initState) b fr ws .nil b fr ws
  | choice {pre e post b fr ws v b' f ws'} : (∀ x ∈ pre, Fails o x b) → RP o pf e b [] ws v b' f ws' →
      RP o pf (.choice (pre ++ e :: post)) b fr ws v b' fr ws'
  | labeled {l e b fr ws v b' f ws'} : RP o pf e b [] ws v b' f ws' →
      RP o pf (.labeled l e) b fr ws v b' ((l, v) :: fr) ws'
  | not {e b fr ws} : Fails o e b → RP o pf (.not e) b fr ws .nil b fr ws
  | optSome {e b fr ws v b' f ws'} : RP o pf e b [] ws v b' f ws' → RP o pf (.opt e) b fr ws v b' fr ws'
  | optNone {e b fr ws} : Fails o e b → RP o pf (.opt e) b fr ws .nil b fr ws
  | ref {r b fr ws v b' f ws'} : RP o pf (gram r) b [] ws v b' f ws' → RP o pf (.ref r) b fr ws v b' fr ws'
  | star {e b fr ws vs b' ws'} : RStar o pf e b ws vs b' ws' → Fails o e b' →
      RP o pf (.star e) b fr ws (.list vs) b' fr ws'
  | plus {e b fr ws v b1 f ws1 vs b' ws'} : RP o pf e b [] ws v b1 f ws1 → RStar o pf e b1 ws1 vs b' ws' →
      Fails o e b' → RP o pf (.plus e) b fr ws (.list (v :: vs)) b' fr ws'
  | seq {es b fr ws vs b' fr' ws'} : RSeq o pf (b, b) es b fr ws vs b' fr' ws' →
      RP o pf (.seq es) b fr ws (.list vs) b' fr' ws'
/-- Successful evaluation of the elements of a sequence; the first argument gives start and end of
the element before. -/
inductive RSeq (o : Opts) (pf : Bytes → Pos) :
    Bytes × Bytes → List Ex → Bytes → Frame → List Bytes → List Val → Bytes → Frame → List Bytes → Prop
  | nil {last b fr ws} : RSeq o pf last [] b fr ws [] b fr ws
  | cons {last e es b fr ws v b1 fr1 ws1 vs b' fr' ws'} : RP o pf e b fr ws v b1 fr1 ws1 →
      RSeq o pf (b, b1) es b1 fr1 ws1 vs b' fr' ws' → RSeq o pf last (e :: es) b fr ws (v :: vs) b' fr' ws'
  | warn {last es b fr ws vs b' fr' ws'} : RSeq o pf last es b fr (ws ++ warnOf o pf last) vs b' fr' ws' →
      RSeq o pf last (warnEx :: es) b fr ws (.nil :: vs) b' fr' ws'
/-- Repeated successful evaluation. -/
inductive RStar (o : Opts) (pf : Bytes → Pos) :
    Ex → Bytes → List Bytes → List Val → Bytes → List Bytes → Prop
  | nil {e b ws} : RStar o pf e b ws [] b ws
  | cons {e b ws v b1 f ws1 vs b' ws'} : RP o pf e b [] ws v b1 f ws1 → RStar o pf e b1 ws1 vs b' ws' →
      RStar o pf e b ws (v :: vs) b' ws'
end

/-! ### The engine -/

mutual
/-- In every sequence the state code follows an action. -/
def Ex.warnOk : Ex → Bool
  | .action _ e => e.warnOk
  | .choice es => warnOkAll es
  | .labeled _ e => e.warnOk
  | .not e => e.warnOk
  | .plus e => e.warnOk
  | .star e => e.warnOk
  | .opt e => e.warnOk
  | .seq es => warnOkSeq false es
  | .state c => c != .warnComment
  | _ => true
/-- All alternatives. -/
def warnOkAll : List Ex → Bool
  | [] => true
  | e :: es => e.warnOk && warnOkAll es
/-- The elements of a sequence; the flag says that the element before is an action. -/
def warnOkSeq : Bool → List Ex → Bool
  | _, [] => true
  | act, .state .warnComment :: es => act && warnOkSeq act es
  | _, .action _ e :: es => e.warnOk && warnOkSeq true es
  | _, e :: es => e.warnOk && warnOkSeq false es
end

theorem gram_warnOk (r : Rule) : (gram r).warnOk = true := by cases r <;> decide +kernel

/-- The position of the point where `b` remains of `data`. -/
def pfOf (data : Bytes) (b : Bytes) : Pos := posAt data ((data.length : Int) - (b.length : Int)).toNat

theorem PtOk.pf {data : Bytes} {p : Pt} (h : PtOk data p) : p.pos = pfOf data p.rest := by
  rw [h.pos, pfOf]
  congr 1
  have := h.le
  rw [h.rest, List.length_drop]; omega

theorem failAt_warns (s : St) (f : Bool) (p : Pos) (w : Bytes) : (s.failAt f p w).warns = s.warns := by
  unfold St.failAt
  split
  · split
    · rfl
    · simp only; split <;> rfl
  · rfl

theorem read_warns (o : Opts) (s : St) : (s.read o).warns = s.warns := by
  unfold St.read
  simp only
  split <;> rfl

theorem litR_frame {start : Bytes} {fr f : Frame} {tok b b' : Bytes} {v : Val}
    (h : litR start fr tok b = .ok v b' f) : ∀ fr, litR start fr tok b = .ok v b' fr := by
  induction tok generalizing b with
  | nil =>
    intro fr2
    simp only [litR] at h ⊢
    injection h with h1 h2 h3
    rw [h1, h2]
  | cons c cs ih =>
    intro fr2
    simp only [litR] at h ⊢
    split at h
    · rename_i hc
      rw [if_pos hc]; exact ih h fr2
    · cases h

theorem litR_bytes {start : Bytes} {fr f : Frame} {tok b b' : Bytes} {v : Val}
    (h : litR start fr tok b = .ok v b' f) : ∃ x, v = .bytes x := by
  induction tok generalizing b with
  | nil =>
    simp only [litR] at h
    injection h with h1
    exact ⟨_, h1.symm⟩
  | cons c cs ih =>
    simp only [litR] at h
    split at h
    · exact ih h
    · cases h

theorem er_bytes {v : Val} {x : Bytes} (h : er v = .bytes x) : v = .bytes x := by
  cases v <;> simp_all [er, valMap]

section
variable {o : Opts} {data : Bytes}

/-- What a state must satisfy. -/
structure Clean (o : Opts) (data : Bytes) (s : St) : Prop where
  errs : s.errs = []
  fine : Fine o s.pt.rest
  pt : PtOk data s.pt

/-- What a successful evaluation gives. -/
def Gives (o : Opts) (data : Bytes) (e : Ex) (s : St) (v : Val) (t : St) : Prop :=
  RP o (pfOf data) e s.pt.rest s.frame s.warns v t.pt.rest t.frame t.warns ∧
    (∀ a e', e = .action a e' → t.curPos = s.pt.pos ∧ t.curText = sliceFrom s.pt t.pt)

theorem errs_mid {s t : St} {x : List PErr} (h : t.errs = s.errs ++ x) (ht : t.errs = []) : s.errs = [] := by
  rw [h] at ht; exact (List.append_eq_nil_iff.mp ht).1

theorem Clean.ok {s t : St} {v : Val} (h : Clean o data s) (hg : Good o s (.ok v t)) (ht : t.errs = []) :
    Clean o data t := ⟨ht, h.fine.adv hg.2.1, h.pt.adv hg.2.1⟩

theorem Clean.fail {s t : St} (h : Clean o data s) (hg : Good o s (.fail t)) (ht : t.errs = []) :
    Clean o data t := ⟨ht, by rw [hg.2.1]; exact h.fine, by rw [hg.2.1]; exact h.pt⟩

theorem fails_of_eval (hm : o.maxExpr = none) {n : Nat} {e : Ex} {s t : St} (h : Clean o data s) (hf : s.frame = [])
    (hr : eval o gram n e s = .fail t) (ht : t.errs = []) : Fails o e s.pt.rest := by
  have h1 := eval_proj hm gram n e s h.errs h.fine (by rw [hr]; simp)
  rw [hr, proj_fail1 ht, hf] at h1
  have h2 := run_of_reval o (n := n) (e := e) (b := s.pt.rest) (fr := erF []) (by rw [← h1]; simp)
  rw [Fails]
  have h3 : erF [] = [] := rfl
  rw [h3] at h1 h2
  rw [h2, ← h1]

/-- The relation for sequences. -/
theorem seqLoop_rp {n : Nat} (ih : ∀ e s v t, e.warnOk = true → Clean o data s → eval o gram n e s = .ok v t → t.errs = [] →
      Gives o data e s v t) (s0 : St) (es : List Ex) :
    ∀ (act : Bool) (last : Bytes × Bytes) (acc : List Val) (s : St) (v : Val) (t : St), warnOkSeq act es = true →
      (act = true → s.curPos = pfOf data last.1 ∧ s.curText = consumed last.1 last.2) →
      Clean o data s → seqLoop (eval o gram n) s0 es acc s = .ok v t → t.errs = [] →
      ∃ vs, v = .list (acc ++ vs) ∧
        RSeq o (pfOf data) last es s.pt.rest s.frame s.warns vs t.pt.rest t.frame t.warns := by
  induction es with
  | nil =>
    intro act last acc s v t _ _ _ h _
    simp only [seqLoop] at h
    injection h with h1 h2
    subst h2
    exact ⟨[], by simp [h1], .nil⟩
  | cons e es ihs =>
    intro act last acc s v t hw hcur hc h ht
    simp only [seqLoop] at h
    cases hr : eval o gram n e s with
    | timeout => rw [hr] at h; cases h
    | fail t1 => rw [hr] at h; cases h
    | panic m t1 => rw [hr] at h; cases h
    | ok v1 t1 =>
      rw [hr] at h
      simp only at h
      have hg := eval_good o gram n e s
      rw [hr] at hg
      have hgr := seqLoop_good o (eval o gram n) (fun e s => eval_good o gram n e s) s0 es (acc ++ [v1]) t1
      have herr : t1.errs = [] := by
        refine Classical.byContradiction fun hne => ?_
        have := seqLoop_bad (ev := eval o gram n) (fun e s h1 h2 => proj_bad (eval_good o gram n e s) h1 h2)
          s0 es (acc ++ [v1]) t1 hne (by rw [h]; simp)
        rw [h] at this
        exact proj_ok_abort.1 this ht
      by_cases hwe : e = warnEx
      · subst hwe
        simp only [warnOkSeq, Bool.and_eq_true] at hw
        obtain ⟨c1, c2⟩ := hcur hw.1
        cases n with
        | zero => cases hr
        | succ n =>
          rw [eval] at hr
          split at hr
          · cases hr
          · simp only [step] at hr
            injection hr with h1 h2
            subst h1 h2
            have key : ∀ {x : St}, x.pt = s.pt → x.frame = s.frame → x.curPos = s.curPos → x.curText = s.curText →
                (runState o .warnComment x).pt.rest = s.pt.rest ∧ (runState o .warnComment x).frame = s.frame ∧
                (runState o .warnComment x).curPos = s.curPos ∧ (runState o .warnComment x).curText = s.curText ∧
                (runState o .warnComment x).warns = x.warns ++ warnOf o (pfOf data) last := by
              intro x hp hf h3 h4
              unfold runState warnOf
              rw [h4, ← c2, h3]
              simp only
              split
              · exact ⟨by rw [← hp], hf, rfl, rfl, by rw [c1]⟩
              · exact ⟨by rw [← hp], hf, h3, h4, by simp⟩
            obtain ⟨k1, k2, k3, k4, k5⟩ := key (x := { s with cnt := s.cnt + 1 }) rfl rfl rfl rfl
            obtain ⟨vs, e1, e2⟩ := ihs act last (acc ++ [.nil]) _ v t hw.2
              (fun _ => ⟨by rw [k3, c1], by rw [k4, c2]⟩) (hc.ok hg herr) h ht
            refine ⟨.nil :: vs, by rw [e1]; simp, ?_⟩
            rw [k1, k2, k5] at e2
            exact .warn e2
      · have hw2 : e.warnOk = true ∧ warnOkSeq (match e with | .action _ _ => true | _ => false) es = true := by
          cases e with
          | state c => cases c with
            | warnComment => exact absurd rfl hwe
            | initState => simpa [warnOkSeq, Ex.warnOk] using hw
          | _ => simpa [warnOkSeq, Ex.warnOk] using hw
        obtain ⟨g1, g2⟩ := ih e s v1 t1 hw2.1 hc hr herr
        obtain ⟨vs, e1, e2⟩ := ihs _ (s.pt.rest, t1.pt.rest) (acc ++ [v1]) t1 v t hw2.2 (by
          cases e with
          | action a e' =>
            intro _
            obtain ⟨g3, g4⟩ := g2 a e' rfl
            exact ⟨by rw [g3, hc.pt.pf], by rw [g4, slice_consumed hg.2.1]⟩
          | _ => intro hh; cases hh) (hc.ok hg herr) h ht
        exact ⟨v1 :: vs, by rw [e1]; simp, .cons g1 e2⟩

theorem choiceLoop_rp (hm : o.maxExpr = none) {n : Nat}
    (ih : ∀ e s v t, e.warnOk = true → Clean o data s → eval o gram n e s = .ok v t → t.errs = [] →
      Gives o data e s v t) (es : List Ex) :
    ∀ (s : St) (v : Val) (t : St), warnOkAll es = true → Clean o data s → choiceLoop (eval o gram n) es s = .ok v t →
      t.errs = [] → ∃ pre e post f, es = pre ++ e :: post ∧ (∀ x ∈ pre, Fails o x s.pt.rest) ∧
        RP o (pfOf data) e s.pt.rest [] s.warns v t.pt.rest f t.warns ∧ t.frame = s.frame := by
  induction es with
  | nil => intro s v t _ _ h; cases h
  | cons e es ihs =>
    intro s v t hw hc h ht
    simp only [warnOkAll, Bool.and_eq_true] at hw
    simp only [choiceLoop] at h
    have hc' : Clean o data { s with frame := [] } := ⟨hc.errs, hc.fine, hc.pt⟩
    have hg := eval_good o gram n e { s with frame := [] }
    cases hr : eval o gram n e { s with frame := [] } with
    | timeout => rw [hr] at h; cases h
    | panic m t1 => rw [hr] at h; cases h
    | ok v1 t1 =>
      rw [hr] at h
      simp only at h
      injection h with h1 h2
      subst h1 h2
      obtain ⟨g1, -⟩ := ih e _ _ t1 hw.1 hc' hr ht
      exact ⟨[], e, es, t1.frame, rfl, by simp, g1, rfl⟩
    | fail t1 =>
      rw [hr] at h hg
      simp only at h
      have herr : t1.errs = [] := by
        refine Classical.byContradiction fun hne => ?_
        have := choiceLoop_bad (ev := eval o gram n) (fun e s h1 h2 => proj_bad (eval_good o gram n e s) h1 h2)
          es { t1 with frame := s.frame, warns := s.warns } hne (by rw [h]; simp)
        rw [h] at this
        exact proj_ok_abort.1 this ht
      have hf := fails_of_eval hm hc' rfl hr herr
      have hpt : t1.pt = s.pt := hg.2.1
      obtain ⟨pre, x, post, f, e1, e2, e3, e4⟩ := ihs { t1 with frame := s.frame, warns := s.warns } v t hw.2
        ⟨herr, by rw [show ({ t1 with frame := s.frame, warns := s.warns } : St).pt = s.pt from hpt]; exact hc.fine,
          by rw [show ({ t1 with frame := s.frame, warns := s.warns } : St).pt = s.pt from hpt]; exact hc.pt⟩ h ht
      simp only [hpt] at e2 e3 e4
      exact ⟨e :: pre, x, post, f, by rw [e1]; rfl, by
        intro y hy
        rcases List.mem_cons.1 hy with rfl | hy
        · exact hf
        · exact e2 y hy, e3, e4⟩

theorem starLoop_rp (hm : o.maxExpr = none) {n : Nat} {e : Ex} (hw : e.warnOk = true)
    (ih : ∀ e s v t, e.warnOk = true → Clean o data s → eval o gram n e s = .ok v t → t.errs = [] →
      Gives o data e s v t) (m : Nat) :
    ∀ (acc : List Val) (s : St) (v : Val) (t : St), Clean o data s → starLoop (eval o gram n e) m acc s = .ok v t →
      t.errs = [] → ∃ vs, v = .list (acc ++ vs) ∧ RStar o (pfOf data) e s.pt.rest s.warns vs t.pt.rest t.warns ∧
        Fails o e t.pt.rest ∧ t.frame = s.frame := by
  induction m with
  | zero => intro acc s v t _ h; cases h
  | succ m ihm =>
    intro acc s v t hc h ht
    simp only [starLoop] at h
    have hc' : Clean o data { s with frame := [] } := ⟨hc.errs, hc.fine, hc.pt⟩
    have hg := eval_good o gram n e { s with frame := [] }
    cases hr : eval o gram n e { s with frame := [] } with
    | timeout => rw [hr] at h; cases h
    | panic m t1 => rw [hr] at h; cases h
    | fail t1 =>
      rw [hr] at h hg
      simp only at h
      injection h with h1 h2
      subst h1 h2
      have hf := fails_of_eval hm hc' rfl hr ht
      have hpt : t1.pt = s.pt := hg.2.1
      have hws : t1.warns = s.warns := hg.2.2
      refine ⟨[], by simp, ?_, ?_, rfl⟩
      · simp only [hpt, hws]; exact .nil
      · simp only [hpt]; exact hf
    | ok v1 t1 =>
      rw [hr] at h hg
      simp only at h
      have herr : t1.errs = [] := by
        refine Classical.byContradiction fun hne => ?_
        have := starLoop_bad (ev := eval o gram n e) (fun s h1 h2 => proj_bad (eval_good o gram n e s) h1 h2)
          m (acc ++ [v1]) { t1 with frame := s.frame } hne (by rw [h]; simp)
        rw [h] at this
        exact proj_ok_abort.1 this ht
      obtain ⟨g1, -⟩ := ih e _ _ t1 hw hc' hr herr
      have hc1 := hc'.ok hg herr
      obtain ⟨vs, e1, e2, e3, e4⟩ := ihm (acc ++ [v1]) { t1 with frame := s.frame } v t ⟨herr, hc1.fine, hc1.pt⟩ h ht
      exact ⟨v1 :: vs, by rw [e1]; simp, .cons g1 e2, e3, e4⟩

/-- Successful evaluations of the engine are successful evaluations of the relation. -/
theorem eval_rp (hm : o.maxExpr = none) (n : Nat) : ∀ (e : Ex) (s : St) (v : Val) (t : St), e.warnOk = true →
    Clean o data s → eval o gram n e s = .ok v t → t.errs = [] → Gives o data e s v t := by
  induction n with
  | zero => intro e s v t _ _ h; cases h
  | succ n ih =>
    intro e s v t hw hc h ht
    rw [eval] at h
    split at h
    · cases h
    generalize hs1 : ({ s with cnt := s.cnt + 1 } : St) = s1 at h
    have hpt : s1.pt = s.pt := by rw [← hs1]
    have hfr : s1.frame = s.frame := by rw [← hs1]
    have hws : s1.warns = s.warns := by rw [← hs1]
    have hc1 : Clean o data s1 := ⟨by rw [← hs1]; exact hc.errs, by rw [hpt]; exact hc.fine, by rw [hpt]; exact hc.pt⟩
    suffices hh : Gives o data e s1 v t by
      unfold Gives at hh ⊢
      rwa [hpt, hfr, hws] at hh
    rename_i hx
    clear hx hs1 hpt hfr hws hc s
    have hc' : Clean o data { s1 with frame := [] } := ⟨hc1.errs, hc1.fine, hc1.pt⟩
    unfold step at h
    cases e with
    | action a e =>
      simp only at h
      cases hr : eval o gram n e s1 with
      | timeout => rw [hr] at h; cases h
      | fail t1 => rw [hr] at h; cases h
      | panic m t1 => rw [hr] at h; cases h
      | ok v1 t1 =>
        rw [hr] at h
        simp only at h
        have hg := eval_good o gram n e s1
        rw [hr] at hg
        split at h
        · rename_i v2 hact
          injection h with h1 h2
          subst h1 h2
          obtain ⟨g1, -⟩ := ih e s1 v1 t1 hw hc1 hr ht
          refine ⟨.action g1 ?_, fun _ _ _ => ⟨rfl, rfl⟩⟩
          rw [← hc1.pt.pf, ← slice_consumed hg.2.1]
          exact hact
        · injection h with h1 h2
          subst h2
          simp [St.addErrAt] at ht
        · cases h
    | andCode c =>
      cases c with
      | initParser =>
        simp only [runCode] at h
        injection h with h1 h2
        subst h1 h2
        exact ⟨.initParser, by intro _ _ hh; cases hh⟩
      | pushError m => cases h
      | fatalError m => cases h
    | any =>
      simp only at h
      split at h
      · cases h
      · rename_i hx
        have hne := Pt.rest_ne_of_not_atEof hx
        injection h with h1 h2
        subst h1 h2
        obtain ⟨f1, f2, -, f4, -⟩ := failAt_fields (s1.read o) true s1.pt.pos b!"."
        obtain ⟨r1, -, r3, -⟩ := read_fields o s1
        refine ⟨?_, by intro _ _ hh; cases hh⟩
        have hw1 : ((s1.read o).failAt true s1.pt.pos b!".").warns = s1.warns := by
          rw [failAt_warns, read_warns]
        rw [f1, f4, r1, r3, hw1, slice_consumed (Adv.one hne), Pt.next_rest]
        refine .term rfl fun fr => ?_
        rw [run_any, if_neg hne]; rfl
    | cls val inv chars ranges =>
      simp only at h
      split at h
      · cases h
      · rename_i hx
        have hne := Pt.rest_ne_of_not_atEof hx
        split at h
        · rename_i hcl
          injection h with h1 h2
          subst h1 h2
          obtain ⟨f1, f2, -, f4, -⟩ := failAt_fields (s1.read o) true s1.pt.pos val
          obtain ⟨r1, -, r3, -⟩ := read_fields o s1
          refine ⟨?_, by intro _ _ hh; cases hh⟩
          have hw1 : ((s1.read o).failAt true s1.pt.pos val).warns = s1.warns := by
            rw [failAt_warns, read_warns]
          rw [f1, f4, r1, r3, hw1, slice_consumed (Adv.one hne), Pt.next_rest]
          refine .term rfl fun fr => ?_
          rw [run_cls, if_neg hne]
          rw [show s1.pt.rn = (decodeRune s1.pt.rest).1 from rfl] at hcl
          rw [if_pos hcl]; rfl
        · cases h
    | choice alts =>
      obtain ⟨pre, e, post, f, rfl, h2, h3, h4⟩ := choiceLoop_rp hm ih alts s1 v t hw hc1 h ht
      refine ⟨?_, by intro _ _ hh; cases hh⟩
      rw [h4]
      exact .choice h2 h3
    | labeled l e =>
      simp only at h
      cases hr : eval o gram n e { s1 with frame := [] } with
      | timeout => rw [hr] at h; cases h
      | fail t1 => rw [hr] at h; cases h
      | panic m t1 => rw [hr] at h; cases h
      | ok v1 t1 =>
        rw [hr] at h
        simp only at h
        injection h with h1 h2
        subst h1 h2
        obtain ⟨g1, -⟩ := ih e _ _ t1 hw hc' hr ht
        exact ⟨.labeled g1, by intro _ _ hh; cases hh⟩
    | lit x =>
      simp only at h
      have h1 := litLoop_proj o (litWant x) s1.pt x s1 hc1.errs hc1.fine (.refl _)
      rw [h, proj_ok1 ht] at h1
      have hfr : t.frame = s1.frame ∧ t.warns = s1.warns := by
        have : ∀ (cs : Bytes) (s : St), litLoop o (litWant x) s1.pt cs s = .ok v t → t.frame = s.frame ∧ t.warns = s.warns := by
          intro cs
          induction cs with
          | nil =>
            intro s hh
            simp only [litLoop] at hh
            injection hh with h1 h2
            subst h2
            unfold St.failAt
            (repeat' split) <;> exact ⟨rfl, rfl⟩
          | cons c cs ihc =>
            intro s hh
            simp only [litLoop] at hh
            split at hh
            · obtain ⟨k1, k2⟩ := ihc _ hh
              rw [k1, k2]
              unfold St.read
              simp only
              split <;> exact ⟨rfl, rfl⟩
            · cases hh
        exact this x s1 h
      obtain ⟨y, hy⟩ := litR_bytes h1.symm
      have hv := er_bytes hy
      refine ⟨?_, by intro _ _ hh; cases hh⟩
      rw [hfr.1, hfr.2]
      refine .term rfl fun fr => ?_
      rw [run_lit, litR_frame h1.symm fr, hy, hv]
    | not e =>
      simp only at h
      cases hr : eval o gram n e { s1 with frame := [], mfInv := !s1.mfInv } with
      | timeout => rw [hr] at h; cases h
      | ok v1 t1 => rw [hr] at h; cases h
      | panic m t1 => rw [hr] at h; cases h
      | fail t1 =>
        rw [hr] at h
        simp only at h
        injection h with h1 h2
        subst h1 h2
        have hf := fails_of_eval (s := { s1 with frame := [], mfInv := !s1.mfInv }) hm ⟨hc1.errs, hc1.fine, hc1.pt⟩ rfl hr ht
        exact ⟨.not hf, by intro _ _ hh; cases hh⟩
    | plus e =>
      simp only at h
      have hg := eval_good o gram n e { s1 with frame := [] }
      cases hr : eval o gram n e { s1 with frame := [] } with
      | timeout => rw [hr] at h; cases h
      | fail t1 => rw [hr] at h; cases h
      | panic m t1 => rw [hr] at h; cases h
      | ok v1 t1 =>
        rw [hr] at h hg
        simp only at h
        have herr : t1.errs = [] := by
          refine Classical.byContradiction fun hne => ?_
          have := starLoop_bad (ev := eval o gram n e) (fun s h1 h2 => proj_bad (eval_good o gram n e s) h1 h2)
            n [v1] { t1 with frame := s1.frame } hne (by rw [h]; simp)
          rw [h] at this
          exact proj_ok_abort.1 this ht
        obtain ⟨g1, -⟩ := ih e _ _ t1 hw hc' hr herr
        have hc2 := hc'.ok hg herr
        obtain ⟨vs, e1, e2, e3, e4⟩ := starLoop_rp hm (e := e) hw ih n [v1] { t1 with frame := s1.frame } v t
          ⟨herr, hc2.fine, hc2.pt⟩ h ht
        refine ⟨?_, by intro _ _ hh; cases hh⟩
        rw [e1, e4]
        exact .plus g1 e2 e3
    | ref r =>
      simp only [evalRule] at h
      cases hr : eval o gram n (gram r) { s1 with rstack := r :: s1.rstack, frame := [] } with
      | timeout => rw [hr] at h; cases h
      | fail t1 => rw [hr] at h; cases h
      | panic m t1 => rw [hr] at h; cases h
      | ok v1 t1 =>
        rw [hr] at h
        simp only at h
        injection h with h1 h2
        subst h1 h2
        obtain ⟨g1, -⟩ := ih (gram r) { s1 with rstack := r :: s1.rstack, frame := [] } _ t1 (gram_warnOk r)
          ⟨hc1.errs, hc1.fine, hc1.pt⟩ hr ht
        exact ⟨.ref g1, by intro _ _ hh; cases hh⟩
    | seq es =>
      obtain ⟨vs, e1, e2⟩ := seqLoop_rp ih s1 es false (s1.pt.rest, s1.pt.rest) [] s1 v t hw (by simp) hc1 h ht
      refine ⟨?_, by intro _ _ hh; cases hh⟩
      rw [e1]
      exact .seq e2
    | state c =>
      cases c with
      | warnComment => simp [Ex.warnOk] at hw
      | initState =>
        simp only [runState] at h
        injection h with h1 h2
        subst h1 h2
        exact ⟨.initState, by intro _ _ hh; cases hh⟩
    | star e =>
      obtain ⟨vs, e1, e2, e3, e4⟩ := starLoop_rp hm (e := e) hw ih n [] s1 v t hc1 h ht
      refine ⟨?_, by intro _ _ hh; cases hh⟩
      rw [e1, e4]
      exact .star e2 e3
    | opt e =>
      simp only at h
      have hg := eval_good o gram n e { s1 with frame := [] }
      cases hr : eval o gram n e { s1 with frame := [] } with
      | timeout => rw [hr] at h; cases h
      | panic m t1 => rw [hr] at h; cases h
      | ok v1 t1 =>
        rw [hr] at h
        simp only at h
        injection h with h1 h2
        subst h1 h2
        obtain ⟨g1, -⟩ := ih e _ _ t1 hw hc' hr ht
        exact ⟨.optSome g1, by intro _ _ hh; cases hh⟩
      | fail t1 =>
        rw [hr] at h hg
        simp only at h
        injection h with h1 h2
        subst h1 h2
        have hf := fails_of_eval hm hc' rfl hr ht
        have hpt : t1.pt = s1.pt := hg.2.1
        have hws : t1.warns = s1.warns := hg.2.2
        refine ⟨?_, by intro _ _ hh; cases hh⟩
        simp only [hpt, hws]
        exact .optNone hf

end

end Verif
