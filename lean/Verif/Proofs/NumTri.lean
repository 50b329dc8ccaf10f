import Verif.Proofs.NumCond
/-
What the rule `condition` does with the rest of a plugin name that starts with `if`.
-/
namespace Verif
open Spec

section
variable {o : Opts}

theorem prefix_all {p : UInt8 → Bool} {tok a b : Bytes} (ht : tok.all p = true) (hb : b.takeWhile p = []) (h : tok <+: a ++ b) : tok <+: a := by
  obtain ⟨r, h⟩ := h
  rcases List.append_eq_append_iff.1 h with ⟨c, h1, h2⟩ | ⟨c, h1, h2⟩
  · exact ⟨c, h1.symm⟩
  · cases c with
    | nil => exact ⟨[], by simpa using h1⟩
    | cons d c =>
      rw [h2] at hb
      have : p d = true := by
        rw [h1] at ht
        exact List.all_eq_true.1 ht d (by simp)
      simp [List.takeWhile, this] at hb

theorem rvalue_fail_head {c : UInt8} {t : Bytes} (h1 : c ≠ 34 ∧ c ≠ 39) (h2 : Fails o G.number (c :: t)) (h3 : c ≠ 91) (h4 : c ≠ 47) :
    Fails o G.rvalue (c :: t) := by
  unfold Fails; rw [G.rvalue, run_choice]
  refine choice2 (string_fail_head h1) (choice2 h2 (choice2 (fails_selector.2 ?_) (choice2 (refF (array_fail (by simpa using h3)))
    (choice2 (fails_regexp.2 (by simpa using h4)) (choice2 (run_pushError ..) (by rw [choiceR]))))))
  rintro ⟨n, r, h, _⟩
  simp at h
  exact h3 h.1

theorem condition_fail_head {c : UInt8} {t : Bytes} (h : Fails o G.rvalue (c :: t)) (h1 : c ≠ 40) (h2 : c ≠ 33) :
    Fails o G.condition (c :: t) := by
  refine actF (seqF (labeled_fail.2 (refF ?_)))
  show Fails o G.expression (c :: t)
  unfold Fails; rw [G.expression, run_choice]
  refine choice2 (actF (seqF (tokF (by decide) (by simpa using h1)))) (choice2 (refF (neg_fail (by simpa using h2)))
    (choice2 (refF (actF (seqF (labeled_fail.2 (refF h))))) (choice2 (refF (actF (seqF (labeled_fail.2 (refF h)))))
    (choice2 (refF (actF (seqF (labeled_fail.2 (refF h))))) (choice2 (refF (actF (seqF (labeled_fail.2 (refF h)))))
    (choice2 (action_fail.2 (labeled_fail.2 (refF h))) (by rw [choiceR])))))))

theorem nameChar_ops : ∀ c : UInt8, isNameChar c = true → (c ≠ 34 ∧ c ≠ 39) ∧ c ≠ 91 ∧ c ≠ 47 ∧ c ≠ 40 ∧ c ≠ 33 := by decide +kernel


/-! ### What follows `if` in a name -/

/-- No digit at the beginning. -/
def NoDigit (x : Bytes) : Prop := ∀ d, x.head? = some d → Spec.isDigit d = false

section
variable {g : Gap} {Y : Bytes}

/-- The gap in front of what follows. -/
def gp (g : Gap) (r : Bytes) : Gap := if r = [] then g else .empty
/-- What follows after the gap. -/
def tl (g : Gap) (Y r : Bytes) : Bytes := if r = [] then b!"{" ++ Y else r ++ (g.text ++ (b!"{" ++ Y))

theorem tl_cons {c : UInt8} {r : Bytes} : tl g Y (c :: r) = c :: (r ++ (g.text ++ (b!"{" ++ Y))) := by simp [tl]
theorem tl_nil : tl g Y [] = 123 :: Y := by simp [tl]
theorem tl_ne {r : Bytes} (h : r ≠ []) : tl g Y r = r ++ (g.text ++ (b!"{" ++ Y)) := by simp [tl, h]

theorem gp_ok (hg : g.Ok) (r : Bytes) : (gp g r).Ok := by
  unfold gp; split
  · exact hg
  · exact gap_empty_ok

theorem gp_tl (r : Bytes) : r ++ (g.text ++ (b!"{" ++ Y)) = (gp g r).text ++ tl g Y r := by
  unfold gp tl; split
  · rename_i h; subst h; rfl
  · simp [Gap.text, Gap.empty]

theorem tl_stop {r : Bytes} (hr : r.all isNameChar = true) : Stop (tl g Y r) := by
  cases r with
  | nil => rw [tl_nil]; exact stop_cons (by decide)
  | cons c r =>
    rw [List.all_cons, Bool.and_eq_true] at hr
    rw [tl_cons]; exact stop_cons (nameChar_stop c hr.1)

theorem tl_head {r : Bytes} (hr : r.all isNameChar = true) {c : UInt8} (h : (tl g Y r).head? = some c) : isNameChar c = true ∨ c = 123 := by
  cases r with
  | nil => rw [tl_nil] at h; simp at h; exact .inr h.symm
  | cons d r =>
    rw [List.all_cons, Bool.and_eq_true] at hr
    rw [tl_cons] at h; simp at h; subst h; exact .inl hr.1

theorem tl_prefix (hg : g.Ok) {r tok : Bytes} (ht : tok.all isNameChar = true) (hne : tok ≠ []) (h : tok <+: tl g Y r) : tok <+: r := by
  cases r with
  | nil =>
    rw [tl_nil] at h
    cases tok with
    | nil => exact absurd rfl hne
    | cons c t =>
      have : c = 123 := (List.cons_prefix_cons.1 h).1
      subst this; simp at ht; exact absurd ht.1 (by decide)
  | cons c r =>
    rw [tl_ne (by simp)] at h
    exact prefix_all ht (gap_takeWhile gapChar_name hg (by simp; decide)) h

theorem nameChar_rv : ∀ c : UInt8, isNameChar c = true → Spec.isDigit c = false → isNumChar c = false ∧ c ≠ 91 := by decide +kernel

theorem rvFollow_name (hg : g.Ok) {x : Bytes} (hx : x.all isNameChar = true) (hd : NoDigit x) : RvFollow (x ++ (g.text ++ (b!"{" ++ Y))) := by
  cases x with
  | nil => exact rvFollow_gap hg (rvFollow_cons (by decide))
  | cons c x =>
    rw [List.all_cons, Bool.and_eq_true] at hx
    exact rvFollow_cons (nameChar_rv c hx.1 (hd c rfl))

theorem rvFollow_tl {x : Bytes} (hx : x.all isNameChar = true) (hd : NoDigit x) : RvFollow (tl g Y x) := by
  cases x with
  | nil => rw [tl_nil]; exact rvFollow_cons (by decide)
  | cons c x =>
    rw [List.all_cons, Bool.and_eq_true] at hx
    rw [tl_cons]; exact rvFollow_cons (nameChar_rv c hx.1 (hd c rfl))

theorem noDigit_dropWhile (t : Bytes) : NoDigit (t.dropWhile Spec.isDigit) := by
  intro d hd
  have := List.head?_dropWhile_not (p := Spec.isDigit) t
  rw [hd] at this
  simpa using this

/-- Digits or no digits. -/
theorem digits_split (t : Bytes) : (∃ d x, t = d ++ x ∧ d ≠ [] ∧ d.all Spec.isDigit = true ∧ NoDigit x) ∨ NoDigit t := by
  by_cases h : t.takeWhile Spec.isDigit = []
  · right
    have := noDigit_dropWhile t
    have e := List.takeWhile_append_dropWhile (p := Spec.isDigit) (l := t)
    rw [h] at e
    rw [List.nil_append] at e
    rwa [e] at this
  · left
    exact ⟨_, _, (List.takeWhile_append_dropWhile (p := Spec.isDigit) (l := t)).symm, h, List.all_takeWhile, noDigit_dropWhile t⟩

/-- A number at the beginning, or `rvalue` fails. -/
theorem rv_tri (o : Opts) (hg : g.Ok) {r : Bytes} (hr : r.all isNameChar = true) :
    Fails o G.rvalue (tl g Y r) ∨ ∃ n x, NumTok n ∧ r = n ++ x ∧ NoDigit x := by
  cases r with
  | nil =>
    left; rw [tl_nil]
    exact rvalue_fail_head (by decide) (number_fail_head (by decide) (by decide)) (by decide) (by decide)
  | cons c t =>
    have hr' := hr
    rw [List.all_cons, Bool.and_eq_true] at hr
    have ho := nameChar_ops c hr.1
    by_cases h45 : c = 45
    · subst h45
      rcases digits_split t with ⟨d, x, rfl, h1, h2, h3⟩ | h
      · exact .inr ⟨45 :: d, x, ⟨[45], d, [], by simp, .inr rfl, h1, h2, .inl rfl⟩, by simp, h3⟩
      · left
        rw [tl_cons]
        refine rvalue_fail_head ho.1 ?_ ho.2.1 ho.2.2.1
        rw [fails_number]
        show (t ++ (g.text ++ (b!"{" ++ Y))).takeWhile Spec.isDigit = []
        cases t with
        | nil =>
          refine gap_takeWhile (by intro c hc; have := gapChar_name c hc; cases h : Spec.isDigit c; rfl; rw [digit_name c h] at this; cases this) hg ?_
          simp; decide
        | cons e t => exact takeWhile_nil fun a ha => h a (by simpa using ha)
    · rcases digits_split (c :: t) with ⟨d, x, hx, h1, h2, h3⟩ | h
      · rw [hx]
        exact .inr ⟨d, x, ⟨[], d, [], by simp, .inl rfl, h1, h2, .inl rfl⟩, rfl, h3⟩
      · left
        rw [tl_cons]
        exact rvalue_fail_head ho.1 (number_fail_head h45 (h c rfl)) ho.2.1 ho.2.2.1

theorem expression_fail_head {c : UInt8} {t : Bytes} (h : Fails o G.rvalue (c :: t)) (h1 : c ≠ 40) (h2 : c ≠ 33) :
    Fails o G.expression (c :: t) := by
  unfold Fails; rw [G.expression, run_choice]
  refine choice2 (actF (seqF (tokF (by decide) (by simpa using h1)))) (choice2 (refF (neg_fail (by simpa using h2)))
    (choice2 (refF (actF (seqF (labeled_fail.2 (refF h))))) (choice2 (refF (actF (seqF (labeled_fail.2 (refF h)))))
    (choice2 (refF (actF (seqF (labeled_fail.2 (refF h))))) (choice2 (refF (actF (seqF (labeled_fail.2 (refF h)))))
    (choice2 (action_fail.2 (labeled_fail.2 (refF h))) (by rw [choiceR])))))))

theorem tl_expr_fail {r : Bytes} (hr : r.all isNameChar = true) (h : Fails o G.rvalue (tl g Y r)) : Fails o G.expression (tl g Y r) := by
  cases r with
  | nil => rw [tl_nil] at h ⊢; exact expression_fail_head h (by decide) (by decide)
  | cons c r =>
    rw [List.all_cons, Bool.and_eq_true] at hr
    have ho := nameChar_ops c hr.1
    rw [tl_cons] at h ⊢; exact expression_fail_head h ho.2.2.2.1 ho.2.2.2.2

theorem in_fail2 {l : CRval} (hl : l.Ok) {T : Bytes} (hg : g.Ok) (hs : Stop T) (h : Fails o G.rvalue T) :
    Fails o G.inExpression (l.text ++ (b!"in" ++ (g.text ++ T))) := by
  obtain ⟨v, _, h1⟩ := opA (o := o) hl gap_empty_ok (T := b!"in" ++ (g.text ++ T)) (stop_cons (by decide)) (rvFollow_cons (by decide))
  exact actF (h1 _ (seqA ((close_ok (by decide) (by simp)).2 ⟨rfl, rfl, rfl⟩) (gapSW hg hs (seqF (labeled_fail.2 (refF h))))))

/-- `not` in front of something that is not `in`. -/
theorem notIn_fail2 {l : CRval} (hl : l.Ok) {g2 : Gap} (hg2 : g2.Ok) {X : Bytes} :
    Fails o G.notInExpression (l.text ++ (b!"not " ++ (g2.text ++ (b!"{" ++ X)))) := by
  obtain ⟨v, _, h1⟩ := opA (o := o) hl gap_empty_ok (T := b!"not " ++ (g2.text ++ (b!"{" ++ X))) (stop_cons (by decide)) (rvFollow_cons (by decide))
  refine actF (h1 _ (seqF ?_))
  rw [G.notInOperator, run_choice]
  refine choice2 ?_ (choice2 (run_pushError ..) (by rw [choiceR]))
  unfold Fails
  rw [run_seq]
  exact seqA (tok_append (by decide) _ _) (gapSW hg2 (stop_cons (by decide)) (seqF (tokF (by decide) (by simp)))) _

/-- A gap that starts with a blank. -/
theorem gap_uncons_blank (hg : g.Ok) {X : Bytes} (h : (g.text ++ (b!"{" ++ X)).head? = some 32) : ∃ g2 : Gap, g2.Ok ∧ g.text = 32 :: g2.text := by
  obtain ⟨ls, tail⟩ := g
  cases ls with
  | nil =>
    cases tail with
    | nil => simp [Gap.text] at h
    | cons c t =>
      simp [Gap.text] at h; subst h
      have h2 := hg.2
      simp only [List.all_cons, Bool.and_eq_true] at h2
      exact ⟨⟨[], t⟩, ⟨by simp, h2.2⟩, by simp [Gap.text]⟩
  | cons l ls =>
    obtain ⟨ws, body, cr, lf⟩ := l
    cases ws with
    | nil => simp [Gap.text, CommentLine.text] at h
    | cons c ws =>
      simp [Gap.text, CommentLine.text] at h; subst h
      have h1 := hg.1
      refine ⟨⟨⟨ws, body, cr, lf⟩ :: ls, tail⟩, ⟨?_, hg.2⟩, by simp [Gap.text, CommentLine.text]⟩
      simp only [List.mem_cons, forall_eq_or_imp] at h1 ⊢
      obtain ⟨⟨⟨h2, h3⟩, h4⟩, h5⟩ := h1
      simp only [List.all_cons, Bool.and_eq_true] at h2
      exact ⟨⟨⟨h2.2, h3⟩, h4⟩, h5⟩

/-- An operand that is not followed by an operator. -/
theorem rval_alone {r : CRval} {X : Bytes} (hr : r.Ok) (hX : RvFollow X) (h1 : Fails o G.inExpression (r.text ++ X))
    (h2 : Fails o G.notInExpression (r.text ++ X)) (h3 : Fails o G.compareExpression (r.text ++ X)) (h4 : Fails o G.regexpExpression (r.text ++ X)) :
    Runs o G.expression ((CExpr.rval r).text ++ X) (.expr ((CExpr.rval r).ast o.ignoreComments .noOp)) X := by
  simp only [CExpr.text]
  obtain ⟨v, k1, k2⟩ := rvalue_complete (o := o) hr hX
  refine expr_skip hr fun _ => choice2 (refF h1) (choice2 (refF h2) (choice2 (refF h3) (choice2 (refF h4)
    (choice1 ⟨[(.rv, v)], action_ok.2 ⟨v, labA (refA k1), ?_⟩⟩))))
  simp only [runAct, Frame.get, if_true, k2]
  rfl

theorem nameChar_cmp : ∀ c : UInt8, isNameChar c = true ∨ c = 123 → c ≠ 61 ∧ c ≠ 33 ∧ c ≠ 60 ∧ c ≠ 62 := by decide +kernel

/-- A numeric expression at the beginning, or `expression` fails. -/
theorem ex_tri (o : Opts) (hg : g.Ok) {r : Bytes} (hr : r.all isNameChar = true) :
    Fails o G.expression (tl g Y r) ∨
    (∃ (e : NumExpr) (x : Bytes), (∀ n ∈ e.nums, NumTok n) ∧ r = e.text ++ x ∧ NoDigit x ∧ ∃ n ∈ e.nums, parseFloat n = none) ∨
    ∃ (e : NumExpr) (x : Bytes), (∀ n ∈ e.nums, NumOk n) ∧ r = e.text ++ x ∧ NoDigit x ∧
      Runs o G.expression (e.toC.text ++ (x ++ (g.text ++ (b!"{" ++ Y)))) (.expr (e.toC.ast o.ignoreComments .noOp)) (x ++ (g.text ++ (b!"{" ++ Y))) := by
  rcases rv_tri o hg hr with h | ⟨n, x, hn, rfl, hx⟩
  · exact .inl (tl_expr_fail hr h)
  right
  rw [List.all_append, Bool.and_eq_true] at hr
  have hrx := hr.2
  cases hp : parseFloat n with
  | none => exact .inl ⟨⟨n, none⟩, x, by simpa [NumExpr.nums] using hn, by simp [NumExpr.text], hx, n, by simp [NumExpr.nums], hp⟩
  | some f =>
    have hok : (CRval.num n).Ok := ⟨hn, by rw [hp]; rfl⟩
    have hf := rvFollow_tl (g := g) (Y := Y) hrx hx
    have hs := tl_stop (g := g) (Y := Y) hrx
    have hZ := rvFollow_name (g := g) (Y := Y) hg hrx hx
    have hc : Fails o G.compareExpression (n ++ (x ++ (g.text ++ (b!"{" ++ Y)))) ∧ Fails o G.regexpExpression (n ++ (x ++ (g.text ++ (b!"{" ++ Y)))) := by
      have hh : ∀ c, (tl g Y x).head? = some c → c ≠ 61 ∧ c ≠ 33 ∧ c ≠ 60 ∧ c ≠ 62 := fun c hc => nameChar_cmp c (tl_head hrx hc)
      have e1 : ¬ b!"==" <+: tl g Y x := not_prefix_of_head rfl fun h => (hh _ h).1 rfl
      have e2 : ¬ b!"!=" <+: tl g Y x := not_prefix_of_head rfl fun h => (hh _ h).2.1 rfl
      have e3 : ¬ b!"=~" <+: tl g Y x := not_prefix_of_head rfl fun h => (hh _ h).1 rfl
      have e4 : ¬ b!"!~" <+: tl g Y x := not_prefix_of_head rfl fun h => (hh _ h).2.1 rfl
      rw [gp_tl]
      exact ⟨cmp_fail hok (gp_ok hg x) hs hf (fails_cmpOp e1 e2 (fun h => (hh _ h).2.2.1 rfl) fun h => (hh _ h).2.2.2 rfl),
        re_fail hok (gp_ok hg x) hs hf (fails_reOp.2 ⟨e3, e4⟩)⟩
    have alone : Fails o G.inExpression (n ++ (x ++ (g.text ++ (b!"{" ++ Y)))) → Fails o G.notInExpression (n ++ (x ++ (g.text ++ (b!"{" ++ Y)))) →
        ∃ (e : NumExpr) (y : Bytes), (∀ n ∈ e.nums, NumOk n) ∧ n ++ x = e.text ++ y ∧ NoDigit y ∧
          Runs o G.expression (e.toC.text ++ (y ++ (g.text ++ (b!"{" ++ Y)))) (.expr (e.toC.ast o.ignoreComments .noOp)) (y ++ (g.text ++ (b!"{" ++ Y))) := by
      intro h1 h2
      exact ⟨⟨n, none⟩, x, by simpa [NumExpr.nums] using (show NumOk n from hok), by simp [NumExpr.text], hx, rval_alone hok hZ h1 h2 hc.1 hc.2⟩
    by_cases hin : b!"in" <+: tl g Y x
    · obtain ⟨y, rfl⟩ := tl_prefix hg (by decide) (by simp) hin
      have hnot : Fails o G.notInExpression (n ++ (b!"in" ++ y ++ (g.text ++ (b!"{" ++ Y)))) := by
        rw [gp_tl]
        refine notIn_fail hok (gp_ok hg _) hs hf (not_prefix_of_head rfl ?_)
        simp [tl]
      rw [List.all_append, Bool.and_eq_true] at hrx
      rcases rv_tri (Y := Y) o hg hrx.2 with h | ⟨m, z, hm, rfl, hz⟩
      · refine .inr (alone ?_ hnot)
        have := in_fail2 hok (gp_ok hg y) (tl_stop hrx.2) h
        rw [← gp_tl] at this
        simpa [CRval.text] using this
      · cases hpm : parseFloat m with
        | none => exact .inl ⟨⟨n, some m⟩, z, by simpa [NumExpr.nums] using ⟨hn, hm⟩, by simp [NumExpr.text], hz, m, by simp [NumExpr.nums], hpm⟩
        | some f' =>
          have hmok : (CRval.num m).Ok := ⟨hm, by rw [hpm]; rfl⟩
          rw [List.all_append, Bool.and_eq_true] at hrx
          exact .inr ⟨⟨n, some m⟩, z, by simpa [NumExpr.nums] using (show NumOk n ∧ NumOk m from ⟨hok, hmok⟩), by simp [NumExpr.text], hz,
            in_complete hok gap_empty_ok gap_empty_ok hmok (rvFollow_name hg hrx.2.2 hz)⟩
    · have h1 : Fails o G.inExpression (n ++ (x ++ (g.text ++ (b!"{" ++ Y)))) := by
        rw [gp_tl]; exact in_fail hok (gp_ok hg x) hs hf hin
      refine .inr (alone h1 ?_)
      by_cases hnot : b!"not " <+: tl g Y x
      · have hpx : b!"not" <+: tl g Y x := by
          obtain ⟨t, ht⟩ := hnot
          exact ⟨32 :: t, by rw [← ht]; rfl⟩
        obtain ⟨y, rfl⟩ := tl_prefix hg (by decide) (by simp) hpx
        rw [tl_ne (by simp)] at hnot
        obtain ⟨t, ht⟩ := hnot
        simp only [List.cons_append, List.nil_append, List.cons.injEq, true_and] at ht
        rw [List.all_append, Bool.and_eq_true] at hrx
        cases y with
        | cons c y =>
          simp at ht; rw [← ht.1] at hrx; simp at hrx
          exact absurd hrx.2.1 (by decide)
        | nil =>
          rw [List.nil_append] at ht
          obtain ⟨g2, k1, k2⟩ := gap_uncons_blank hg (X := Y) (by show (g.text ++ 123 :: Y).head? = _; rw [← ht]; rfl)
          have := notIn_fail2 (o := o) hok k1 (X := Y)
          rw [k2]
          simpa [CRval.text] using this
      · rw [gp_tl]; exact notIn_fail hok (gp_ok hg x) hs hf hnot

theorem boolText_name : ∀ op : BoolOpKind, (boolText op).all isNameChar = true := by intro op; cases op <;> decide
theorem boolText_ne' {op : BoolOpKind} (h : op ≠ .undefined ∧ op ≠ .noOp) : boolText op ≠ [] := by
  cases op <;> simp_all [boolText]

theorem boolOp_cases {b : Bytes} (h : ¬ Fails o G.booleanOperator b) : ∃ op, (op ≠ BoolOpKind.undefined ∧ op ≠ .noOp) ∧ boolText op <+: b := by
  rw [fails_boolOp] at h
  refine Classical.byContradiction fun h2 => h ⟨?_, ?_, ?_, ?_⟩ <;> intro h3 <;> apply h2
  · exact ⟨.and, by simp, h3⟩
  · exact ⟨.or, by simp, h3⟩
  · exact ⟨.xor, by simp, h3⟩
  · exact ⟨.nand, by simp, h3⟩

/-- Further numeric expressions. -/
theorem more_tri (o : Opts) (hg : g.Ok) : ∀ (n : Nat) (r : Bytes), r.length ≤ n → r.all isNameChar = true → NoDigit r →
    (∃ (ms : List (BoolOpKind × NumExpr)) (x : Bytes), (∀ m ∈ ms, m.1 ≠ .undefined ∧ m.1 ≠ .noOp) ∧
      (∀ n ∈ ms.flatMap fun m => m.2.nums, NumTok n) ∧ r = (ms.flatMap fun m => boolText m.1 ++ m.2.text) ++ x ∧ NoDigit x ∧
      ∃ n ∈ ms.flatMap fun m => m.2.nums, parseFloat n = none) ∨
    ∃ (ms : List (BoolOpKind × NumExpr)) (x : Bytes), (∀ m ∈ ms, m.1 ≠ .undefined ∧ m.1 ≠ .noOp) ∧
      (∀ n ∈ ms.flatMap fun m => m.2.nums, NumOk n) ∧ r = (ms.flatMap fun m => boolText m.1 ++ m.2.text) ++ x ∧ NoDigit x ∧
      (∃ es : List Expr, Steps o moreEx (r ++ (g.text ++ (b!"{" ++ Y))) (es.map Val.expr) (x ++ (g.text ++ (b!"{" ++ Y)))) ∧
      Fails o moreEx (x ++ (g.text ++ (b!"{" ++ Y))) := by
  intro n
  induction n with
  | zero =>
    intro r hn _ _
    have : r = [] := List.length_eq_zero_iff.1 (by omega)
    subst this
    exact .inr ⟨[], [], by simp, by simp, by simp, by intro d hd; simp at hd, ⟨[], .nil _⟩, more_fail (condFollow_brace hg Y)⟩
  | succ n ih =>
    intro r hn hr hd
    have stop : Fails o moreEx (r ++ (g.text ++ (b!"{" ++ Y))) → _ := fun h => Or.inr (a := ∃ (ms : List (BoolOpKind × NumExpr)) (x : Bytes), (∀ m ∈ ms, m.1 ≠ .undefined ∧ m.1 ≠ .noOp) ∧
      (∀ n ∈ ms.flatMap fun m => m.2.nums, NumTok n) ∧ r = (ms.flatMap fun m => boolText m.1 ++ m.2.text) ++ x ∧ NoDigit x ∧
      ∃ n ∈ ms.flatMap fun m => m.2.nums, parseFloat n = none)
      (b := ∃ (ms : List (BoolOpKind × NumExpr)) (x : Bytes), (∀ m ∈ ms, m.1 ≠ .undefined ∧ m.1 ≠ .noOp) ∧
      (∀ n ∈ ms.flatMap fun m => m.2.nums, NumOk n) ∧ r = (ms.flatMap fun m => boolText m.1 ++ m.2.text) ++ x ∧ NoDigit x ∧
      (∃ es : List Expr, Steps o moreEx (r ++ (g.text ++ (b!"{" ++ Y))) (es.map Val.expr) (x ++ (g.text ++ (b!"{" ++ Y)))) ∧
      Fails o moreEx (x ++ (g.text ++ (b!"{" ++ Y))))
      ⟨[], r, by simp, by simp, by simp, hd, ⟨[], .nil _⟩, h⟩
    by_cases hb : Fails o G.booleanOperator (tl g Y r)
    · refine stop ?_
      rw [gp_tl]
      exact actF (gapSW (gp_ok hg r) (tl_stop hr) (seqF (labeled_fail.2 hb)))
    obtain ⟨op, hop, hp⟩ := boolOp_cases hb
    obtain ⟨y, rfl⟩ := tl_prefix hg (boolText_name op) (boolText_ne' hop) hp
    rw [List.all_append, Bool.and_eq_true] at hr
    rcases ex_tri (Y := Y) o hg hr.2 with h | ⟨e, x, h1, rfl, h2, h3⟩ | ⟨e, x, h1, rfl, h2, h3⟩
    · refine stop ?_
      rw [List.append_assoc, gp_tl y]
      exact actF (gapSW (g := .empty) gap_empty_ok (boolOp_stop hop _) (seqA (labA (runs_boolOp.2 ⟨op, hop, rfl, rfl⟩))
        (gapSW (gp_ok hg y) (tl_stop hr.2) (seqF (labeled_fail.2 (refF h))))))
    · refine .inl ⟨[(op, e)], x, by simpa using hop, by simpa using h1, by simp, h2, by simpa using h3⟩
    · rw [List.all_append, Bool.and_eq_true] at hr
      have hlen : x.length ≤ n := by
        have : 0 < (boolText op).length := List.length_pos_iff.2 (boolText_ne' hop)
        simp only [List.length_append] at hn; omega
      rcases ih x hlen hr.2.2 h2 with ⟨ms, z, k1, k2, rfl, k4, k5⟩ | ⟨ms, z, k1, k2, rfl, k4, ⟨es, k5⟩, k6⟩
      · refine .inl ⟨(op, e) :: ms, z, List.forall_mem_cons.2 ⟨hop, k1⟩, ?_, by simp, k4, ?_⟩
        · simp only [List.flatMap_cons, List.mem_append]
          rintro n (hn | hn)
          · exact (h1 n hn).1
          · exact k2 n hn
        · obtain ⟨n, hn, hq⟩ := k5
          exact ⟨n, by simp only [List.flatMap_cons, List.mem_append]; exact .inr hn, hq⟩
      · refine .inr ⟨(op, e) :: ms, z, List.forall_mem_cons.2 ⟨hop, k1⟩, ?_, by simp, k4, ⟨e.toC.ast o.ignoreComments op :: es, ?_⟩, k6⟩
        · simp only [List.flatMap_cons, List.mem_append]
          rintro n (hn | hn)
          · exact h1 n hn
          · exact k2 n hn
        · have := more_complete (o := o) (g1 := .empty) (g2 := .empty) (op := op) (e := e.toC)
            ⟨gap_empty_ok, hop, gap_empty_ok, toC_ok h1, trivial⟩ h3
          have e1 : moreText [.mk .empty op .empty e.toC] = boolText op ++ e.text := by
            simp [moreText, toC_text, Gap.text, Gap.empty]
          rw [e1] at this
          rw [← List.append_assoc (boolText op), List.append_assoc (boolText op ++ e.text)]
          exact .cons this k5

/-- After `if` (as part of a name) there is no condition and an opening brace, unless the name can be taken for the
beginning of a branch. -/
theorem afterIf_fail {r : Bytes} {es : List Ex} {fr : Frame} (hr : r.all isNameChar = true)
    (hn : ¬ IfLike (b!"if" ++ r)) {g : Gap} (hg : g.Ok) (Y : Bytes) :
    SeqP o IsFail (G.gapS :: G.warn :: .labeled .cond (.ref .condition) :: G.gapS :: G.warn :: .lit b!"{" :: es) (r ++ (g.text ++ (b!"{" ++ Y))) fr := by
  rw [gp_tl]
  refine gapSW (gp_ok hg r) (tl_stop hr) ?_
  rcases ex_tri (Y := Y) o hg hr with h | ⟨e, x, h1, rfl, h2, h3⟩ | ⟨e, x, h1, rfl, h2, h3⟩
  · exact seqF (labeled_fail.2 (refF (actF (seqF (labeled_fail.2 (refF h))))))
  · refine absurd ⟨⟨e, []⟩, x, ⟨by simpa [NumCond.nums] using h1, by simp⟩, by simp [NumCond.text], h2, .inr ?_⟩ hn
    simpa [NumCond.nums] using h3
  rw [List.all_append, Bool.and_eq_true] at hr
  rcases more_tri (Y := Y) o hg x.length x (Nat.le_refl _) hr.2 h2 with ⟨ms, z, k1, k2, rfl, k4, k5⟩ | ⟨ms, z, k1, k2, rfl, k4, ⟨es', k5⟩, k6⟩
  · refine absurd ⟨⟨e, ms⟩, z, ⟨?_, k1⟩, by simp [NumCond.text], k4, .inr ?_⟩ hn
    · simp only [NumCond.nums, List.mem_append]
      rintro n (hn | hn)
      · exact (h1 n hn).1
      · exact k2 n hn
    · obtain ⟨n, hn, hq⟩ := k5
      exact ⟨n, by simp only [NumCond.nums, List.mem_append]; exact .inr hn, hq⟩
  have hne : e.text ++ ((ms.flatMap fun m => boolText m.1 ++ m.2.text) ++ z) ≠ [] := by
    obtain ⟨c, r, q1, -⟩ := numTok_head (h1 e.l (by simp [NumExpr.nums])).1
    simp [NumExpr.text, q1]
  rw [tl_ne hne, List.append_assoc]
  rw [toC_text] at h3
  have hrun : Runs o G.condition (e.text ++ ((ms.flatMap fun m => boolText m.1 ++ m.2.text) ++ z ++ (g.text ++ (b!"{" ++ Y))))
      (.cond (e.toC.ast o.ignoreComments .noOp :: es')) (z ++ (g.text ++ (b!"{" ++ Y))) := by
    refine actA _ (seqA (labA (refA h3)) (seqA (labA ⟨[], star_of_steps _ k5 k6⟩) seqEnd)) ?_
    simp only [runAct, Frame.get, if_true, reduceCtorEq, if_false, toIfaceSlice]
    rw [show ∀ (x : Expr) (l : List Expr), [Val.expr x] ++ l.map Val.expr = (x :: l).map Val.expr from fun _ _ => rfl,
        collectExprs_expr]
  refine seqA (labA (refA hrun)) ?_
  rw [List.all_append, Bool.and_eq_true] at hr
  rw [gp_tl]
  refine gapSW (gp_ok hg z) (tl_stop hr.2.2) (seqF (tokF (by decide) ?_))
  cases z with
  | nil =>
    refine absurd ⟨⟨e, ms⟩, [], ⟨?_, k1⟩, by simp [NumCond.text], k4, .inl rfl⟩ hn
    simp only [NumCond.nums, List.mem_append]
    rintro n (hn | hn)
    · exact (h1 n hn).1
    · exact (k2 n hn).1
  | cons c z =>
    rw [tl_cons]
    have : isNameChar c = true := by
      have := hr.2.2
      rw [List.all_cons, Bool.and_eq_true] at this; exact this.1
    simpa using nameChar_brace c this

end
end
end Verif
