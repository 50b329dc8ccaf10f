import Verif.Proofs.PegErase
/-
The erased grammar agrees with the changed version of grammar.treetop.
-/
namespace Verif.Tt
open Spec.Treetop
open Spec.Treetop.PEx (lit cls any seq alt star plus opt not ref)

/-- `e'` has the outcomes of `e`. -/
def Imp (e e' : PEx TRule) : Prop := ∀ s x, Matches changed e s x → Matches changed e' s x

namespace Imp
variable {a a' b b' c : PEx TRule}

theorem refl (e : PEx TRule) : Imp e e := fun _ _ h => h

theorem trans (h1 : Imp a b) (h2 : Imp b c) : Imp a c := fun s x h => h2 s x (h1 s x h)

theorem seq (h1 : Imp a a') (h2 : Imp b b') : Imp (.seq a b) (.seq a' b') := by
  intro s x h
  cases h with
  | seq h3 h4 => exact .seq (h1 _ _ h3) (h2 _ _ h4)
  | seqFail h3 => exact .seqFail (h1 _ _ h3)

theorem alt (h1 : Imp a a') (h2 : Imp b b') : Imp (.alt a b) (.alt a' b') := by
  intro s x h
  cases h with
  | altFirst h3 => exact .altFirst (h1 _ _ h3)
  | altSecond h3 h4 => exact .altSecond (h1 _ _ h3) (h2 _ _ h4)

theorem star (h1 : Imp a a') : Imp (.star a) (.star a') := by
  intro s x h
  generalize he : PEx.star a = e at h
  induction h with
  | starEnd h => cases he; exact .starEnd (h1 _ _ h)
  | starMore h _ _ ih => cases he; exact .starMore (h1 _ _ h) (ih rfl)
  | _ => cases he

theorem plus (h1 : Imp a a') : Imp (.plus a) (.plus a') := by
  intro s x h
  cases h with
  | plus h3 h4 => exact .plus (h1 _ _ h3) (star h1 _ _ h4)
  | plusFail h3 => exact .plusFail (h1 _ _ h3)

theorem opt (h1 : Imp a a') : Imp (.opt a) (.opt a') := by
  intro s x h
  cases h with
  | opt h3 => exact .opt (h1 _ _ h3)
  | optNone h3 => exact .optNone (h1 _ _ h3)

theorem not (h1 : Imp a a') : Imp (.not a) (.not a') := by
  intro s x h
  cases h with
  | not h3 => exact .not (h1 _ _ h3)
  | notFail h3 => exact .notFail (h1 _ _ h3)

theorem ref (r : TRule) : Imp (changed r) (.ref r) := fun _ _ h => .ref h

theorem assoc : Imp (.seq (.seq a b) c) (.seq a (.seq b c)) := by
  intro s x h
  cases h with
  | seq h3 h4 => cases h3 with
    | seq h5 h6 => exact .seq h5 (.seq h6 h4)
  | seqFail h3 => cases h3 with
    | seq h5 h6 => exact .seq h5 (.seqFail h6)
    | seqFail h5 => exact .seqFail h5

end Imp

/-! ### Unfolding the rules that the optimiser has put in place -/

/-- Put expressions in the place of rules. -/
def subst (f : TRule → PEx TRule) : PEx TRule → PEx TRule
  | .seq a b => .seq (subst f a) (subst f b)
  | .alt a b => .alt (subst f a) (subst f b)
  | .star a => .star (subst f a)
  | .plus a => .plus (subst f a)
  | .opt a => .opt (subst f a)
  | .not a => .not (subst f a)
  | .ref r => f r
  | e => e

/-- The rules without recursion. -/
def leafRule : TRule → Bool
  | .comment | .gap | .whitespace | .pluginType | .name | .bareword | .doubleQuotedString
  | .singleQuotedString | .string | .regexp | .number | .inOperator | .notInOperator
  | .regexpOperator | .booleanOperator | .selector | .selectorElement | .compareOperator => true
  | _ => false

/-- Unfold the rules without recursion. -/
def unf : Nat → PEx TRule → PEx TRule
  | 0 => id
  | k + 1 => subst fun r => if leafRule r then unf k (changed r) else .ref r

theorem subst_imp {f : TRule → PEx TRule} (h : ∀ r, Imp (f r) (.ref r)) (e : PEx TRule) :
    Imp (subst f e) e := by
  induction e with
  | seq a b ih1 ih2 => exact .seq ih1 ih2
  | alt a b ih1 ih2 => exact .alt ih1 ih2
  | star a ih => exact .star ih
  | plus a ih => exact .plus ih
  | opt a ih => exact .opt ih
  | not a ih => exact .not ih
  | ref r => exact h r
  | _ => exact .refl _

theorem unf_imp (k : Nat) (e : PEx TRule) : Imp (unf k e) e := by
  induction k generalizing e with
  | zero => exact .refl e
  | succ k ih =>
    refine subst_imp (fun r => ?_) e
    split
    · exact (ih _).trans (.ref r)
    · exact .refl _

theorem imp_subst {f : TRule → PEx TRule} (h : ∀ r, Imp (.ref r) (f r)) (e : PEx TRule) :
    Imp e (subst f e) := by
  induction e with
  | seq a b ih1 ih2 => exact .seq ih1 ih2
  | alt a b ih1 ih2 => exact .alt ih1 ih2
  | star a ih => exact .star ih
  | plus a ih => exact .plus ih
  | opt a ih => exact .opt ih
  | not a ih => exact .not ih
  | ref r => exact h r
  | _ => exact .refl _

theorem imp_unf (k : Nat) (e : PEx TRule) : Imp e (unf k e) := by
  induction k generalizing e with
  | zero => exact .refl e
  | succ k ih =>
    refine imp_subst (fun r => ?_) e
    split
    · intro s x h
      cases h with
      | ref h => exact ih _ _ _ h
    · exact .refl _

/-! ### The rules of the two grammars -/

open TRule in
/-- The expression over the changed grammar that corresponds to a rule. -/
def tr : Rule → PEx TRule
  | .init => (.ref config ;; .not .any) // (g ;; .not .any)
  | .config => .ref config ;; .not .any
  | .pluginSection => .ref pluginSection
  | .branchOrPlugin => g ;; .ref branchOrPlugin
  | .plugin => g ;; .ref plugin
  | .attribute => .ref attr
  | .value => (g ;; .ref plugin) // .ref bareword // .ref string // .ref number // .ref array // .ref hash
  | .array => .ref array
  | .hash => .ref hash
  | .hashentries => g ;; .ref hashentries
  | .hashentry => g ;; .ref hashentry
  | .branch => g ;; .ref branch
  | .ifCond => .ref ifBlock
  | .elseIf => .ref elseIf
  | .elseCond => .ref elseBlock
  | .condition => .ref condition
  | .expression => .ref expression
  | .negativeExpression => .ref negativeExpression
  | .inExpression => .ref inExpression
  | .notInExpression => .ref notInExpression
  | .rvalue => .ref rvalue
  | .compareExpression => .ref compareExpression
  | .regexpExpression => .ref regexpExpression

/-- Translation of expressions over the rules of the parser. -/
def trans : PEx Rule → PEx TRule
  | .lit s => .lit s
  | .cls n cs rs => .cls n cs rs
  | .any => .any
  | .seq a b => .seq (trans a) (trans b)
  | .alt a b => .alt (trans a) (trans b)
  | .star a => .star (trans a)
  | .plus a => .plus (trans a)
  | .opt a => .opt (trans a)
  | .not a => .not (trans a)
  | .ref r => unf 4 (tr r)

open TRule in
/-- The rules of the parser, with the names of the rules of grammar.treetop. -/
def mid : Rule → PEx TRule
  | .init => .lit [] ;; (((tr .config ;; .not .any) // (g ;; .not .any)))
  | .config => g ;; tr .pluginSection ;; .star (g ;; tr .pluginSection) ;; g ;; .not .any
  | .pluginSection => .ref pluginType ;; g ;; tok c!"{" ;; .star (tr .branchOrPlugin) ;; g ;; tok c!"}"
  | .branchOrPlugin => tr .branch // tr .plugin
  | .plugin => g ;; .ref name ;; g ;; tok c!"{" ;;
      .opt (g ;; tr .attribute ;; .star (.ref whitespace ;; g ;; tr .attribute)) ;; g ;; tok c!"}"
  | .attribute => .ref name ;; g ;; tok c!"=>" ;; g ;; tr .value
  | .value => tr .plugin // .ref bareword // .ref string // .ref number // tr .array // tr .hash
  | .array => tok c!"[" ;; .opt (g ;; tr .value ;; .star (g ;; tok c!"," ;; g ;; tr .value)) ;; g ;;
      tok c!"]"
  | .hash => tok c!"{" ;; .opt (tr .hashentries) ;; g ;; tok c!"}"
  | .hashentries => tr .hashentry ;; .star (.ref whitespace ;; tr .hashentry)
  | .hashentry => g ;; (.ref number // .ref bareword // .ref string) ;; g ;; tok c!"=>" ;; g ;; tr .value
  | .branch => g ;; tr .ifCond ;; .star (g ;; tr .elseIf) ;; .opt (g ;; tr .elseCond)
  | .ifCond => tok c!"if" ;; g ;; tr .condition ;; g ;; tok c!"{" ;;
      .star (g ;; tr .branchOrPlugin) ;; g ;; tok c!"}"
  | .elseIf => tok c!"else" ;; g ;; tok c!"if" ;; g ;; tr .condition ;; g ;; tok c!"{" ;;
      .star (g ;; tr .branchOrPlugin) ;; g ;; tok c!"}"
  | .elseCond => tok c!"else" ;; g ;; tok c!"{" ;; .star (g ;; tr .branchOrPlugin) ;; g ;; tok c!"}"
  | .condition => tr .expression ;; .star (g ;; .ref booleanOperator ;; g ;; tr .expression)
  | .expression => (tok c!"(" ;; g ;; tr .condition ;; g ;; tok c!")") // tr .negativeExpression //
      tr .inExpression // tr .notInExpression // tr .compareExpression // tr .regexpExpression //
      tr .rvalue
  | .negativeExpression => (tok c!"!" ;; g ;; tok c!"(" ;; g ;; tr .condition ;; g ;; tok c!")") //
      (tok c!"!" ;; g ;; .ref selector)
  | .inExpression => tr .rvalue ;; g ;; .ref inOperator ;; g ;; tr .rvalue
  | .notInExpression => tr .rvalue ;; g ;; .ref notInOperator ;; g ;; tr .rvalue
  | .rvalue => .ref string // .ref number // .ref selector // tr .array // .ref regexp
  | .compareExpression => tr .rvalue ;; g ;;
      (tok c!"==" // tok c!"!=" // tok c!"<=" // tok c!">=" // .cls false ['<', '>'] []) ;; g ;; tr .rvalue
  | .regexpExpression => tr .rvalue ;; g ;; .ref regexpOperator ;; g ;; (.ref string // .ref regexp)

theorem plain_mid (r : Rule) : trans (plain r) = unf 4 (mid r) := by
  cases r <;> rfl

/-! ### Gaps -/

theorem star_not_fail {G : TRule → PEx TRule} {a : PEx TRule} {s : List Char} :
    ¬ Matches G (.star a) s none := by
  intro h
  generalize he : PEx.star a = e at h
  generalize hx : (none : Option (List Char)) = x at h
  induction h with
  | starEnd => cases hx
  | starMore _ _ _ ih => exact ih he hx
  | _ => cases he

theorem star_end {G : TRule → PEx TRule} {a : PEx TRule} {s t : List Char}
    (h : Matches G (.star a) s (some t)) : Matches G a t none := by
  generalize he : PEx.star a = e at h
  generalize hx : some t = x at h
  induction h with
  | starEnd h => cases he; cases hx; exact h
  | starMore _ _ _ ih => exact ih he hx
  | _ => cases he

theorem gap_not_fail {s : List Char} : ¬ Matches changed g s none := by
  intro h
  cases h with
  | ref h => exact star_not_fail h

/-- After a gap there is no further gap. -/
theorem gap_idem {s t : List Char} (h : Matches changed g s (some t)) :
    Matches changed g t (some t) := by
  cases h with
  | ref h => exact .ref (.starEnd (star_end h))

theorem gap_gap {s t u : List Char} (h1 : Matches changed g s (some t))
    (h2 : Matches changed g t (some u)) : u = t := by
  have := h2.det (gap_idem h1)
  simpa using this

/-- What follows a gap needs to be considered after a gap only. -/
theorem Imp.gapThen {a b : PEx TRule}
    (h : ∀ s x, Matches changed g s (some s) → Matches changed a s x → Matches changed b s x) :
    Imp (g ;; a) (g ;; b) := by
  intro s x hm
  cases hm with
  | seq h1 h2 => exact .seq h1 (h _ _ (gap_idem h1) h2)
  | seqFail h1 => exact absurd h1 gap_not_fail

theorem seq_gap {a : PEx TRule} {s : List Char} {x : Option (List Char)}
    (hs : Matches changed g s (some s)) (h : Matches changed (g ;; a) s x) : Matches changed a s x := by
  cases h with
  | seq h1 h2 =>
    have := h1.det hs
    simp only [Option.some.injEq] at this
    subst this
    exact h2
  | seqFail h1 => exact absurd h1 gap_not_fail

theorem Imp.gapGap {a : PEx TRule} : Imp (g ;; g ;; a) (g ;; a) :=
  .gapThen fun _ _ hs h => seq_gap hs h

/-- A gap before every item is the same as a gap after every item. -/
theorem star_gap {b c : PEx TRule} : Imp (.star (g ;; b) ;; g ;; c) (g ;; .star (b ;; g) ;; c) := by
  intro s x h
  cases h with
  | seqFail h1 => exact absurd h1 star_not_fail
  | seq h1 h2 =>
    rename_i t
    cases h2 with
    | seqFail h2 => exact absurd h2 gap_not_fail
    | seq h2 h3 =>
      rename_i u
      generalize he : PEx.star (g ;; b) = e at h1
      generalize hx : some t = y at h1
      have key : ∃ w, Matches changed g s (some w) ∧ Matches changed (.star (b ;; g)) w (some u) := by
        induction h1 with
        | @starEnd a s h1 =>
          cases he; cases hx
          refine ⟨u, h2, .starEnd ?_⟩
          cases h1 with
          | seq h4 h5 =>
            have := h4.det h2
            simp only [Option.some.injEq] at this
            subst this
            exact .seqFail h5
          | seqFail h4 => exact absurd h4 gap_not_fail
        | starMore h4 _ _ ih =>
          cases he
          obtain ⟨w, h5, h6⟩ := ih rfl hx
          cases h4 with
          | seq h7 h8 => exact ⟨_, h7, .starMore (.seq h8 h5) h6⟩
        | _ => cases he
      obtain ⟨w, h5, h6⟩ := key
      exact .seq h5 (.seq h6 h3)

/-- The gap before an optional part. -/
theorem opt_gap {b c : PEx TRule} : Imp (.opt (g ;; b) ;; g ;; c) (g ;; .opt b ;; g ;; c) := by
  intro s x h
  cases h with
  | seqFail h1 => cases h1
  | seq h1 h2 =>
    cases h1 with
    | opt h3 => cases h3 with
      | seq h4 h5 => exact .seq h4 (.seq (.opt h5) h2)
    | optNone h3 =>
      cases h3 with
      | seqFail h4 => exact absurd h4 gap_not_fail
      | seq h4 h5 =>
        cases h2 with
        | seqFail h2 => exact absurd h2 gap_not_fail
        | seq h6 h7 =>
          have := h6.det h4
          simp only [Option.some.injEq] at this
          subst this
          exact .seq h4 (.seq (.optNone h5) (.seq (gap_idem h4) h7))

theorem value_at {s : List Char} {x : Option (List Char)} (hs : Matches changed g s (some s))
    (h : Matches changed (tr .value) s x) : Matches changed (.ref .value) s x := by
  cases h with
  | altFirst h => exact .ref (.altFirst (seq_gap hs h))
  | altSecond h1 h => exact .ref (.altSecond (seq_gap hs h1) h)

theorem value_gap : Imp (g ;; tr .value) (g ;; .ref .value) :=
  .gapThen fun _ _ hs h => value_at hs h

/-- Sections: the gap after the first one is not needed. -/
theorem sections_gap {b c : PEx TRule} :
    Imp (.star (g ;; b) ;; g ;; c) (g ;; .star (g ;; b) ;; g ;; c) := by
  intro s x h
  cases h with
  | seqFail h1 => exact absurd h1 star_not_fail
  | seq h1 h2 =>
    cases h1 with
    | starEnd h3 =>
      cases h2 with
      | seqFail h2 => exact absurd h2 gap_not_fail
      | seq h4 h5 =>
        refine .seq h4 (.seq (.starEnd (.seq (gap_idem h4) ?_)) (.seq (gap_idem h4) h5))
        cases h3 with
        | seqFail h6 => exact absurd h6 gap_not_fail
        | seq h6 h7 =>
          have := h6.det h4
          simp only [Option.some.injEq] at this
          subst this
          exact h7
    | starMore h3 h4 =>
      cases h3 with
      | seq h5 h6 => exact .seq h5 (.seq (.starMore (.seq (gap_idem h5) h6) h4) h2)

/-- A choice of two rules after a gap. -/
theorem alt_gap {b c : PEx TRule} : Imp ((g ;; b) // (g ;; c)) (g ;; (b // c)) := by
  intro s x h
  cases h with
  | altFirst h => cases h with
    | seq h1 h2 => exact .seq h1 (.altFirst h2)
  | altSecond h1 h2 =>
    cases h2 with
    | seqFail h2 => exact absurd h2 gap_not_fail
    | seq h3 h4 =>
      refine .seq h3 (.altSecond ?_ h4)
      cases h1 with
      | seqFail h1 => exact absurd h1 gap_not_fail
      | seq h5 h6 =>
        have := h5.det h3
        simp only [Option.some.injEq] at this
        subst this
        exact h6

/-- Two tests for the end are one. -/
theorem eof_eof {a : PEx TRule} : Imp ((a ;; .not .any) ;; .not .any) (a ;; .not .any) := by
  intro s x h
  cases h with
  | seq h1 h2 =>
    cases h1 with
    | seq h3 h4 =>
      cases h4 with
      | not h5 => exact .seq h3 h2
  | seqFail h1 => exact h1

theorem end_assoc {a b c d e f : PEx TRule} :
    Imp (a ;; b ;; c ;; d ;; e ;; f) ((a ;; b ;; c ;; d ;; e) ;; f) := by
  intro s x h
  have key : ∀ {a b c : PEx TRule}, Imp (a ;; (b ;; c)) ((a ;; b) ;; c) := by
    intro a b c s x h
    cases h with
    | seqFail h => exact .seqFail (.seqFail h)
    | seq h1 h2 => cases h2 with
      | seqFail h2 => exact .seqFail (.seq h1 h2)
      | seq h2 h3 => exact .seq (.seq h1 h2) h3
  exact (((((Imp.refl _).seq (((Imp.refl _).seq (((Imp.refl _).seq (key)).trans key)).trans key)).trans
    key))) s x h

theorem compare_ops : Imp
    (tok c!"==" // tok c!"!=" // tok c!"<=" // tok c!">=" // .cls false ['<', '>'] [])
    (.ref .compareOperator) := by
  refine Imp.trans ?_ (.ref _)
  refine .alt (.refl _) (.alt (.refl _) (.alt (.refl _) (.alt (.refl _) ?_)))
  intro s x h
  cases h with
  | @cls _ _ _ c t hc =>
    have hc' : c = '<' ∨ c = '>' := by simpa [inClass] using hc
    rcases hc' with rfl | rfl
    · exact .altFirst (.lit (s := ['<']))
    · refine .altSecond (.litFail ?_) (.lit (s := ['>']))
      simp
  | @clsFail _ _ _ c t hc =>
    have hc' : c ≠ '<' ∧ c ≠ '>' := by simpa [inClass] using hc
    refine .altSecond (.litFail ?_) (.litFail ?_)
    · simpa using hc'.1.symm
    · simpa using hc'.2.symm
  | clsEnd => exact .altSecond (.litFail (by simp)) (.litFail (by simp))

theorem block_gap {c : PEx TRule} : Imp (.star (g ;; g ;; .ref .branchOrPlugin) ;; g ;; c)
    (g ;; .star (.ref .branchOrPlugin ;; g) ;; c) :=
  ((Imp.star .gapGap).seq (.refl _)).trans star_gap

/-- The two grammars have the same outcomes, rule by rule. -/
theorem mid_tr (r : Rule) : Imp (mid r) (tr r) := by
  have R : ∀ e, Imp e e := Imp.refl
  cases r with
  | init =>
    intro s x h
    cases h with
    | seqFail h => cases h; rename_i h; exact absurd (List.nil_prefix) h
    | seq h1 h2 =>
      generalize hl : ([] : List Char) = l at h1
      cases h1 with
      | @lit a =>
        subst hl
        exact Imp.alt eof_eof (R _) _ _ h2
  | config =>
    have h1 : Imp (mid .config) (g ;; .ref .pluginSection ;; g ;; .star (g ;; .ref .pluginSection) ;; g ;;
        .not .any) := (R _).seq ((R _).seq sections_gap)
    exact (h1.trans end_assoc).trans ((Imp.ref .config).seq (R _))
  | pluginSection =>
    exact ((R _).seq ((R _).seq ((R _).seq star_gap))).trans (.ref .pluginSection)
  | branchOrPlugin => exact alt_gap.trans ((R _).seq (.ref .branchOrPlugin))
  | plugin =>
    exact (R _).seq (((R _).seq ((R _).seq ((R _).seq opt_gap))).trans (.ref .plugin))
  | «attribute» =>
    exact ((R _).seq ((R _).seq ((R _).seq value_gap))).trans (.ref .attr)
  | value => exact R _
  | array =>
    have h1 : Imp (g ;; tr .value ;; .star (g ;; tok c!"," ;; g ;; tr .value))
        (g ;; .ref .value ;; .star (g ;; tok c!"," ;; g ;; .ref .value)) := by
      refine .gapThen fun s x hs h => ?_
      have h2 := Imp.star ((R g).seq ((R (tok c!",")).seq value_gap))
      cases h with
      | seq h3 h4 => exact .seq (value_at hs h3) (h2 _ _ h4)
      | seqFail h3 => exact .seqFail (value_at hs h3)
    exact ((R _).seq (((h1.opt).seq (R _)).trans opt_gap)).trans (.ref .array)
  | hash => exact ((R _).seq opt_gap).trans (.ref .hash)
  | hashentries => exact Imp.assoc.trans ((R _).seq (.ref .hashentries))
  | hashentry =>
    exact (R _).seq (((R _).seq ((R _).seq ((R _).seq value_gap))).trans (.ref .hashentry))
  | branch => exact (R _).seq (.ref .branch)
  | ifCond =>
    exact ((R _).seq ((R _).seq ((R _).seq ((R _).seq ((R _).seq block_gap))))).trans (.ref .ifBlock)
  | elseIf =>
    exact ((R _).seq ((R _).seq ((R _).seq ((R _).seq ((R _).seq ((R _).seq ((R _).seq block_gap))))))).trans
      (.ref .elseIf)
  | elseCond => exact ((R _).seq ((R _).seq ((R _).seq block_gap))).trans (.ref .elseBlock)
  | condition => exact .ref .condition
  | expression => exact .ref .expression
  | negativeExpression => exact .ref .negativeExpression
  | inExpression => exact .ref .inExpression
  | notInExpression => exact .ref .notInExpression
  | rvalue => exact .ref .rvalue
  | compareExpression =>
    exact ((R _).seq ((R _).seq (compare_ops.seq (R _)))).trans (.ref .compareExpression)
  | regexpExpression => exact .ref .regexpExpression

theorem plain_changed {e : PEx Rule} {s : List Char} {x : Option (List Char)}
    (h : Matches plain e s x) : Matches changed (trans e) s x := by
  induction h with
  | lit => exact .lit
  | litFail h => exact .litFail h
  | cls h => exact .cls h
  | clsFail h => exact .clsFail h
  | clsEnd => exact .clsEnd
  | any => exact .any
  | anyEnd => exact .anyEnd
  | seq _ _ h1 h2 => exact .seq h1 h2
  | seqFail _ h => exact .seqFail h
  | altFirst _ h => exact .altFirst h
  | altSecond _ _ h1 h2 => exact .altSecond h1 h2
  | starEnd _ h => exact .starEnd h
  | starMore _ _ h1 h2 => exact .starMore h1 h2
  | plus _ _ h1 h2 => exact .plus h1 h2
  | plusFail _ h => exact .plusFail h
  | opt _ h => exact .opt h
  | optNone _ h => exact .optNone h
  | not _ h => exact .not h
  | notFail _ h => exact .notFail h
  | ref _ h =>
    rw [plain_mid] at h
    exact imp_unf 4 _ _ _ (mid_tr _ _ _ (unf_imp 4 _ _ _ h))

end Verif.Tt
