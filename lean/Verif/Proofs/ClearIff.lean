import Verif.Proofs.CompleteBlock
/-
Plugins that are taken for branches: the converse of `ifCond_fail_plugin` and `branchEnd_plugin`.
-/
namespace Verif
open Spec

section
variable {o : Opts}

/-- Not a failure: a value or an error. -/
def NotFail (r : Res) : Prop := r ≠ .fail

theorem SeqP.mono {P Q : Res → Prop} (h : ∀ r, P r → Q r) {es : List Ex} {b : Bytes} {fr : Frame} (h2 : SeqP o P es b fr) : SeqP o Q es b fr :=
  fun acc => h _ (h2 acc)

theorem seqN_nil {b : Bytes} {fr : Frame} : SeqP o NotFail [] b fr := by intro acc; rw [seqR]; simp [NotFail]
theorem seqN {e : Ex} {es : List Ex} {b : Bytes} {fr : Frame} (h : run o e b fr ≠ .fail) (h2 : ∀ b1 fr1, SeqP o NotFail es b1 fr1) :
    SeqP o NotFail (e :: es) b fr := by
  intro acc; rw [seqR]
  cases hr : run o e b fr with
  | ok v b1 fr1 => exact h2 _ _ _
  | fail => exact absurd hr h
  | _ => simp [NotFail]
theorem labN {l : Lbl} {e : Ex} {b : Bytes} {fr : Frame} (h : ¬ Fails o e b) : run o (.labeled l e) b fr ≠ .fail :=
  fun h2 => h (labeled_fail.1 h2)
theorem actN {a : Act} {es : List Ex} {b : Bytes} (h : SeqP o NotFail es b []) : ¬ Fails o (.action a (.seq es)) b := by
  intro h2
  have h3 := action_fail.1 h2
  rw [run_seq] at h3
  exact h [] h3
theorem refN {r : Rule} {b : Bytes} (h : ¬ Fails o (gram r) b) : ¬ Fails o (.ref r) b := by
  intro h2
  refine h ?_
  unfold Fails at *
  rw [run_ref] at h2
  split at h2 <;> simp_all

theorem opt_never_fail {e : Ex} {b : Bytes} {fr : Frame} : run o (.opt e) b fr ≠ .fail := by
  rw [run_opt]
  split <;> simp_all

/-- Once the opening brace is read, a block does not fail. -/
theorem block_nofail {m : Bytes} (b : Bytes) (fr : Frame) :
    SeqP o NotFail [G.block, .labeled .footerComment G.gap, G.close b!"}" (.fatalError m)] b fr :=
  seqN (labN star_never_fail) fun _ _ => seqN (labN star_never_fail) fun _ _ => seqN close_fatal_fail fun _ _ => seqN_nil

theorem ifLike_head {t : Bytes} (h : IfLike t) : b!"if" <+: t := by
  obtain ⟨c, r, _, rfl, _⟩ := h
  exact ⟨c.text ++ r, by simp⟩

theorem numCond_ne {c : NumCond} (h : c.Ok) : c.text ≠ [] := by
  obtain ⟨d, r, h1, -⟩ := numTok_head (h.1 c.first.l (by simp [NumCond.nums, NumExpr.nums]))
  simp [NumCond.text, NumExpr.text, h1]

/-- After `if` as part of a name that can be taken for the beginning of a branch. -/
theorem afterIf_nofail {r : Bytes} {m : Bytes} {fr : Frame} (hr : r.all isNameChar = true)
    (hn : IfLike (b!"if" ++ r)) {g : Gap} (hg : g.Ok) (Y : Bytes) :
    SeqP o NotFail [G.gapS, G.warn, .labeled .cond (.ref .condition), G.gapS, G.warn, .lit b!"{",
      G.block, .labeled .footerComment G.gap, G.close b!"}" (.fatalError m)] (r ++ (g.text ++ (b!"{" ++ Y))) fr := by
  obtain ⟨c, x, hc, he, hx, hor⟩ := hn
  rw [List.append_assoc] at he
  have he := List.append_cancel_left he
  subst he
  have hne : c.text ++ x ≠ [] := by simp [numCond_ne hc]
  rw [gp_tl]
  refine gapSW (gp_ok hg _) (tl_stop hr) ?_
  rw [tl_ne hne]
  rw [List.all_append, Bool.and_eq_true] at hr
  by_cases hu : ∃ n ∈ c.nums, parseFloat n = none
  · rw [List.append_assoc]
    refine (seqAb (labAb (refAb (condition_abort hc hu (rvFollow_name hg hr.2 hx).num)))).mono ?_
    rintro _ rfl
    simp [NotFail]
  · have hx' : x = [] := hor.resolve_right hu
    subst hx'
    have hok := cond_toC_ok hc fun n hn hp => hu ⟨n, hn, hp⟩
    rw [List.append_nil, ← cond_toC_text]
    exact seqA (labA (refA (condition_complete o _ hok _ (condFollow_brace hg Y)))) (gapTok hg (by decide) (by decide) (block_nofail _ _))

theorem name_of_prefix {n : StrLit} (h : n.Name) {tok r : Bytes} (ht : tok.all isNameChar = true) (hne : tok ≠ [])
    (hp : n.text = tok ++ r) : r.all isNameChar = true := by
  rcases name_cases h with ⟨h1, _⟩ | ⟨t, h1⟩ | ⟨t, h1⟩
  · rw [hp, List.all_append, Bool.and_eq_true] at h1
    exact h1.2
  all_goals
    cases tok with
    | nil => exact absurd rfl hne
    | cons c t' =>
      rw [h1] at hp
      simp only [List.cons_append, List.cons.injEq] at hp
      rw [← hp.1] at ht
      simp at ht
      exact absurd ht.1 (by decide)

/-- A plugin that is not taken for a branch. -/
theorem ifCond_fail_iff {p : CPlugin} (h : p.Ok) (X : Bytes) : Fails o G.ifCond (p.text ++ X) ↔ ¬ IfLike p.name := by
  refine ⟨fun hf hl => ?_, fun hc => ifCond_fail_plugin h hc X⟩
  obtain ⟨n, g, Y, hn, hg, he, ht⟩ := plugin_text p h
  rw [← he] at hl
  obtain ⟨r, h1⟩ := ifLike_head hl
  have hr := name_of_prefix hn (by decide) (by simp) h1.symm
  rw [ht, ← h1, List.append_assoc] at hf
  rw [← h1] at hl
  exact actN (seqA (tok_append (by decide) _ _) (afterIf_nofail hr hl hg _)) hf

/-- A plugin that is not taken for an else block. -/
theorem branchEnd_iff {g : Gap} (hg : g.Ok) {p : CPlugin} (h : p.Ok) (X : Bytes) :
    BranchEnd o (g.text ++ (p.text ++ X)) ↔ p.name ≠ b!"else" ∧ ∀ t, IfLike t → p.name ≠ b!"else" ++ t := by
  refine ⟨fun hf => ?_, fun hc => branchEnd_plugin hg h hc X⟩
  have hs := plugin_stop h X
  obtain ⟨n, g', Y, hn, hg', he, ht⟩ := plugin_text p h
  rw [ht] at hf hs
  rw [← he]
  refine ⟨fun h1 => ?_, fun t hl h1 => ?_⟩
  · rw [h1] at hf hs
    exact actN (seqA (labA (gapA hg hs)) (seqN (labN (refN (actN (seqA (tok_append (by decide) _ _)
      (gapTok hg' (by decide) (by decide) (block_nofail _ _)))))) fun _ _ => seqN_nil)) hf.2
  · have hr := name_of_prefix hn (by decide) (by simp) h1
    obtain ⟨r, h2⟩ := ifLike_head hl
    subst h2
    rw [h1, List.append_assoc, List.append_assoc] at hf hs
    rw [List.all_append, Bool.and_eq_true] at hr
    exact actN (seqA (labA (gapA hg hs)) (seqN (labN (refN (actN (seqA (tok_append (by decide) _ _)
      (gapTok gap_empty_ok (by decide) (by decide) (afterIf_nofail hr.2 hl hg' _)))))) fun _ _ => seqN_nil)) hf.1

end
end Verif
