import Verif.Proofs.Run
/-
`Parse` in terms of `run`.
-/
namespace Verif
open Spec

theorem fine_of_valid {o : Opts} {data : Bytes} (h : o.allowInvalid = true ∨ ValidUTF8 data) : Fine o data := by
  rcases h with h | h
  · exact .inl h
  · exact .inr (validRest_of_valid h)

theorem initSt_errs {o : Opts} {data : Bytes} (ff : List FF) (h : Fine o data) :
    (initSt o data ff).errs = [] := by
  unfold initSt St.firstRead
  have hr : ((St.start data ff).pt.moveTo 0 (St.start data ff).pt.rest).rest = data := Pt.moveTo_rest _ _ _
  have : (((St.start data ff).pt.moveTo 0 (St.start data ff).pt.rest).invalid && !o.allowInvalid) = false := by
    rcases h with h | h
    · simp [h]
    · have := h ((St.start data ff).pt.moveTo 0 (St.start data ff).pt.rest) _ hr (.refl _)
      rw [this]; rfl
  simp only [this]
  rfl

/-- The outcome of the start rule, projected. -/
theorem evalInit_run {o : Opts} {data : Bytes} (ff : List FF) (hm : o.maxExpr = none) (h : Fine o data) :
    proj (eval o gram (parseFuel data) G.init (initSt o data ff)) = run o G.init data [] := by
  have ht : eval o gram (parseFuel data) G.init (initSt o data ff) ≠ .timeout := by
    refine eval_gram_term o _ .init _ ?_
    rw [initSt_rest]; unfold parseFuel; omega
  have h1 := eval_proj hm gram (parseFuel data) G.init (initSt o data ff) (initSt_errs ff h)
    (by rw [initSt_rest]; exact h) ht
  rw [initSt_rest] at h1
  have h2 : erF (initSt o data ff).frame = [] := rfl
  rw [h2] at h1
  rw [h1]
  refine (run_of_reval o ?_).symm
  rw [← h1]
  cases hr : eval o gram (parseFuel data) G.init (initSt o data ff) with
  | timeout => exact absurd hr ht
  | ok v s => simp only [proj]; split <;> simp
  | fail s => simp only [proj]; split <;> simp
  | panic m s => simp [proj]

/-- `Parse` succeeds with a nil error exactly when the run succeeds, with the same value up to
positions and warnings. -/
theorem parse_run {o : Opts} {data : Bytes} (filename : Bytes) (ff : List FF) (hm : o.maxExpr = none)
    (h : Fine o data) :
    (∀ v, (parse o filename data ff).1 = .done v [] → ∃ b fr, run o G.init data [] = .ok (er v) b fr) ∧
    (∀ w b fr, run o G.init data [] = .ok w b fr →
      ∃ v, (parse o filename data ff).1 = .done v [] ∧ er v = w) := by
  rw [parse_finish, ← evalInit_run ff hm h, evalInit_eq]
  cases he : eval o gram (parseFuel data) G.init (initSt o data ff) with
  | ok w t =>
    constructor
    · intro v hv
      simp only [finish] at hv
      injection hv with h1 h2
      rw [dedupe_nil_iff] at h2
      have h2 : t.errs = [] := h2
      exact ⟨t.pt.rest, erF t.frame, by rw [proj_ok1 h2, h1]⟩
    · intro v b fr hv
      by_cases ht : t.errs = []
      · rw [proj_ok1 ht] at hv
        injection hv with h1 h2 h3
        exact ⟨w, by simp [finish, ht, dedupe], h1⟩
      · rw [proj_ok_abort.2 ht] at hv; cases hv
  | fail t =>
    constructor
    · intro v hv
      simp only [finish] at hv
      injection hv with h1 h2
      rw [dedupe_nil_iff] at h2
      split at h2
      · simp [St.addErrAt] at h2
      · rename_i hh
        have h2 : t.errs = [] := h2
        simp [h2] at hh
    · intro v b fr hv
      simp only [proj] at hv
      split at hv <;> cases hv
  | panic m t =>
    constructor
    · intro v hv
      simp only [finish] at hv
      injection hv with h1 h2
      rw [dedupe_nil_iff] at h2
      simp [St.addErr, St.addErrAt] at h2
    · intro v b fr hv
      simp [proj] at hv
  | timeout =>
    exfalso
    have : eval o gram (parseFuel data) G.init (initSt o data ff) ≠ .timeout := by
      refine eval_gram_term o _ .init _ ?_
      rw [initSt_rest]; unfold parseFuel; omega
    exact this he

end Verif
