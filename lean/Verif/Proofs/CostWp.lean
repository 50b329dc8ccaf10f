import Verif.Proofs.Cost
/-
Rules for the cost of expressions, in the style of weakest preconditions.
-/
namespace Verif

/-- Whatever evaluating `e` on `b` costs and yields, it satisfies `P`. -/
def wp (e : Ex) (b : Bytes) (P : Nat → CR → Prop) : Prop := ∀ n r, Cost e b n r → P n r

theorem wp_mono {e : Ex} {b : Bytes} {P Q : Nat → CR → Prop} (h : wp e b P) (hpq : ∀ n r, P n r → Q n r) : wp e b Q :=
  fun n r hc => hpq n r (h n r hc)

theorem wp_and {e : Ex} {b : Bytes} {P Q : Nat → CR → Prop} (h : wp e b P) (h2 : wp e b Q) :
    wp e b (fun n r => P n r ∧ Q n r) := fun n r hc => ⟨h n r hc, h2 n r hc⟩

/-- Continue after success; anything else is the result. -/
def onOk (P : Nat → CR → Prop) (k : Bytes → (Nat → CR → Prop) → Prop) (n : Nat) : CR → Prop
  | .ok b' => k b' (fun m r => P (n + m) r)
  | .fail => P (n + 1) .fail
  | .fatal => P (n + 1) .fatal

/-- Continue after failure; anything else is the result. -/
def onFail (P : Nat → CR → Prop) (k : (Nat → CR → Prop) → Prop) (n : Nat) : CR → Prop
  | .ok b' => P (n + 1) (.ok b')
  | .fail => k (fun m r => P (n + m) r)
  | .fatal => P (n + 1) .fatal

@[simp] theorem onOk_ok {P k n b} : onOk P k n (.ok b) = k b (fun m r => P (n + m) r) := rfl
@[simp] theorem onOk_fail {P k n} : onOk P k n .fail = P (n + 1) .fail := rfl
@[simp] theorem onOk_fatal {P k n} : onOk P k n .fatal = P (n + 1) .fatal := rfl
@[simp] theorem onFail_ok {P k n b} : onFail P k n (.ok b) = P (n + 1) (.ok b) := rfl
@[simp] theorem onFail_fail {P k n} : onFail P k n .fail = k (fun m r => P (n + m) r) := rfl
@[simp] theorem onFail_fatal {P k n} : onFail P k n .fatal = P (n + 1) .fatal := rfl

/-- An optional expression does not fail. -/
def CR.opt (b : Bytes) : CR → CR
  | .fail => .ok b
  | r => r
@[simp] theorem CR.opt_fail {b : Bytes} : CR.opt b .fail = .ok b := rfl
@[simp] theorem CR.opt_ok {b b' : Bytes} : CR.opt b (.ok b') = .ok b' := rfl
@[simp] theorem CR.opt_fatal {b : Bytes} : CR.opt b .fatal = .fatal := rfl

section
variable {b : Bytes} {P : Nat → CR → Prop}

theorem wp_action {a : Act} {e : Ex} (h : wp e b (fun n r => P (n + 1) r)) : wp (.action a e) b P := by
  intro n r hc; cases hc with | action hc => exact h _ _ hc

theorem wp_labeled {l : Lbl} {e : Ex} (h : wp e b (fun n r => P (n + 1) r)) : wp (.labeled l e) b P := by
  intro n r hc; cases hc with | labeled hc => exact h _ _ hc

theorem wp_ref {x : Rule} (h : wp (gram x) b (fun n r => P (n + 1) r)) : wp (.ref x) b P := by
  intro n r hc; cases hc with | ref hc => exact h _ _ hc

theorem wp_state {c : StCode} (h : P 1 (.ok b)) : wp (.state c) b P := by
  intro n r hc; cases hc; exact h

theorem wp_pushError {m : Bytes} (h : P 1 .fail) : wp (.andCode (.pushError m)) b P := by
  intro n r hc; cases hc; exact h

theorem wp_fatalError {m : Bytes} (h : P 1 .fatal) : wp (.andCode (.fatalError m)) b P := by
  intro n r hc; cases hc; exact h

theorem wp_initParser (h : P 1 (.ok b)) : wp (.andCode .initParser) b P := by
  intro n r hc; cases hc; exact h

theorem wp_seq_nil (h : P 1 (.ok b)) : wp (.seq []) b P := by
  intro n r hc; cases hc; exact h

theorem wp_seq_cons {e : Ex} {es : List Ex} (h : wp e b (onOk P (wp (.seq es)))) : wp (.seq (e :: es)) b P := by
  intro n r hc
  cases hc with
  | seqStop hr hc =>
    have := h _ _ hc
    cases r with
    | ok b' => exact absurd rfl (hr b')
    | fail => exact this
    | fatal => exact this
  | seqNext h1 h2 => exact h _ _ h1 _ _ h2

theorem wp_choice_nil (h : P 1 .fail) : wp (.choice []) b P := by
  intro n r hc; cases hc; exact h

theorem wp_choice_cons {e : Ex} {es : List Ex} (h : wp e b (onFail P (wp (.choice es) b))) : wp (.choice (e :: es)) b P := by
  intro n r hc
  cases hc with
  | choiceStop hr hc =>
    have := h _ _ hc
    cases r with
    | ok b' => exact this
    | fail => exact absurd rfl hr
    | fatal => exact this
  | choiceNext h1 h2 => exact h _ _ h1 _ _ h2

theorem wp_opt {e : Ex} (h : wp e b (fun n r => P (n + 1) (r.opt b))) : wp (.opt e) b P := by
  intro n r hc
  cases hc with
  | optOk hr hc =>
    have := h _ _ hc
    cases r with
    | fail => exact absurd rfl hr
    | _ => exact this
  | optNo hc => exact h _ _ hc

theorem wp_not {e : Ex} (h : wp e b (fun n r => P (n + 1) (match r with | .fail => .ok b | .ok _ => .fail | r => r))) :
    wp (.not e) b P := by
  intro n r hc
  cases hc with
  | notOk hc => exact h _ _ hc
  | notFail hc => exact h _ _ hc
  | notFatal hc => exact h _ _ hc

theorem wp_star {e : Ex} (h : wp e b (fun n r => match r with
    | .fail => P (n + 1) (.ok b)
    | .fatal => P (n + 1) .fatal
    | .ok b' => wp (.star e) b' (fun m r => P (n + m) r))) : wp (.star e) b P := by
  intro n r hc
  cases hc with
  | starEnd hc => exact h _ _ hc
  | starFatal hc => exact h _ _ hc
  | starNext h1 h2 => exact h _ _ h1 _ _ h2

theorem wp_plus {e : Ex} (h : wp e b (onOk P (wp (.star e)))) : wp (.plus e) b P := by
  intro n r hc
  cases hc with
  | plusStop hr hc =>
    have := h _ _ hc
    cases r with
    | ok b' => exact absurd rfl (hr b')
    | fail => exact this
    | fatal => exact this
  | plusNext h1 h2 => exact h _ _ h1 _ _ h2

theorem wp_lit {v : Bytes} (h : P 1 (match litRest v b with | some b' => .ok b' | none => .fail)) : wp (.lit v) b P := by
  intro n r hc
  cases hc with
  | lit hc => rw [hc] at h; exact h
  | litNo hc => rw [hc] at h; exact h

theorem wp_any (h : P 1 (match b with | [] => .fail | b => .ok (nextB b))) : wp .any b P := by
  intro n r hc
  cases hc with
  | any hc => cases b with
    | nil => exact absurd rfl hc
    | cons c t => exact h
  | anyEof => exact h

end

/-! ### Determinism -/

theorem Cost.det {e : Ex} {b : Bytes} {n : Nat} {r : CR} (h : Cost e b n r) : ∀ {m s}, Cost e b m s → m = n ∧ s = r := by
  induction h with
  | action h ih => intro m s hc; cases hc with | action hc => obtain ⟨rfl, rfl⟩ := ih hc; exact ⟨rfl, rfl⟩
  | labeled h ih => intro m s hc; cases hc with | labeled hc => obtain ⟨rfl, rfl⟩ := ih hc; exact ⟨rfl, rfl⟩
  | ref h ih => intro m s hc; cases hc with | ref hc => obtain ⟨rfl, rfl⟩ := ih hc; exact ⟨rfl, rfl⟩
  | initParser => intro m s hc; cases hc; exact ⟨rfl, rfl⟩
  | pushError => intro m s hc; cases hc; exact ⟨rfl, rfl⟩
  | fatalError => intro m s hc; cases hc; exact ⟨rfl, rfl⟩
  | any hb => intro m s hc; cases hc with
    | any => exact ⟨rfl, rfl⟩
    | anyEof => exact absurd rfl hb
  | anyEof => intro m s hc; cases hc with
    | any hb => exact absurd rfl hb
    | anyEof => exact ⟨rfl, rfl⟩
  | cls h1 h2 => intro m s hc; cases hc with
    | cls => exact ⟨rfl, rfl⟩
    | clsNo h => rcases h with h | h
                 · exact absurd h h1
                 · rw [h] at h2; cases h2
  | clsNo h => intro m s hc; cases hc with
    | cls h1 h2 => rcases h with h | h
                   · exact absurd h h1
                   · rw [h] at h2; cases h2
    | clsNo => exact ⟨rfl, rfl⟩
  | choiceNil => intro m s hc; cases hc; exact ⟨rfl, rfl⟩
  | choiceStop hr h ih => intro m s hc; cases hc with
    | choiceStop hr' hc => obtain ⟨rfl, rfl⟩ := ih hc; exact ⟨rfl, rfl⟩
    | choiceNext h1 h2 => exact absurd (ih h1).2.symm hr
  | choiceNext h1 h2 ih1 ih2 => intro m s hc; cases hc with
    | choiceStop hr' hc => exact absurd (ih1 hc).2 hr'
    | choiceNext h1 h2 =>
      obtain ⟨rfl, _⟩ := ih1 h1; obtain ⟨rfl, rfl⟩ := ih2 h2; exact ⟨rfl, rfl⟩
  | lit h => intro m s hc; cases hc with
    | lit hc => rw [h] at hc; cases hc; exact ⟨rfl, rfl⟩
    | litNo hc => rw [h] at hc; cases hc
  | litNo h => intro m s hc; cases hc with
    | lit hc => rw [h] at hc; cases hc
    | litNo hc => exact ⟨rfl, rfl⟩
  | notOk h ih => intro m s hc; cases hc with
    | notOk hc => obtain ⟨rfl, _⟩ := ih hc; exact ⟨rfl, rfl⟩
    | notFail hc => cases (ih hc).2
    | notFatal hc => cases (ih hc).2
  | notFail h ih => intro m s hc; cases hc with
    | notOk hc => cases (ih hc).2
    | notFail hc => obtain ⟨rfl, _⟩ := ih hc; exact ⟨rfl, rfl⟩
    | notFatal hc => cases (ih hc).2
  | notFatal h ih => intro m s hc; cases hc with
    | notOk hc => cases (ih hc).2
    | notFail hc => cases (ih hc).2
    | notFatal hc => obtain ⟨rfl, _⟩ := ih hc; exact ⟨rfl, rfl⟩
  | plusStop hr h ih => intro m s hc; cases hc with
    | plusStop hr' hc => obtain ⟨rfl, rfl⟩ := ih hc; exact ⟨rfl, rfl⟩
    | plusNext h1 h2 => exact absurd (ih h1).2.symm (hr _)
  | plusNext h1 h2 ih1 ih2 => intro m s hc; cases hc with
    | plusStop hr' hc => exact absurd (ih1 hc).2 (hr' _)
    | plusNext h1 h2 =>
      obtain ⟨rfl, h⟩ := ih1 h1; cases h; obtain ⟨rfl, rfl⟩ := ih2 h2; exact ⟨rfl, rfl⟩
  | seqNil => intro m s hc; cases hc; exact ⟨rfl, rfl⟩
  | seqStop hr h ih => intro m s hc; cases hc with
    | seqStop hr' hc => obtain ⟨rfl, rfl⟩ := ih hc; exact ⟨rfl, rfl⟩
    | seqNext h1 h2 => exact absurd (ih h1).2.symm (hr _)
  | seqNext h1 h2 ih1 ih2 => intro m s hc; cases hc with
    | seqStop hr' hc => exact absurd (ih1 hc).2 (hr' _)
    | seqNext h1 h2 =>
      obtain ⟨rfl, h⟩ := ih1 h1; cases h; obtain ⟨rfl, rfl⟩ := ih2 h2; exact ⟨rfl, rfl⟩
  | state => intro m s hc; cases hc; exact ⟨rfl, rfl⟩
  | starEnd h ih => intro m s hc; cases hc with
    | starEnd hc => obtain ⟨rfl, _⟩ := ih hc; exact ⟨rfl, rfl⟩
    | starFatal hc => cases (ih hc).2
    | starNext hc => cases (ih hc).2
  | starFatal h ih => intro m s hc; cases hc with
    | starEnd hc => cases (ih hc).2
    | starFatal hc => obtain ⟨rfl, _⟩ := ih hc; exact ⟨rfl, rfl⟩
    | starNext hc => cases (ih hc).2
  | starNext h1 h2 ih1 ih2 => intro m s hc; cases hc with
    | starEnd hc => cases (ih1 hc).2
    | starFatal hc => cases (ih1 hc).2
    | starNext h1 h2 =>
      obtain ⟨rfl, h⟩ := ih1 h1; cases h; obtain ⟨rfl, rfl⟩ := ih2 h2; exact ⟨rfl, rfl⟩
  | optOk hr h ih => intro m s hc; cases hc with
    | optOk hr' hc => obtain ⟨rfl, rfl⟩ := ih hc; exact ⟨rfl, rfl⟩
    | optNo hc => exact absurd (ih hc).2.symm hr
  | optNo h ih => intro m s hc; cases hc with
    | optOk hr' hc => exact absurd (ih hc).2 hr'
    | optNo hc => obtain ⟨rfl, _⟩ := ih hc; exact ⟨rfl, rfl⟩

/-- A second evaluation is like the first. -/
theorem Cost.wp {e : Ex} {b : Bytes} {n : Nat} {r : CR} (h : Cost e b n r) {P : Nat → CR → Prop} (hp : P n r) :
    Verif.wp e b P := by
  intro m s hc
  obtain ⟨rfl, rfl⟩ := h.det hc
  exact hp

/-! ### What is left is a suffix -/

theorem litRest_suffix {v b b' : Bytes} (h : litRest v b = some b') : b' <:+ b := by
  induction v generalizing b with
  | nil => simp only [litRest, Option.some.injEq] at h; subst h; exact List.suffix_refl _
  | cons c cs ih =>
    rw [litRest] at h
    split at h
    · exact (ih h).trans (List.drop_suffix _ _)
    · cases h

theorem nextB_suffix (b : Bytes) : nextB b <:+ b := List.drop_suffix _ _

theorem Cost.suffix {e : Ex} {b b' : Bytes} {n : Nat} (h : Cost e b n (.ok b')) : b' <:+ b := by
  generalize hr : CR.ok b' = r at h
  induction h generalizing b' with
  | action h ih => exact ih hr
  | labeled h ih => exact ih hr
  | ref h ih => exact ih hr
  | initParser => cases hr; exact List.suffix_refl _
  | pushError => cases hr
  | fatalError => cases hr
  | any => cases hr; exact nextB_suffix _
  | anyEof => cases hr
  | cls => cases hr; exact nextB_suffix _
  | clsNo => cases hr
  | choiceNil => cases hr
  | choiceStop _ h ih => exact ih hr
  | choiceNext _ _ _ ih => exact ih hr
  | lit h => cases hr; exact litRest_suffix h
  | litNo => cases hr
  | notOk => cases hr
  | notFail => cases hr; exact List.suffix_refl _
  | notFatal => cases hr
  | plusStop h _ _ => exact absurd hr.symm (h _)
  | plusNext _ _ ih1 ih2 => exact (ih2 hr).trans (ih1 rfl)
  | seqNil => cases hr; exact List.suffix_refl _
  | seqStop h _ _ => exact absurd hr.symm (h _)
  | seqNext _ _ ih1 ih2 => exact (ih2 hr).trans (ih1 rfl)
  | state => cases hr; exact List.suffix_refl _
  | starEnd => cases hr; exact List.suffix_refl _
  | starFatal => cases hr
  | starNext _ _ ih1 ih2 => exact (ih2 hr).trans (ih1 rfl)
  | optOk _ _ ih => exact ih hr
  | optNo => cases hr; exact List.suffix_refl _

/-- The specification may assume that what is left is a suffix. -/
theorem wp_suffix {e : Ex} {b : Bytes} {P : Nat → CR → Prop} (h : wp e b P) :
    wp e b (fun n r => P n r ∧ ∀ b', r = .ok b' → b' <:+ b) :=
  fun n r hc => ⟨h n r hc, fun b' hr => by subst hr; exact hc.suffix⟩

end Verif
