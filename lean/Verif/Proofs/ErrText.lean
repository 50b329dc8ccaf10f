import Verif.Proofs.Bytes
import Verif.Spec.Messages
/-
The text of an error determines the error.
-/
namespace Verif
open Spec

theorem split_unique {p : UInt8 → Bool} {a a' r r' : Bytes} {c c' : UInt8} (ha : ∀ x ∈ a, p x = true) (ha' : ∀ x ∈ a', p x = true)
    (hc : p c = false) (hc' : p c' = false) (h : a ++ c :: r = a' ++ c' :: r') : a = a' ∧ c :: r = c' :: r' := by
  induction a generalizing a' with
  | nil =>
    cases a' with
    | nil => exact ⟨rfl, h⟩
    | cons x a' =>
      simp only [List.nil_append, List.cons_append, List.cons.injEq] at h
      have := ha' x (List.mem_cons_self ..)
      rw [← h.1, hc] at this; cases this
  | cons x a ih =>
    cases a' with
    | nil =>
      simp only [List.nil_append, List.cons_append, List.cons.injEq] at h
      have := ha x (List.mem_cons_self ..)
      rw [h.1, hc'] at this; cases this
    | cons y a' =>
      simp only [List.cons_append, List.cons.injEq] at h
      obtain ⟨h1, h2⟩ := ih (fun z hz => ha z (List.mem_cons_of_mem _ hz)) (fun z hz => ha' z (List.mem_cons_of_mem _ hz)) h.2
      exact ⟨by rw [h.1, h1], h2⟩

/-- Digits and the minus sign. -/
def numByte (c : UInt8) : Bool := c == 45 || (decide (48 ≤ c) && decide (c ≤ 57))

theorem intToBytes_num (i : Int) : ∀ x ∈ intToBytes i, numByte x = true := by
  intro x hx
  have key : ∀ n : Nat, x ∈ natToBytes n → numByte x = true := by
    intro n hn
    have := natToBytes_digits n x hn
    simp [numByte, this.1, this.2]
  cases i with
  | ofNat n => exact key n hx
  | negSucc n =>
    simp only [intToBytes, List.cons_append, List.nil_append, List.mem_cons] at hx
    rcases hx with rfl | hx
    · rfl
    · exact key _ hx

theorem intToBytes_inj {i j : Int} (h : intToBytes i = intToBytes j) : i = j := by
  have key : ∀ n m : Nat, natToBytes n ≠ 45 :: natToBytes m := by
    intro n m h
    have := natToBytes_digits n 45 (by rw [h]; exact List.mem_cons_self ..)
    exact absurd this.1 (by decide)
  cases i with
  | ofNat n =>
    cases j with
    | ofNat m => rw [natToBytes_inj (show natToBytes n = natToBytes m from h)]
    | negSucc m => exact absurd h (key _ _)
  | negSucc n =>
    cases j with
    | ofNat m => exact absurd h.symm (key _ _)
    | negSucc m =>
      have h : (45 : UInt8) :: natToBytes (n + 1) = 45 :: natToBytes (m + 1) := h
      simp only [List.cons.injEq, true_and] at h
      have := natToBytes_inj h
      congr 1; omega

theorem rule_name_inj {r r' : Rule} (h : r.name = r'.name) : r = r' := by
  revert h
  cases r <;> cases r' <;> decide

theorem rule_name_colon (r : Rule) : ∀ x ∈ r.name, (x != 58) = true := by
  cases r <;> simp [Rule.name]

theorem reports_none {m : Bytes} (h : Reports none m) (t : Bytes) : m ≠ b!"rule " ++ t := by
  generalize hr : (none : Option Rule) = r at h
  cases h with
  | encoding => simp
  | limit => simp
  | noMatch _ h => obtain ⟨u, rfl⟩ := h; simp
  | closing => cases hr
  | semantic => cases hr

/-- For errors with foreseen messages: the text determines position, rule and message. -/
theorem text_inj {f : Bytes} {e e' : PErr} (he : Reports e.rule e.msg) (he' : Reports e'.rule e'.msg)
    (h : e.text f = e'.text f) : e = e' := by
  obtain ⟨⟨l, c, o⟩, r, m⟩ := e
  obtain ⟨⟨l', c', o'⟩, r', m'⟩ := e'
  unfold PErr.text at h
  simp only [List.append_assoc] at h
  replace h := List.append_cancel_left h
  obtain ⟨h1, h'⟩ := split_unique (intToBytes_num _) (intToBytes_num _) (by decide) (by decide) h
  simp only [List.cons_append, List.nil_append, List.cons.injEq, true_and] at h'
  clear h; have h := h'; clear h'
  obtain ⟨h2, h'⟩ := split_unique (intToBytes_num _) (intToBytes_num _) (by decide) (by decide) h
  simp only [List.cons_append, List.nil_append, List.cons.injEq, true_and] at h'
  clear h; have h := h'; clear h'
  obtain ⟨h3, h'⟩ := split_unique (intToBytes_num _) (intToBytes_num _) (by decide) (by decide) h
  simp only [List.cons_append, List.nil_append, List.cons.injEq, true_and] at h'
  clear h; have h := h'; clear h'
  replace h1 := intToBytes_inj h1
  replace h2 := intToBytes_inj h2
  replace h3 := intToBytes_inj h3
  subst h1; subst h2; subst h3
  cases r with
  | none =>
    cases r' with
    | none => simp at h; subst h; rfl
    | some r' =>
      simp only [List.cons_append, List.nil_append, List.append_assoc, List.cons.injEq, true_and] at h
      exact absurd h (reports_none he _)
  | some r =>
    cases r' with
    | none =>
      simp only [List.cons_append, List.nil_append, List.append_assoc, List.cons.injEq, true_and] at h
      exact absurd h.symm (reports_none he' _)
    | some r' =>
      simp only [List.cons_append, List.nil_append, List.append_assoc, List.cons.injEq, true_and] at h
      obtain ⟨h4, h'⟩ := split_unique (rule_name_colon _) (rule_name_colon _) (by decide) (by decide) h
      simp only [List.cons_append, List.nil_append, List.cons.injEq, true_and] at h'
      rw [rule_name_inj h4, h']

end Verif
