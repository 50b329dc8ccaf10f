import Verif.Proofs.Ahead
import Verif.Props.Attempts
/-
C80: the cause of a syntax error is not behind the place that the error names.
-/
namespace Verif.Props
open Verif Verif.Spec

/-- **C80** If `Parse` rejects a file with the error "no match found" at offset `k`, then it rejects every file that has the
same first `k + 10` bytes, with the same error and the same farthest failure. -/
theorem C80_no_later_cause (o : Opts) (filename data data' : Bytes) (ff : List FF) (e : PErr)
    (he : e ∈ (parse o filename data ff).1.errs) (hm : b!"no match found" <+: e.msg) (k : Nat) (hk : e.pos.offset = (k : Nat))
    (h : data.take (k + 10) = data'.take (k + 10)) : parse o filename data' ff = parse o filename data ff := by
  have hone := (C69_no_match o filename data ff e he hm).1
  have hms := evalInit_msgs (parseFuel data) o data ff
  have hno : ∀ m ∈ errMsgs, ¬ b!"no match found" <+: m := by decide
  rw [parse_finish] at he hone
  rw [parse_finish o filename data ff]
  cases hev : evalInit (parseFuel data) o data ff with
  | timeout => rw [hev] at he; simp [finish, ParseRes.errs] at he
  | ok v t =>
    rw [hev] at he hms
    exact absurd hm (hno _ (hms e (dedupe_mem he)))
  | panic m t =>
    rw [hev] at he hms
    simp only [finish, ParseRes.errs, St.addErr, St.addErrAt] at he
    have he := dedupe_mem he
    simp only [List.mem_append, List.mem_singleton] at he
    rcases he with he | he
    · exact absurd hm (hno _ (hms.1 e he))
    · subst he
      simp only at hm
      rcases hms.2 with h1 | h1 | h1
      · rw [h1] at hm; exact absurd hm (by decide)
      · rw [h1] at hm; exact absurd hm (by decide)
      · exfalso
        unfold getFarthestFailure at h1
        split at h1
        · cases h1
        · simp only [Prod.mk.injEq, and_true] at h1
          rw [← h1] at hm
          unfold ffHeader at hm
          simp only [List.append_assoc] at hm
          obtain ⟨x, hx⟩ := hm
          cases hx
  | fail t =>
    rw [hev] at he hms
    simp only [finish, ParseRes.errs] at he
    have hempty : t.errs = [] := by
      cases hx : t.errs with
      | nil => rfl
      | cons a l =>
        exfalso
        rw [if_neg (by simp [hx])] at he
        exact hno _ (hms e (dedupe_mem he)) hm
    rw [if_pos (by simp [hempty])] at he
    have he := dedupe_mem he
    simp only [St.addErrAt, hempty, List.nil_append, List.mem_singleton] at he
    have hpos : t.mfPos.offset = (k : Nat) := by rw [he] at hk; exact hk
    have h2 := Ahead.evalInit_fail_sw h o ff (max (parseFuel data) (parseFuel data')) (t := t)
      (by rw [evalInit_mono _ _ (Nat.le_max_left ..) o data ff (by rw [hev]; simp), hev]) (by rw [hpos]; simp)
    have h3 : evalInit (parseFuel data') o data' ff = .fail (Ahead.sw data' t) := by
      rw [← h2]
      exact (evalInit_mono _ _ (Nat.le_max_right ..) o data' ff (evalInit_term _ o data' ff (Nat.le_refl _))).symm
    rw [parse_finish, h3]
    simp only [finish]
    rw [if_pos (by simp [Ahead.sw, hempty]), if_pos (by simp [hempty])]
    rfl

/-- So whatever stands behind: no continuation of the text up to ten bytes behind the error is accepted. -/
theorem C80_no_continuation (o : Opts) (filename data rest : Bytes) (ff : List FF) (e : PErr)
    (he : e ∈ (parse o filename data ff).1.errs) (hm : b!"no match found" <+: e.msg) (k : Nat) (hk : e.pos.offset = (k : Nat))
    (hl : k + 10 ≤ data.length) : (parse o filename (data.take (k + 10) ++ rest) ff).1.errs = [e] := by
  rw [C80_no_later_cause o filename data _ ff e he hm k hk, (C69_no_match o filename data ff e he hm).1]
  · rfl
  · rw [List.take_append_of_le_length (by rw [List.length_take]; omega), List.take_take, Nat.min_self]

-- The hypotheses hold for a missing bracket, and the text behind it may be anything.
example : ∃ e, e ∈ (parse {} [] b!"input stdin {} } output { stdout {} }" []).1.errs ∧ b!"no match found" <+: e.msg ∧
    e.pos.offset = (6 : Nat) ∧ 6 + 10 ≤ (b!"input stdin {} } output { stdout {} }").length := by
  have h : ((parse {} [] b!"input stdin {} } output { stdout {} }" []).1.errs.any fun e =>
      (b!"no match found").isPrefixOf e.msg && e.pos.offset == 6) = true := by decide +kernel
  obtain ⟨e, h1, h2⟩ := List.any_eq_true.1 h
  simp only [Bool.and_eq_true, List.isPrefixOf_iff_prefix, beq_iff_eq] at h2
  exact ⟨e, h1, h2.1, h2.2, by decide⟩

/-- **C80** Behind a correct beginning: if a file that is accepted is continued and the result is rejected with "no match found", then
the place named is in the continuation or among the last nine bytes before it. -/
theorem C80_behind_correct (o : Opts) (filename A B : Bytes) (ff : List FF) (hA : (parse o filename A ff).1.errs = []) (e : PErr)
    (he : e ∈ (parse o filename (A ++ B) ff).1.errs) (hm : b!"no match found" <+: e.msg) (k : Nat) (hk : e.pos.offset = (k : Nat)) :
    A.length < k + 10 := by
  apply Classical.byContradiction
  intro h
  have h2 := C80_no_later_cause o filename (A ++ B) A ff e he hm k hk (List.take_append_of_le_length (by omega))
  rw [← h2, hA] at he
  cases he

-- A file that is accepted, and a continuation of it that is not, with the place named.
example : (parse {} [] b!"input {}" []).1.errs = [] ∧
    (parse {} [] (b!"input {}" ++ b!"\noutpu {}") []).1.errs.map (fun e => (e.pos.offset, (b!"no match found").isPrefixOf e.msg)) =
      [((9 : Int), true)] := by
  refine ⟨?_, ?_⟩ <;> decide +kernel

/-- The place alone would not do: the error for `outpuz` is at its beginning, five bytes before the wrong letter. -/
theorem C80_violated_place : ((parse {} [] b!"outpuz {}" []).1.errs.map fun e => (e.pos.offset, (b!"no match found").isPrefixOf e.msg)) =
      [((0 : Int), true)] ∧
    (parse {} [] b!"output {}" []).1.errs = [] ∧ (b!"outpuz {}").take 5 = (b!"output {}").take 5 := by
  refine ⟨?_, ?_, ?_⟩ <;> decide +kernel

/-- For fatal errors it does not hold: the place named may be any distance before the cause, here the `]`. -/
theorem C80_violated_fatal : let bad := b!"input { a { bbbbbbbbbbbbbbbb => ] } }"
    let good := b!"input { a { bbbbbbbbbbbbbbbb => 1 } }"
    ((parse {} [] bad []).1.errs.map fun e => (e.pos.offset, (b!"no match found").isPrefixOf e.msg)) = [((12 : Int), false)] ∧
    (parse {} [] good []).1.errs = [] ∧ bad.take (12 + 20) = good.take (12 + 20) := by
  refine ⟨?_, ?_, ?_⟩ <;> decide +kernel

end Verif.Props
