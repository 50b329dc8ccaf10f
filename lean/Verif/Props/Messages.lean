import Verif.Proofs.TypeSound
import Verif.Props.Engine
import Verif.Proofs.ErrText
/-
Property C55: which messages `Parse` can report.
-/
namespace Verif.Props
open Verif Spec

theorem init_repOk (o : Opts) (data : Bytes) (ff : List FF) : RepOk o.maxExpr.isSome ff (initSt o data ff) := by
  have h1 := (firstRead_fields o (St.start data ff)).2.2.2.2.1
  refine ⟨?_, fun x hx => .inr ?_⟩
  · intro e he
    have he : e ∈ ((St.start data ff).firstRead o).errs := he
    unfold St.firstRead at he
    simp only at he
    split at he
    · simp only [St.addErr, St.addErrAt, St.start, List.nil_append, List.mem_singleton] at he
      subst he; exact .encoding _
    · simp [St.start] at he
  · have hx : x ∈ ((St.start data ff).firstRead o).ff := hx
    rw [h1] at hx; exact hx

theorem evalInit_reports (fuel : Nat) (o : Opts) (data : Bytes) (ff : List FF) :
    match evalInit fuel o data ff with
    | .ok v t => RepOk o.maxExpr.isSome ff t ∧ v.kind = .config
    | .fail t => RepOk o.maxExpr.isSome ff t ∧ t.rstack = []
    | .panic m t => RepOk o.maxExpr.isSome ff t ∧ Raises o.maxExpr.isSome t.rstack.head? m
    | .timeout => True := by
  have hk := gram_typed .init
  unfold ruleOk at hk
  split at hk
  · cases hk
  rename_i p hp
  simp only [Bool.and_eq_true] at hk
  have h := eval_typed (o := o) (L := ff) fuel .init (gram .init) [] _ _ (initSt o data ff) hp (init_repOk o data ff) rfl FrTy.nil
  rw [evalInit_eq]
  rw [show gram .init = G.init from rfl] at h
  cases hr : eval o gram fuel G.init (initSt o data ff) with
  | ok v t =>
    rw [hr] at h
    refine ⟨⟨h.1.errs, h.1.ff⟩, ?_⟩
    have := sub_mem hk.1 h.2.1.1
    simpa [ruleTy] using this
  | fail t => rw [hr] at h; exact ⟨⟨h.errs, h.ff⟩, rfl⟩
  | panic m t => rw [hr] at h; exact h
  | timeout => trivial

/-- **C55** Every error `Parse` reports is one of the foreseen ones, reported by a rule that may report it. -/
theorem C55_messages (o : Opts) (filename data : Bytes) (ff : List FF) :
    ∀ e ∈ (parse o filename data ff).1.errs, Reports e.rule e.msg := by
  intro e he
  have h := evalInit_reports (parseFuel data) o data ff
  rw [parse_finish] at he
  cases hr : evalInit (parseFuel data) o data ff with
  | ok v t => rw [hr] at h he; exact (h.1.errs e (dedupe_mem he)).reports
  | fail t =>
    rw [hr] at h he
    have he := dedupe_mem he
    split at he
    · simp only [St.addErrAt, List.mem_append, List.mem_singleton] at he
      rcases he with he | rfl
      · exact (h.1.errs e he).reports
      · simp only [h.2, List.head?_nil]
        refine .noMatch _ ?_
        unfold noMatchMsg
        exact List.prefix_append _ _
    · exact (h.1.errs e he).reports
  | panic m t =>
    rw [hr] at h he
    have he := dedupe_mem he
    simp only [St.addErr, St.addErrAt, List.mem_append, List.mem_singleton] at he
    rcases he with he | rfl
    · exact (h.1.errs e he).reports
    · exact h.2.reports
  | timeout => rw [hr] at he; simp [finish, ParseRes.errs] at he

/-- **C55** So the internal checks of the code that builds the configuration never fail, except the three
named in `semantic`: none of the following is ever reported. -/
theorem C55_never (o : Opts) (filename data : Bytes) (ff : List FF) :
    ∀ e ∈ (parse o filename data ff).1.errs, e.msg ∉ [b!"Value is not a PluginSection",
      b!"Type for attribute name is not supported", b!"Type of value is not supported", b!"Argument is not an elseIfBlock",
      b!"invalid value for if block", b!"Argument is not an expression"] := by
  intro e he hm
  have h := C55_messages o filename data ff e he
  have key : ∀ x : Bytes, b!"no match found, expected: " <+: x → x ∉ [b!"Value is not a PluginSection",
      b!"Type for attribute name is not supported", b!"Type of value is not supported", b!"Argument is not an elseIfBlock",
      b!"invalid value for if block", b!"Argument is not an expression"] := by
    intro x hx hm
    obtain ⟨t, rfl⟩ := hx
    simp at hm
  have key2 : ∀ x : Bytes, b!"Parsing error at pos " <+: x → x ∉ [b!"Value is not a PluginSection",
      b!"Type for attribute name is not supported", b!"Type of value is not supported", b!"Argument is not an elseIfBlock",
      b!"invalid value for if block", b!"Argument is not an expression"] := by
    intro x hx hm
    obtain ⟨t, rfl⟩ := hx
    simp at hm
  generalize e.rule = r at h
  generalize e.msg = m at h hm
  cases h with
  | encoding => revert hm; decide
  | limit => revert hm; decide
  | noMatch _ h => exact key _ h hm
  | closing r c _ _ h => exact key2 _ h hm
  | semantic r _ h =>
    revert hm
    cases r <;> simp only [Spec.semantic, List.mem_cons, List.not_mem_nil, or_false] at h <;>
      first | (rcases h with rfl | rfl <;> decide) | (subst h; decide)

/-- **C55** A failed type assertion is reported by no rule but `hashentry`, the complaints about attributes by none
but `array`, a number out of range by the three rules with numbers. -/
theorem C55_where (o : Opts) (filename data : Bytes) (ff : List FF) :
    ∀ e ∈ (parse o filename data ff).1.errs,
      (e.msg = b!"interface conversion" → e.rule = some .hashentry) ∧
      (e.msg = b!"Unsupported attribute type" ∨ e.msg = b!"Argument is not an attribute" → e.rule = some .array) ∧
      (e.msg = b!"strconv.ParseFloat: value out of range" → e.rule ∈ [some .value, some .rvalue, some .hashentry]) := by
  intro e he
  have h := C55_messages o filename data ff e he
  generalize e.rule = r at h
  generalize e.msg = m at h
  cases h with
  | encoding => refine ⟨?_, ?_, ?_⟩ <;> intro h <;> simp at h
  | limit => refine ⟨?_, ?_, ?_⟩ <;> intro h <;> simp at h
  | noMatch _ h => obtain ⟨t, rfl⟩ := h; refine ⟨?_, ?_, ?_⟩ <;> intro h <;> simp at h
  | closing r c _ _ h => obtain ⟨t, rfl⟩ := h; refine ⟨?_, ?_, ?_⟩ <;> intro h <;> simp at h
  | semantic r _ h =>
    cases r <;> simp only [Spec.semantic, List.mem_cons, List.not_mem_nil, or_false] at h <;>
      first | (rcases h with rfl | rfl <;> decide) | (subst h; decide)

/-- **C55** The failure report lists only expectations of the grammar. -/
theorem C55_report (o : Opts) (filename data : Bytes) (ff : List FF)
    (hm : o.maxExpr = none ∨ ∃ m, o.maxExpr = some m ∧ 4 ≤ m) :
    ∀ x ∈ (parse o filename data ff).2, x.msg ∈ expectations := by
  rw [C05_report o filename data ff [] hm]
  intro x hx
  have h := evalInit_reports (parseFuel data) o data []
  rw [parse_finish] at hx
  have key : ∀ t : St, RepOk o.maxExpr.isSome [] t → x ∈ t.ff → x.msg ∈ expectations := by
    intro t ht hx
    rcases ht.ff x hx with h | h
    · exact h
    · simp at h
  cases hr : evalInit (parseFuel data) o data [] with
  | ok v t => rw [hr] at h hx; exact key t h.1 hx
  | fail t =>
    rw [hr] at h hx
    refine key t h.1 ?_
    simp only [finish] at hx
    split at hx <;> exact hx
  | panic m t => rw [hr] at h hx; exact key t h.1 hx
  | timeout => rw [hr] at hx; simp [finish] at hx

/-- **C55** The text of a reported error (`err.Error()`) determines its line, column, offset, the rule it names and its
message: two errors reported by any two parses under the same file name with equal texts are equal. -/
theorem C55_text (o o' : Opts) (filename data data' : Bytes) (ff ff' : List FF) :
    ∀ e ∈ (parse o filename data ff).1.errs, ∀ e' ∈ (parse o' filename data' ff').1.errs,
      e.text filename = e'.text filename → e = e' :=
  fun e he e' he' h => text_inj (C55_messages o filename data ff e he) (C55_messages o' filename data' ff' e' he') h

/-- The text of an error in full. -/
example : (parse {} b!"f.conf" b!"filter { a { b => { cc => d { } } } }" []).1.errs.map (PErr.text b!"f.conf") =
    [b!"f.conf:1:32 (31): rule hashentry: interface conversion"] := by decide +kernel

/-- **C55** Violated: the property one would expect — `Parse` never reports that one of its own type assertions failed.
A plugin as a value in a hash, which the grammar of the language allows, does it. -/
theorem C55_violated : ∃ data, (parse {} [] data []).1.errs.map (·.msg) = [b!"interface conversion"] :=
  ⟨b!"filter { a { b => { cc => d { } } } }", by decide +kernel⟩

/-- Likewise for a plugin that is not the first element of an array. -/
theorem C55_violated_array : ∃ data, (parse {} [] data []).1.errs.map (fun e => (e.rule, e.msg)) =
    [(some .array, b!"Unsupported attribute type"), (some .array, b!"Argument is not an attribute")] :=
  ⟨b!"filter { a { b => [ 1, d { } ] } }", by decide +kernel⟩

/-- Each other kind of message occurs. -/
example :
    (parse {} [] b!"filter { a { b => \"x } }" []).1.errs.map (·.rule) = [some .plugin] ∧
    (parse {} [] b!"filter { a { b => 1 }" []).1.errs.length = 1 ∧
    (parse {} [] b!"x" []).1.errs.map (·.rule) = [none] ∧
    (parse { maxExpr := some 20 } [] b!"filter { }" []).1.errs.map (·.msg) = [b!"max number of expresssions parsed"] ∧
    (parse {} [] [0xff] []).1.errs.map (·.msg) = [b!"invalid encoding"] ∧
    (parse {} [] b!"x" []).2.map (·.msg) = [b!"expect plugin type (input, filter, output)"] := by
  decide +kernel

end Verif.Props
