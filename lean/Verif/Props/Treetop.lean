import Verif.Proofs.TreetopSame
import Verif.Props.Messages
import Verif.Props.Errors
/-
Property C59: the accepted language compared with the grammar of Logstash, grammar.treetop.
-/
namespace Verif.Props
open Verif Spec
open Spec.Treetop Tt

/-- What a match of the start expression says. -/
theorem init_matches {cs : List Char} {x : Option (List Char)}
    (h : Matches plain G.init.erase cs x) : Matches changed (tr .init) cs x :=
  mid_tr .init _ _ (unf_imp 4 _ _ _ (by
    have := plain_changed h
    rwa [show G.init.erase = plain .init from rfl, plain_mid] at this))

theorem eof_match {cs : List Char} {x : List Char} (h : Matches changed (.not .any) cs (some x)) :
    cs = [] ∧ x = [] := by
  cases h with
  | not h => cases h; exact ⟨rfl, rfl⟩

theorem run_init (o : Opts) (cs : List Char) (hn : run o G.init (encode cs) [] ≠ .timeout) :
    Agr (run o G.init (encode cs) []) (Matches changed (tr .init) cs) := by
  obtain ⟨n, hn⟩ := reval_of_run o hn
  rw [← hn n (Nat.le_refl _)]
  exact (reval_agr o n G.init cs [] (gram_small .init)).imp fun _ h => init_matches h

/-- **C59** What `Parse` accepts is a text of the grammar of Logstash with the listed changes, or
white space and comments only. -/
theorem C59_sound (o : Opts) (filename data : Bytes) (ff : List FF)
    (hv : o.allowInvalid = false ∨ ValidUTF8 data) (h : (parse o filename data ff).1.errs = []) :
    ∃ text, data = encode text ∧ (Accepts changed text ∨ Blank changed text) := by
  have hvalid : ValidUTF8 data := by
    rcases hv with hv | hv
    · exact C03_valid o filename data ff hv h
    · exact hv
  obtain ⟨text, rfl⟩ := hvalid
  refine ⟨text, rfl, ?_⟩
  have hn : parse o filename (encode text) ff = parse { o with maxExpr := none } filename (encode text) ff := by
    rcases C11_limit o filename (encode text) ff with h1 | ⟨es, e, h1, _⟩
    · exact h1
    · rw [h1] at h; simp [ParseRes.errs] at h
  obtain ⟨c, hc⟩ := C13_nil_error o filename (encode text) ff h
  rw [hn] at hc
  obtain ⟨b, fr, hr⟩ := (parse_run (o := { o with maxExpr := none }) filename ff rfl
    (fine_of_valid (.inr ⟨text, rfl⟩))).1 _ hc
  have := run_init { o with maxExpr := none } text (by rw [hr]; simp)
  rw [hr] at this
  obtain ⟨cs', -, hm⟩ := this
  cases hm with
  | altFirst hm =>
    cases hm with
    | seq h1 h2 =>
      obtain ⟨rfl, -⟩ := eof_match h2
      exact .inl h1
  | altSecond _ hm =>
    cases hm with
    | seq h1 h2 =>
      obtain ⟨rfl, -⟩ := eof_match h2
      exact .inr h1

/-- The text belongs to the grammar: the parser does not fail. -/
theorem accepted_not_fail {o : Opts} {text : List Char} (h : Accepts changed text ∨ Blank changed text) :
    run o G.init (encode text) [] ≠ .fail := by
  intro hr
  have := run_init o text (by rw [hr]; simp)
  rw [hr] at this
  have he : Matches changed (.not .any) [] (some []) := .not .anyEnd
  cases this with
  | altSecond h1 h2 =>
    rcases h with h | h
    · have := h1.det (.seq h he); cases this
    · have := h2.det (.seq h he); cases this

/-- **C59** A text of the grammar of Logstash with the listed changes, or white space and comments
only, is accepted, or rejected with a complaint about a delimiter that is not closed, about a number
out of range, or about a plugin in an array or a hash; it is never rejected with "no match found". -/
theorem C59_complete (o : Opts) (filename : Bytes) (text : List Char) (ff : List FF) (hm : o.maxExpr = none)
    (h : Accepts changed text ∨ Blank changed text) :
    ∀ e ∈ (parse o filename (encode text) ff).1.errs, ∃ r, e.rule = some r ∧
      (e.msg ∈ Spec.semantic r ∨
        b!"Parsing error at pos " <+: e.msg ∧ ∃ c ∈ Spec.closings r, b!"-> " ++ c ++ b!"\n" <:+ e.msg) := by
  intro e he
  have hne := (C51_positions o filename (encode text) ff ⟨text, rfl⟩ e he).2
  suffices hR : Raises false e.rule e.msg by
    generalize e.rule = r at hR
    generalize e.msg = m at hR hne
    cases hR with
    | encoding => exact absurd rfl hne
    | limit _ h => cases h
    | closing r c m h1 h2 h3 => exact ⟨r, rfl, .inr ⟨h2, c, h1, h3⟩⟩
    | semantic r m h => exact ⟨r, rfl, .inl h⟩
  have hrep := evalInit_reports (parseFuel (encode text)) o (encode text) ff
  have hrun := evalInit_run (o := o) (data := encode text) ff hm (fine_of_valid (.inr ⟨text, rfl⟩))
  have hnf := accepted_not_fail (o := o) h
  rw [← hrun] at hnf
  rw [parse_finish] at he
  rw [hm, Option.isSome_none] at hrep
  cases hr : evalInit (parseFuel (encode text)) o (encode text) ff with
  | ok v t => rw [hr] at hrep he; exact hrep.1.errs e (dedupe_mem he)
  | fail t =>
    rw [hr] at hrep he
    rw [evalInit_eq] at hr
    cases hr2 : eval o gram (parseFuel (encode text)) G.init (initSt o (encode text) ff) with
    | fail s =>
      rw [hr2] at hr hnf
      simp only [Out.fail.injEq] at hr
      have hs : t.errs = s.errs := by rw [← hr]
      simp only [proj] at hnf
      by_cases hse : s.errs = []
      · rw [if_pos hse] at hnf; exact absurd rfl hnf
      · have he := dedupe_mem he
        rw [if_neg (by rw [hs]; simpa using hse)] at he
        exact hrep.1.errs e he
    | ok v s => rw [hr2] at hr; cases hr
    | panic m s => rw [hr2] at hr; cases hr
    | timeout => rw [hr2] at hr; cases hr
  | panic m t =>
    rw [hr] at hrep he
    have he := dedupe_mem he
    simp only [St.addErr, St.addErrAt, List.mem_append, List.mem_singleton] at he
    rcases he with he | rfl
    · exact hrep.1.errs e he
    · exact hrep.2
  | timeout => rw [hr] at he; simp [finish, ParseRes.errs] at he

/-- **C59** On texts without the changed features the grammar is the original one. -/
theorem C59_original (text : List Char) (h : Untouched text) :
    (Accepts treetop text ↔ Accepts changed text) ∧ (Blank treetop text ↔ Blank changed text) :=
  ⟨⟨fun hm => treetop_changed hm h, fun hm => changed_treetop hm h⟩,
    ⟨fun hm => treetop_changed hm h, fun hm => changed_treetop hm h⟩⟩

/-- **C59** So on such texts `Parse` follows the original grammar: what it accepts Logstash accepts, or it is
blank, and what Logstash accepts is never rejected with "no match found". -/
theorem C59_logstash (o : Opts) (filename : Bytes) (text : List Char) (ff : List FF) (h : Untouched text)
    (hm : o.maxExpr = none) :
    ((parse o filename (encode text) ff).1.errs = [] → Accepts treetop text ∨ Blank treetop text) ∧
    (Accepts treetop text ∨ Blank treetop text → ∀ e ∈ (parse o filename (encode text) ff).1.errs,
      ∃ r, e.rule = some r ∧ (e.msg ∈ Spec.semantic r ∨
        b!"Parsing error at pos " <+: e.msg ∧ ∃ c ∈ Spec.closings r, b!"-> " ++ c ++ b!"\n" <:+ e.msg)) := by
  obtain ⟨h1, h2⟩ := C59_original text h
  constructor
  · intro he
    obtain ⟨t, ht, hc⟩ := C59_sound o filename _ ff (.inr ⟨text, rfl⟩) he
    have : t = text := (encode_inj ht).symm
    subst this
    rw [h1, h2]; exact hc
  · intro ha
    rw [h1, h2] at ha
    exact C59_complete o filename text ff hm ha

/-- Evaluate a grammar on a text. -/
theorem accepts_of_pev {G : TRule → PEx TRule} {text : List Char} (n : Nat)
    (h : pev G n (.ref .config) text = some (some [])) : Accepts G text := pev_matches h

theorem not_accepts_of_pev {G : TRule → PEx TRule} {text : List Char} (n : Nat) (x : Option (List Char))
    (h : pev G n (.ref .config) text = some x) (hx : x ≠ some []) : ¬ Accepts G text :=
  fun ha => hx ((pev_matches h).det ha)

/-- **C59** The listed changes are real, one by one: method calls and `[` in a field name are accepted by
Logstash and not by `Parse`. -/
theorem C59_narrower :
    (Accepts treetop c!"filter{if foo(1){}}" ∧ (parse {} [] b!"filter{if foo(1){}}" []).1.errs ≠ []) ∧
    (Accepts treetop c!"filter{if [[a]{}}" ∧ (parse {} [] b!"filter{if [[a]{}}" []).1.errs ≠ []) := by
  refine ⟨⟨accepts_of_pev 200 (by decide +kernel), by decide +kernel⟩, accepts_of_pev 200 (by decide +kernel), by decide +kernel⟩

/-- **C59** A comment at the end of the file without a line break, a comment between the entries of a hash, an
empty file, and a list of lists in a condition are accepted by `Parse` and not by Logstash. -/
theorem C59_wider :
    ((parse {} [] b!"filter{}#" []).1.errs = [] ∧ ¬ Accepts treetop c!"filter{}#") ∧
    ((parse {} [] b!"filter{a{b=>{cc=>1 #\n dd=>2}}}" []).1.errs = [] ∧
      ¬ Accepts treetop c!"filter{a{b=>{cc=>1 #\n dd=>2}}}") ∧
    ((parse {} [] b!"" []).1.errs = [] ∧ ¬ Accepts treetop c!"") ∧
    ((parse {} [] b!"filter{if[a]in[[1],2]{}}" []).1.errs = [] ∧ ¬ Accepts treetop c!"filter{if[a]in[[1],2]{}}") := by
  refine ⟨⟨by decide +kernel, not_accepts_of_pev 200 (some ['#']) (by decide +kernel) (by decide)⟩,
    ⟨by decide +kernel, not_accepts_of_pev 200 none (by decide +kernel) (by decide)⟩,
    ⟨by decide +kernel, not_accepts_of_pev 200 none (by decide +kernel) (by decide)⟩,
    ⟨by decide +kernel, not_accepts_of_pev 200 none (by decide +kernel) (by decide)⟩⟩

/-- **C59** A text of the grammar that is rejected: the parser commits itself where the grammar tries another
alternative (a plugin whose name looks like a condition, a plugin named `else` after a branch), and it checks
numbers and the values in a hash. -/
theorem C59_rejected :
    (Accepts treetop c!"filter{if5{a=>1}}" ∧ Accepts changed c!"filter{if5{a=>1}}" ∧
      (parse {} [] b!"filter{if5{a=>1}}" []).1.errs ≠ []) ∧
    (Accepts treetop c!"filter{if[a]{}else{b=>1}}" ∧ Accepts changed c!"filter{if[a]{}else{b=>1}}" ∧
      (parse {} [] b!"filter{if[a]{}else{b=>1}}" []).1.errs ≠ []) ∧
    (Accepts treetop (c!"filter{a{b=>" ++ List.replicate 310 '9' ++ c!"}}") ∧
      Accepts changed (c!"filter{a{b=>" ++ List.replicate 310 '9' ++ c!"}}") ∧
      (parse {} [] (b!"filter{a{b=>" ++ List.replicate 310 57 ++ b!"}}") []).1.errs ≠ []) ∧
    (Accepts treetop c!"filter{a{b=>{cc=>d{}}}}" ∧ Accepts changed c!"filter{a{b=>{cc=>d{}}}}" ∧
      (parse {} [] b!"filter{a{b=>{cc=>d{}}}}" []).1.errs ≠ []) := by
  refine ⟨⟨accepts_of_pev 200 (by decide +kernel), accepts_of_pev 200 (by decide +kernel), by decide +kernel⟩,
    ⟨accepts_of_pev 200 (by decide +kernel), accepts_of_pev 200 (by decide +kernel), by decide +kernel⟩,
    ⟨accepts_of_pev 400 (by decide +kernel), accepts_of_pev 400 (by decide +kernel), by decide +kernel⟩,
    ⟨accepts_of_pev 200 (by decide +kernel), accepts_of_pev 200 (by decide +kernel), by decide +kernel⟩⟩

/-- A text without the changed features, accepted by both. -/
example : Untouched c!"filter{if[a]==1{b{c=>[1,2]}}}" ∧ Accepts treetop c!"filter{if[a]==1{b{c=>[1,2]}}}" ∧
    (parse {} [] (encode c!"filter{if[a]==1{b{c=>[1,2]}}}") []).1.errs = [] := by
  exact ⟨untouched_of (by decide) (by decide) (by decide), accepts_of_pev 80 (by decide +kernel), by decide +kernel⟩

end Verif.Props
