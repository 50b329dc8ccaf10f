import Verif.Proofs.MemoCost
import Verif.Props.Entry
/-
Properties C64 and C65: the option `Memoize`.
-/
namespace Verif.Props
open Verif Spec Verif.Memo
open Spec.Treetop

/-! ### The call -/

theorem memo_known {s : Settings} {r : Rule} (h : Rule.ofName s.entrypoint = some r) (k : Nat) (filename data : Bytes) (ff : List FF) :
    parseMemo s k filename data ff = finishCall s.recover filename ff k (Memo.out s.opts r k data ff).out := by
  unfold parseMemo
  rw [h]
  rfl

theorem memo_unknown {s : Settings} (h : ¬ Known s.entrypoint) (k : Nat) (filename data : Bytes) (ff : List FF) :
    parseMemo s k filename data ff = (.returned (.done .nil [⟨⟨1, 0, 0⟩, none, b!"invalid entrypoint"⟩]), ff, k) := by
  unfold parseMemo
  cases hr : Rule.ofName s.entrypoint with
  | some r => exact absurd ((known_iff _).2 ⟨r, hr⟩) h
  | none => rfl

/-- The plain semantics of a rule in the grammar of Logstash with the listed changes. -/
theorem plain_entry {r : Rule} {text : List Char} {x : Option (List Char)} (h : Matches plain (.ref r) text x) :
    Matches changed (Tt.tr r) text x := by
  cases h with
  | ref h =>
    refine Tt.mid_tr r _ _ (Tt.unf_imp 4 _ _ _ ?_)
    have := Tt.plain_changed h
    rwa [Tt.plain_mid] at this

/-! ### C64 -/

/-- **C64** With `Memoize` the parser terminates on every input. -/
theorem C64_terminates (s : Settings) (k : Nat) (filename data : Bytes) (ff : List FF) :
    (parseMemo s k filename data ff).1 ≠ .returned .diverges := by
  by_cases hk : Known s.entrypoint
  · obtain ⟨r, hr⟩ := (known_iff _).1 hk
    rw [memo_known hr]
    have := Memo.out_term s.opts r k data ff
    cases ho : Memo.out s.opts r k data ff with
    | timeout => exact absurd ho this
    | ok v m => simp [MOut.out, finishCall]
    | fail m => simp [MOut.out, finishCall]
    | panic x m => simp only [MOut.out, finishCall]; cases s.recover <;> simp
  · rw [memo_unknown hk]; simp

/-- **C64** With `Memoize`, as without it (`C63_prefix`), a call succeeds only if a beginning of the text matches the
expression the entry point stands for. -/
theorem C64_prefix (s : Settings) (k : Nat) (filename : Bytes) (text : List Char) (ff : List FF) (v : Val)
    (x : List Char × PEx TRule) (hx : x ∈ entry) (he : s.entrypoint = encode x.1)
    (h : (parseMemo s k filename (encode text) ff).1 = .returned (.done v [])) :
    ∃ rest, Matches changed x.2 text (some rest) := by
  obtain ⟨r, hr, hx2⟩ := entry_rule hx
  have hr0 : Rule.ofName s.entrypoint = some r := by rw [he, hr]; exact ofName_name r
  rw [memo_known hr0] at h
  have hp := Memo.out_postL s.opts r k text ff
  cases ho : Memo.out s.opts r k (encode text) ff with
  | ok w m =>
    rw [ho] at hp
    obtain ⟨-, cs, -, h2⟩ := hp
    exact ⟨cs, by rw [hx2]; exact plain_entry h2⟩
  | fail m =>
    exfalso
    rw [ho] at h
    simp only [MOut.out, finishCall, CallRes.returned.injEq, ParseRes.done.injEq] at h
    have h2 := (dedupe_nil_iff _ _).1 h.2
    split at h2
    · simp [St.addErrAt] at h2
    · rename_i hh; exact hh (by rw [h2]; rfl)
  | panic y m =>
    exfalso
    rw [ho] at h
    simp only [MOut.out, finishCall] at h
    cases hrec : s.recover with
    | false => rw [hrec] at h; cases h
    | true =>
      rw [hrec] at h
      simp only [if_true, CallRes.returned.injEq, ParseRes.done.injEq] at h
      have h2 := (dedupe_nil_iff _ _).1 h.2
      simp [St.addErr, St.addErrAt] at h2
  | timeout => rw [ho] at h; cases h

/-- **C64** And as without it (`C63_matches`): if a beginning of the text matches, the call does not report "no match found". -/
theorem C64_matches (s : Settings) (k : Nat) (filename : Bytes) (text : List Char) (ff : List FF) (v : Val) (es : List PErr)
    (x : List Char × PEx TRule) (hx : x ∈ entry) (he : s.entrypoint = encode x.1) (rest : List Char)
    (hmatch : Matches changed x.2 text (some rest)) (h : (parseMemo s k filename (encode text) ff).1 = .returned (.done v es)) :
    ∀ e ∈ es, ¬ b!"no match found" <+: e.msg := by
  obtain ⟨r, hr, hx2⟩ := entry_rule hx
  have hr0 : Rule.ofName s.entrypoint = some r := by rw [he, hr]; exact ofName_name r
  have known : ∀ m ∈ errMsgs, ¬ b!"no match found" <+: m := by decide
  have hp := Memo.out_postL s.opts r k text ff
  have hrep := Memo.out_postG s.opts r k (encode text) ff
  rw [memo_known hr0] at h
  cases ho : Memo.out s.opts r k (encode text) ff with
  | ok w m =>
    rw [ho] at h hrep
    simp only [MOut.out, finishCall, CallRes.returned.injEq, ParseRes.done.injEq] at h
    obtain ⟨-, rfl⟩ := h
    exact fun e he => known _ (hrep.1.errs e (dedupe_mem he))
  | timeout => rw [ho] at h; cases h
  | panic y m =>
    rw [ho] at h hrep
    simp only [MOut.out, finishCall] at h
    cases hrec : s.recover with
    | false => rw [hrec] at h; cases h
    | true =>
      rw [hrec] at h
      simp only [if_true, CallRes.returned.injEq, ParseRes.done.injEq] at h
      obtain ⟨-, rfl⟩ := h
      intro e he
      have he := dedupe_mem he
      simp only [St.addErr, St.addErrAt, List.mem_append, List.mem_singleton] at he
      rcases he with he | rfl
      · exact known _ (hrep.1 e he)
      · rcases hrep.2 with rfl | rfl | hg
        · show ¬ _ <+: maxExprMsg; decide
        · show ¬ _ <+: convMsg; decide
        · unfold getFarthestFailure at hg
          split at hg
          · cases hg
          · injection hg with hg
            simp only
            rw [← hg, ffHeader]
            simp
  | fail m =>
    exfalso
    rw [ho] at hp
    have h2 := plain_entry hp.2.2
    rw [← hx2] at h2
    cases Matches.det hmatch h2

/-- **C64** So `Memoize` does not change the accepted language, as far as matching goes: what one of the two accepts, the other
does not reject for lack of a match. -/
theorem C64_language (s : Settings) (k k' : Nat) (filename : Bytes) (text : List Char) (ff ff' : List FF) (v w : Val) (es : List PErr)
    (hm : s.maxExprCnt = 0) :
    ((parseCall s k filename (encode text) ff).1 = .returned (.done v []) →
      (parseMemo s k' filename (encode text) ff').1 = .returned (.done w es) → ∀ e ∈ es, ¬ b!"no match found" <+: e.msg) ∧
    ((parseMemo s k filename (encode text) ff).1 = .returned (.done v []) →
      (parseCall s k' filename (encode text) ff').1 = .returned (.done w es) → ∀ e ∈ es, ¬ b!"no match found" <+: e.msg) := by
  by_cases hk : Known s.entrypoint
  · obtain ⟨x, hx, he⟩ := hk
    constructor
    · intro h1 h2
      obtain ⟨rest, h3⟩ := C63_prefix s k filename text ff v x hx he h1
      exact C64_matches s k' filename text ff' w es x hx he rest h3 h2
    · intro h1 h2
      obtain ⟨rest, h3⟩ := C64_prefix s k filename text ff v x hx he h1
      exact C63_matches s k' filename text ff' w es x hx he hm rest h3 h2
  · constructor
    · intro h; rw [call_unknown hk] at h; simp at h
    · intro h; rw [memo_unknown hk] at h; simp at h

/-- A file that both accept, one that both reject, and the counters with and without. -/
example : let s := Settings.default
    let d := b!"filter{if[a]{}}"
    (match parseMemo s 0 [] d [] with | (.returned (.done (.config c) es), _, n) => (c.filter.length, es.length, n) | _ => (0, 0, 0)) = (1, 0, 565) ∧
    (match parseCall s 0 [] d [] with | (.returned (.done (.config c) es), _, n) => (c.filter.length, es.length, n) | _ => (0, 0, 0)) = (1, 0, 701) ∧
    (match (parseMemo s 0 [] b!"filter a" []).1 with | .returned r => r.errs.map fun e => e.msg.take 14 | _ => []) = [b!"no match found"] := by
  decide +kernel

/-- **C64** It is false that `Memoize` does not change the result: warnings are lost. -/
theorem C64_violated :
    ¬ ∀ (s : Settings) (filename data : Bytes) (ff : List FF) (c c' : Config),
      (parseCall s 0 filename data ff).1 = .returned (.done (.config c) []) →
      (parseMemo s 0 filename data ff).1 = .returned (.done (.config c') []) → c'.warnings = c.warnings := by
  intro h
  have h := h { Settings.default with globalStore := storeSet (fun _ => .nil) excKey (.bool true) } []
    b!"filter{if[1#\n,2]{}}" []
  have h1 : (match (parseCall { Settings.default with globalStore := storeSet (fun _ => .nil) excKey (.bool true) } 0 []
      b!"filter{if[1#\n,2]{}}" []).1 with
      | .returned (.done (.config c) es) => (c.warnings.length, es.length) | _ => (0, 1)) = (1, 0) := by decide +kernel
  have h2 : (match (parseMemo { Settings.default with globalStore := storeSet (fun _ => .nil) excKey (.bool true) } 0 []
      b!"filter{if[1#\n,2]{}}" []).1 with
      | .returned (.done (.config c) es) => (c.warnings.length, es.length) | _ => (1, 1)) = (0, 0) := by decide +kernel
  split at h1
  · rename_i c es hc
    split at h2
    · rename_i c' es' hc'
      simp only [Prod.mk.injEq, List.length_eq_zero_iff] at h1 h2
      rw [h1.2] at hc
      rw [h2.2] at hc'
      have := h c c' hc hc'
      rw [h2.1] at this
      rw [← this] at h1
      simp at h1
    · simp at h2
  · simp at h1

/-- **C64** Nor is the report of `GetFarthestFailure` the same: of the things expected one is missing. -/
theorem C64_violated_report :
    ¬ ∀ (s : Settings) (filename data : Bytes) (ff : List FF),
      getFarthestFailure (parseMemo s 0 filename data ff).2.1 = getFarthestFailure (parseCall s 0 filename data ff).2.1 := by
  intro h
  have h := h Settings.default [] b!"output{if[1,2]" []
  have h1 : (getFarthestFailure (parseMemo Settings.default 0 [] b!"output{if[1,2]" []).2.1).1.length = 259 := by decide +kernel
  have h2 : (getFarthestFailure (parseCall Settings.default 0 [] b!"output{if[1,2]" []).2.1).1.length = 292 := by decide +kernel
  rw [h, h2] at h1
  cases h1

/-! ### C65 -/

mutual
/-- The number of expressions in an expression, itself included. -/
def countEx : Ex → Nat
  | .action _ e | .labeled _ e | .not e | .plus e | .star e | .opt e => countEx e + 1
  | .choice es | .seq es => countExs es + 1
  | .andCode _ | .any | .cls .. | .lit _ | .ref _ | .state _ => 1
/-- The same for a list. -/
def countExs : List Ex → Nat
  | [] => 0
  | e :: es => countEx e + countExs es
end

/-- **C65** The number of expressions of the grammar. -/
theorem C65_nodes : (Rule.all.map fun r => countEx (gram r)).sum = 1785 := by decide +kernel

/-- **C65** With `Memoize` every expression of the grammar is evaluated at most once at each place of the input: the counter
grows by at most the number of expressions of the grammar times the number of places. -/
theorem C65_once (s : Settings) (k : Nat) (filename data : Bytes) (ff : List FF) :
    (parseMemo s k filename data ff).2.2 ≤ k + (Rule.all.map fun r => countEx (gram r)).sum * (data.length + 1) := by
  rw [C65_nodes]
  by_cases hk : Known s.entrypoint
  · obtain ⟨r, hr⟩ := (known_iff _).1 hk
    rw [memo_known hr]
    have hp := Memo.out_postC s.opts r k data ff
    have hl := Memo.places_length data
    rw [Memo.nodes_length] at hl
    cases ho : Memo.out s.opts r k data ff with
    | timeout => exact absurd ho (Memo.out_term s.opts r k data ff)
    | ok v m => rw [ho] at hp; have := Memo.grow_le hp; simp only [MOut.out, finishCall]; omega
    | fail m => rw [ho] at hp; have := Memo.grow_le hp; simp only [MOut.out, finishCall]; omega
    | panic x m => rw [ho] at hp; obtain ⟨ks, hp⟩ := hp; have := Memo.grow_le hp; simp only [MOut.out, finishCall]; omega
  · rw [memo_unknown hk]; simp


/-- The bound for a small file, whose counter is 565. -/
example : (parseMemo Settings.default 0 [] b!"filter{if[a]{}}" []).2.2 ≤ 1785 * 16 := by
  have := C65_once Settings.default 0 [] b!"filter{if[a]{}}" []
  rw [C65_nodes] at this
  simpa using this

end Verif.Props
