import Verif.Proofs.Stats
import Verif.Props.Entry
/-
Property C71: the counters of the option `Statistics`.
-/
namespace Verif.Props
open Verif Spec Stats

/-- **C71** `Statistics` changes neither the result of a call, nor the report of `GetFarthestFailure`, nor `ExprCnt`. -/
theorem C71_same (s : Settings) (w : Bytes) (cnt : Nat) (c : Counters) (filename data : Bytes) (ff : List FF) :
    (parseStats s w cnt c filename data ff).1 = parseCall s cnt filename data ff := by
  unfold parseStats parseCall
  cases Rule.ofName s.entrypoint with
  | none => rfl
  | some r =>
    simp only [Stats.run]
    rw [evalRuleC_proj (ev' := eval s.opts gram (parseFuel data)) (fun k e m => evalC_proj _ k e m)]

/-- **C71** The grammar determines what is counted. -/
theorem C71_unique {k : Place} {j : Job} {b : Bytes} {n n' : Nat} {l l' : List Pick} {r r' : Ends} (h : Picks k j b n l r)
    (h' : Picks k j b n' l' r') : n' = n ∧ l' = l ∧ r' = r := by
  induction h generalizing n' l' r' with
  | action _ ih => cases h' with | action h' => obtain ⟨rfl, rfl, rfl⟩ := ih h'; exact ⟨rfl, rfl, rfl⟩
  | labeled _ ih => cases h' with | labeled h' => obtain ⟨rfl, rfl, rfl⟩ := ih h'; exact ⟨rfl, rfl, rfl⟩
  | ref _ ih => cases h' with | ref h' => obtain ⟨rfl, rfl, rfl⟩ := ih h'; exact ⟨rfl, rfl, rfl⟩
  | choice _ ih => cases h' with | choice h' => obtain ⟨rfl, rfl, rfl⟩ := ih h'; exact ⟨rfl, rfl, rfl⟩
  | seq _ ih => cases h' with | seq h' => obtain ⟨rfl, rfl, rfl⟩ := ih h'; exact ⟨rfl, rfl, rfl⟩
  | star _ ih => cases h' with | star h' => obtain ⟨rfl, rfl, rfl⟩ := ih h'; exact ⟨rfl, rfl, rfl⟩
  | state => cases h'; exact ⟨rfl, rfl, rfl⟩
  | initParser => cases h'; exact ⟨rfl, rfl, rfl⟩
  | pushError => cases h'; exact ⟨rfl, rfl, rfl⟩
  | fatalError => cases h'; exact ⟨rfl, rfl, rfl⟩
  | any hb => cases h' with
    | any => exact ⟨rfl, rfl, rfl⟩
    | anyEnd => exact absurd rfl hb
  | anyEnd => cases h' with
    | any hb => exact absurd rfl hb
    | anyEnd => exact ⟨rfl, rfl, rfl⟩
  | cls hb hc => cases h' with
    | cls => exact ⟨rfl, rfl, rfl⟩
    | clsNo h => exact (h.elim hb (fun h => h hc)).elim
  | clsNo h => cases h' with
    | cls hb hc => exact (h.elim hb (fun h => h hc)).elim
    | clsNo => exact ⟨rfl, rfl, rfl⟩
  | lit h => cases h' with
    | lit h' => rw [h] at h'; cases h'; exact ⟨rfl, rfl, rfl⟩
    | litNo h' => rw [h] at h'; cases h'
  | litNo h => cases h' with
    | lit h' => rw [h] at h'; cases h'
    | litNo => exact ⟨rfl, rfl, rfl⟩
  | not _ ih => cases h' with
    | not h' => obtain ⟨rfl, rfl, _⟩ := ih h'; exact ⟨rfl, rfl, rfl⟩
    | notNo h' => cases (ih h').2.2
    | notFatal h' => cases (ih h').2.2
  | notNo _ ih => cases h' with
    | not h' => cases (ih h').2.2
    | notNo h' => obtain ⟨rfl, rfl, _⟩ := ih h'; exact ⟨rfl, rfl, rfl⟩
    | notFatal h' => cases (ih h').2.2
  | notFatal _ ih => cases h' with
    | not h' => cases (ih h').2.2
    | notNo h' => cases (ih h').2.2
    | notFatal h' => obtain ⟨rfl, rfl, _⟩ := ih h'; exact ⟨rfl, rfl, rfl⟩
  | opt hn _ ih => cases h' with
    | opt _ h' => obtain ⟨rfl, rfl, rfl⟩ := ih h'; exact ⟨rfl, rfl, rfl⟩
    | optNo h' => exact absurd (ih h').2.2.symm hn
  | optNo _ ih => cases h' with
    | opt hn h' => exact absurd (ih h').2.2 hn
    | optNo h' => obtain ⟨rfl, rfl, _⟩ := ih h'; exact ⟨rfl, rfl, rfl⟩
  | plusNo hn _ ih => cases h' with
    | plusNo _ h' => obtain ⟨rfl, rfl, rfl⟩ := ih h'; exact ⟨rfl, rfl, rfl⟩
    | plus h' => exact absurd (ih h').2.2.symm (hn _)
  | plus _ _ ih1 ih2 => cases h' with
    | plusNo hn h' => exact absurd (ih1 h').2.2 (hn _)
    | plus h1 h2 => obtain ⟨rfl, rfl, h3⟩ := ih1 h1; cases h3; obtain ⟨rfl, rfl, rfl⟩ := ih2 h2; exact ⟨rfl, rfl, rfl⟩
  | altsNone => cases h'; exact ⟨rfl, rfl, rfl⟩
  | altsThis _ ih => cases h' with
    | altsThis h' => obtain ⟨rfl, rfl, h⟩ := ih h'; cases h; exact ⟨rfl, rfl, rfl⟩
    | altsFatal h' => cases (ih h').2.2
    | altsNext h' => cases (ih h').2.2
  | altsFatal _ ih => cases h' with
    | altsThis h' => cases (ih h').2.2
    | altsFatal h' => obtain ⟨rfl, rfl, _⟩ := ih h'; exact ⟨rfl, rfl, rfl⟩
    | altsNext h' => cases (ih h').2.2
  | altsNext _ _ ih1 ih2 => cases h' with
    | altsThis h' => cases (ih1 h').2.2
    | altsFatal h' => cases (ih1 h').2.2
    | altsNext h1 h2 => obtain ⟨rfl, rfl, _⟩ := ih1 h1; obtain ⟨rfl, rfl, rfl⟩ := ih2 h2; exact ⟨rfl, rfl, rfl⟩
  | elemsNil => cases h'; exact ⟨rfl, rfl, rfl⟩
  | elemsNo hn _ ih => cases h' with
    | elemsNo _ h' => exact ih h'
    | elems h' => exact absurd (ih h').2.2.symm (hn _)
  | elems _ _ ih1 ih2 => cases h' with
    | elemsNo hn h' => exact absurd (ih1 h').2.2 (hn _)
    | elems h1 h2 => obtain ⟨rfl, rfl, h3⟩ := ih1 h1; cases h3; obtain ⟨rfl, rfl, rfl⟩ := ih2 h2; exact ⟨rfl, rfl, rfl⟩
  | manyEnd _ ih => cases h' with
    | manyEnd h' => obtain ⟨rfl, rfl, _⟩ := ih h'; exact ⟨rfl, rfl, rfl⟩
    | manyFatal h' => cases (ih h').2.2
    | many h' => cases (ih h').2.2
  | manyFatal _ ih => cases h' with
    | manyEnd h' => cases (ih h').2.2
    | manyFatal h' => obtain ⟨rfl, rfl, _⟩ := ih h'; exact ⟨rfl, rfl, rfl⟩
    | many h' => cases (ih h').2.2
  | many _ _ ih1 ih2 => cases h' with
    | manyEnd h' => cases (ih1 h').2.2
    | manyFatal h' => cases (ih1 h').2.2
    | many h1 h2 => obtain ⟨rfl, rfl, h3⟩ := ih1 h1; cases h3; obtain ⟨rfl, rfl, rfl⟩ := ih2 h2; exact ⟨rfl, rfl, rfl⟩

theorem typeError_panic (rc : Bool) (filename : Bytes) (ff : List FF) (cnt : Nat) (t : St) :
    TypeError filename (finishCall rc filename ff cnt (.panic convMsg t)).1 := by
  unfold finishCall
  cases rc with
  | false => exact rfl
  | true =>
    have hmem : (⟨t.pt.pos, t.rstack.head?, convMsg⟩ : PErr) ∈ (t.addErr convMsg).errs := by
      simp [St.addErr, St.addErrAt]
    rcases Verif.dedupe_text (filename := filename) (seen := []) hmem with h | ⟨e, he, ht⟩
    · cases h
    · refine ⟨e, he, ?_⟩
      rw [ht]
      exact List.suffix_append _ _

/-- **C71** What a call with `Statistics(&stats, w)` adds to the counters: `ExprCnt` grows by the number of expressions
that are tried, and `ChoiceAltCnt[ident][alt]` by the number of times the alternative called `alt` of a choice called
`ident` is the one that matches – for `alt = w` by the number of times no alternative matches.  (Without a limit on the
number of expressions, and unless a type assertion fails.) -/
theorem C71_counts (s : Settings) (r : Rule) (w : Bytes) (cnt : Nat) (c : Counters) (filename data : Bytes) (ff : List FF)
    (he : s.entrypoint = r.name) (hm : s.maxExprCnt = 0) (hc : ¬ TypeError filename (parseCall s cnt filename data ff).1) :
    ∃ n l x, Picks ⟨r, []⟩ (.one (gram r)) data n l x ∧
      (parseStats s w cnt c filename data ff).1.2.2 = cnt + n ∧
      ∀ ident alt, (parseStats s w cnt c filename data ff).2 ident alt = c ident alt + pickCount w l ident alt := by
  have hr : Rule.ofName s.entrypoint = some r := by rw [he]; exact ofName_name r
  have hlim : s.opts.maxExpr = none := by
    have := congrArg Opts.maxExpr (limit_none hm)
    exact this
  rw [call_known hr] at hc
  have hterm := Entry.out_term s.opts r cnt data ff
  have h0 : (Stats.run s r w cnt c data ff).out = Entry.out s.opts r cnt data ff := by
    unfold Stats.run Entry.out
    rw [evalRuleC_proj (ev' := eval s.opts gram (parseFuel data)) (fun k e m => evalC_proj _ k e m)]
  have h1 := eval_counted (o := s.opts) (w := w) (parseFuel data) ⟨r, []⟩ (gram r)
    ⟨Entry.st0 s.opts r cnt data ff, c⟩ rfl
  have hcnt : (Entry.st0 s.opts r cnt data ff).cnt = cnt := by
    show ({ St.start data ff with cnt := cnt }.firstRead s.opts).cnt = cnt
    rw [Entry.fr_cnt]
  simp only [Entry.st0_rest, hcnt] at h1
  have hp : parseStats s w cnt c filename data ff = (finishCall s.recover filename ff cnt
      (Stats.run s r w cnt c data ff).out, (Stats.run s r w cnt c data ff).counters c) := by
    unfold parseStats; rw [hr]
  rw [hp, h0]
  rw [← h0] at hc hterm ⊢
  have hst : (⟨{ ({ St.start data ff with cnt := cnt }.firstRead s.opts) with
      rstack := r :: ({ St.start data ff with cnt := cnt }.firstRead s.opts).rstack, frame := [] }, c⟩ : CSt) =
      ⟨Entry.st0 s.opts r cnt data ff, c⟩ := by
    rw [Entry.fr_rstack]; rfl
  unfold Stats.run evalRuleC at hc hterm ⊢
  simp only [hst] at hc hterm ⊢
  cases hq : evalC s.opts w gram (parseFuel data) ⟨r, []⟩ (gram r) ⟨Entry.st0 s.opts r cnt data ff, c⟩ with
  | timeout => rw [hq] at hterm; exact absurd rfl hterm
  | ok v t =>
    rw [hq] at h1
    obtain ⟨n, l, h1, h2, h3, _⟩ := h1
    exact ⟨n, l, _, h1, h2, fun x y => by simp only [COut.counters, h3, tally]⟩
  | fail t =>
    rw [hq] at h1
    obtain ⟨n, l, h1, h2, h3, _⟩ := h1
    exact ⟨n, l, _, h1, h2, fun x y => by simp only [COut.counters, h3, tally]⟩
  | panic x t =>
    rw [hq] at h1 hc
    rcases h1 with h1 | h1 | ⟨n, l, h1, h2, h3⟩
    · exact absurd hlim h1.2
    · subst h1; exact absurd (typeError_panic _ _ _ _ _) hc
    · exact ⟨n, l, _, h1, h2, fun x y => by simp only [COut.counters, h3, tally]⟩

/-! ### The choices that are counted are those of the grammar -/

/-- What is matched is found at the place. -/
def JobAt (k : Place) : Job → Prop
  | .one e => exprAt k.rule k.path = some e
  | .many e => exprAt k.rule k.path = some e
  | .alts i es => ∃ all, exprAt k.rule k.path = some (.choice all) ∧ all.drop i = es
  | .elems i es => ∃ all, exprAt k.rule k.path = some (.seq all) ∧ all.drop i = es

theorem kid_at {k : Place} {e e' : Ex} (i : Nat) (h : exprAt k.rule k.path = some e) (h' : (kids e)[i]? = some e') :
    JobAt (k.sub i) (.one e') := by
  show (exprAt k.rule k.path).bind (fun e => (kids e)[i]?) = some e'
  rw [h]; exact h'

theorem drop_at {es : List Ex} {all : List Ex} {e : Ex} {i : Nat} (h : all.drop i = e :: es) :
    all[i]? = some e ∧ all.drop (i + 1) = es := by
  constructor
  · have := List.getElem?_drop (xs := all) (i := i) (j := 0)
    rw [h] at this
    simpa using this.symm
  · rw [← List.drop_drop, h]; rfl

/-- **C71** Every decision counted is one of an ordered choice of the grammar, for one of its alternatives. -/
theorem C71_choices {k : Place} {j : Job} {b : Bytes} {n : Nat} {l : List Pick} {r : Ends} (h : Picks k j b n l r)
    (hk : JobAt k j) : ∀ p ∈ l, ∃ alts, exprAt p.choice.rule p.choice.path = some (.choice alts) ∧
      ∀ i, p.alt = some i → i < alts.length := by
  induction h with
  | action _ ih => exact ih (kid_at 0 hk rfl)
  | labeled _ ih => exact ih (kid_at 0 hk rfl)
  | ref _ ih => exact ih rfl
  | state => simp
  | initParser => simp
  | pushError => simp
  | fatalError => simp
  | any => simp
  | anyEnd => simp
  | cls => simp
  | clsNo => simp
  | lit => simp
  | litNo => simp
  | not _ ih => exact ih (kid_at 0 hk rfl)
  | notNo _ ih => exact ih (kid_at 0 hk rfl)
  | notFatal _ ih => exact ih (kid_at 0 hk rfl)
  | opt _ _ ih => exact ih (kid_at 0 hk rfl)
  | optNo _ ih => exact ih (kid_at 0 hk rfl)
  | choice _ ih => exact ih ⟨_, hk, rfl⟩
  | seq _ ih => exact ih ⟨_, hk, rfl⟩
  | star _ ih => exact ih (kid_at 0 hk rfl)
  | plusNo _ _ ih => exact ih (kid_at 0 hk rfl)
  | plus _ _ ih1 ih2 =>
    intro p hp
    rcases List.mem_append.1 hp with hp | hp
    · exact ih1 (kid_at 0 hk rfl) p hp
    · exact ih2 (kid_at 0 hk rfl) p hp
  | altsNone =>
    intro p hp
    simp only [List.mem_singleton] at hp
    subst hp
    obtain ⟨all, h1, _⟩ := hk
    exact ⟨all, h1, by simp⟩
  | altsThis _ ih =>
    obtain ⟨all, h1, h2⟩ := hk
    obtain ⟨h3, h4⟩ := drop_at h2
    intro p hp
    rcases List.mem_append.1 hp with hp | hp
    · exact ih (kid_at _ h1 h3) p hp
    · simp only [List.mem_singleton] at hp
      subst hp
      refine ⟨all, h1, fun i hi => ?_⟩
      cases hi
      exact (List.getElem?_eq_some_iff.1 h3).1
  | altsFatal _ ih =>
    obtain ⟨all, h1, h2⟩ := hk
    exact ih (kid_at _ h1 (drop_at h2).1)
  | altsNext _ _ ih1 ih2 =>
    obtain ⟨all, h1, h2⟩ := hk
    obtain ⟨h3, h4⟩ := drop_at h2
    intro p hp
    rcases List.mem_append.1 hp with hp | hp
    · exact ih1 (kid_at _ h1 h3) p hp
    · exact ih2 ⟨all, h1, h4⟩ p hp
  | elemsNil => simp
  | elemsNo _ _ ih =>
    obtain ⟨all, h1, h2⟩ := hk
    exact ih (kid_at _ h1 (drop_at h2).1)
  | elems _ _ ih1 ih2 =>
    obtain ⟨all, h1, h2⟩ := hk
    obtain ⟨h3, h4⟩ := drop_at h2
    intro p hp
    rcases List.mem_append.1 hp with hp | hp
    · exact ih1 (kid_at _ h1 h3) p hp
    · exact ih2 ⟨all, h1, h4⟩ p hp
  | manyEnd _ ih => exact ih hk
  | manyFatal _ ih => exact ih hk
  | many _ _ ih1 ih2 =>
    intro p hp
    rcases List.mem_append.1 hp with hp | hp
    · exact ih1 hk p hp
    · exact ih2 hk p hp

/-- Every choice in the expression, which is found at the path, has a position. -/
def spotted (spots : List (List Nat × Nat × Nat)) : Nat → Ex → List Nat → Bool
  | 0, _, _ => false
  | n + 1, e, p =>
    (match e with | .choice _ => (spots.lookup p).isSome | _ => true) &&
      (kids e).zipIdx.all fun x => spotted spots n x.1 (x.2 :: p)

theorem spotted_kid {spots : List (List Nat × Nat × Nat)} {n : Nat} {e e' : Ex} {p : List Nat} {i : Nat}
    (h : spotted spots n e p = true) (h' : (kids e)[i]? = some e') : ∃ m, spotted spots m e' (i :: p) = true := by
  cases n with
  | zero => cases h
  | succ n =>
    simp only [spotted, Bool.and_eq_true, List.all_eq_true] at h
    exact ⟨n, h.2 (e', i) (List.mem_zipIdx_iff_getElem?.2 h')⟩

theorem spotted_all : ∀ r, spotted (Go.choiceSpots r) 40 (gram r) [] = true := by
  intro r; cases r <;> decide +kernel

/-- **C71** Every ordered choice of the grammar has a position, by which its counters are named. -/
theorem C71_spots (r : Rule) (p : List Nat) (alts : List Ex) (h : exprAt r p = some (.choice alts)) :
    ∃ line col, (p, line, col) ∈ Go.choiceSpots r ∧ Place.spot ⟨r, p⟩ = (line, col) := by
  have key : ∀ p e, exprAt r p = some e → ∃ n, spotted (Go.choiceSpots r) n e p = true := by
    intro p
    induction p with
    | nil => intro e h; cases h; exact ⟨40, spotted_all r⟩
    | cons i p ih =>
      intro e h
      simp only [exprAt] at h
      cases hp : exprAt r p with
      | none => rw [hp] at h; cases h
      | some e' =>
        rw [hp] at h
        obtain ⟨n, hn⟩ := ih e' hp
        exact spotted_kid hn h
  obtain ⟨n, hn⟩ := key p _ h
  cases n with
  | zero => cases hn
  | succ n =>
    simp only [spotted, Bool.and_eq_true, Option.isSome_iff_exists] at hn
    obtain ⟨⟨⟨line, col⟩, hx⟩, _⟩ := hn
    refine ⟨line, col, ?_, by rw [Place.spot, hx]; rfl⟩
    have gen : ∀ (l : List (List Nat × Nat × Nat)), l.lookup p = some (line, col) → (p, line, col) ∈ l := by
      intro l
      induction l with
      | nil => intro h; cases h
      | cons y l ih =>
        obtain ⟨q, v⟩ := y
        intro h
        simp only [List.lookup] at h
        split at h
        · rename_i hq
          cases h
          rw [beq_iff_eq] at hq
          subst hq
          exact List.mem_cons_self
        · exact List.mem_cons_of_mem _ (ih h)
    exact gen _ hx

/-- **C71** The alternatives of a choice have different names, unless the name for "no match" is a number. -/
theorem C71_separate (w : Bytes) (p q : Pick) (hw : ∀ i, w ≠ natToBytes (i + 1)) (h : pickAlt w p = pickAlt w q) :
    p.alt = q.alt := by
  unfold pickAlt at h
  cases hp : p.alt with
  | none =>
    cases hq : q.alt with
    | none => rfl
    | some j => rw [hp, hq] at h; exact absurd h (hw j)
  | some i =>
    cases hq : q.alt with
    | none => rw [hp, hq] at h; exact absurd h.symm (hw i)
    | some j =>
      rw [hp, hq] at h
      have := natToBytes_inj h
      rw [show i = j by omega]

/-! ### Examples and limits -/

/-- No counter yet. -/
def noCounts : Counters := fun _ _ => 0

/-- The counters after parsing `data`. -/
def countsOf (w data : Bytes) : Counters := (parseStats Settings.default w 0 noCounts [] data []).2

/-- The hypotheses of `C71_counts` hold for `input{}`, and its conclusion is about non-zero counts: 11 of the counters
are positive, the one below by 1. -/
example : ∃ n l x, Picks ⟨.init, []⟩ (.one (gram .init)) b!"input{}" n l x ∧ 0 < n ∧
    pickCount b!"no" l b!"pluginSection 108:5" b!"1" = 1 ∧ pickCount b!"no" l b!"config 52:6" b!"no" = 3 := by
  have hr : ∃ v, (parseCall Settings.default 0 [] b!"input{}" []).1 = .returned (.done v []) := by
    have h : (match (parseCall Settings.default 0 [] b!"input{}" []).1 with
        | .returned (.done _ []) => true | _ => false) = true := by decide +kernel
    split at h
    · rename_i v hv; exact ⟨v, hv⟩
    · cases h
  obtain ⟨v, hv⟩ := hr
  obtain ⟨n, l, x, h1, h2, h3⟩ := C71_counts Settings.default .init b!"no" 0 noCounts [] b!"input{}" [] rfl rfl
    (by rw [hv]; rintro ⟨e, he, _⟩; cases he)
  refine ⟨n, l, x, h1, ?_, ?_, ?_⟩
  · have : 0 < (parseStats Settings.default b!"no" 0 noCounts [] b!"input{}" []).1.2.2 := by decide +kernel
    omega
  · have : countsOf b!"no" b!"input{}" b!"pluginSection 108:5" b!"1" = 1 := by decide +kernel
    have h4 := h3 b!"pluginSection 108:5" b!"1"
    unfold countsOf at this
    rw [this] at h4
    simp only [noCounts] at h4
    omega
  · have : countsOf b!"no" b!"input{}" b!"config 52:6" b!"no" = 3 := by decide +kernel
    have h4 := h3 b!"config 52:6" b!"no"
    unfold countsOf at this
    rw [this] at h4
    simp only [noCounts] at h4
    omega

/-- `input{}`: of the three kinds of sections (logstash_config.peg, line 108) the first is chosen once. -/
example : countsOf b!"no" b!"input{}" b!"pluginSection 108:5" b!"1" = 1 ∧
    countsOf b!"no" b!"input{}" b!"pluginSection 108:5" b!"2" = 0 := by decide +kernel

example : countsOf b!"no" b!"output{}filter{}" b!"pluginSection 108:5" b!"3" = 1 ∧
    countsOf b!"no" b!"output{}filter{}" b!"pluginSection 108:5" b!"2" = 1 ∧
    countsOf b!"no" b!"output{}filter{}" b!"pluginSection 108:5" b!"1" = 0 := by decide +kernel

/-- **C71** Without `C71_separate`: with `Statistics(&stats, "1")` the counter of the first alternative also counts "no
match".  In `input{}` the plugin's name is never tried successfully, `ChoiceAltCnt["plugin 159:7"]["1"]` is 1 all the
same. -/
theorem C71_violated_label : ∃ data ident, countsOf b!"no" data ident b!"1" = 0 ∧ countsOf b!"1" data ident b!"1" = 1 :=
  ⟨b!"input{}", b!"plugin 159:7", by decide +kernel⟩

/-- **C71** A counter does not belong to one ordered choice of the grammar: choices written once in logstash_config.peg
are copied into the rules that use them, and the copies in a rule share their counters. -/
theorem C71_violated_copies : ∃ (r : Rule) (p q : List Nat) (a b : List Ex), p ≠ q ∧ exprAt r p = some (.choice a) ∧
    exprAt r q = some (.choice b) ∧ ∀ i, pickIdent ⟨⟨r, p⟩, i⟩ = pickIdent ⟨⟨r, q⟩, i⟩ :=
  ⟨.config, [0, 0, 0, 0], [0, 0, 0, 0, 0, 0, 2, 0], _, _, by decide, rfl, rfl, fun _ => rfl⟩

end Verif.Props
