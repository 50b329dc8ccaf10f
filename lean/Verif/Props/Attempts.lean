import Verif.Proofs.Attempts
import Verif.Props.Messages
import Verif.Props.Errors
/-
Property C69: what the message "no match found" says; and property C06: what the report of `GetFarthestFailure` says,
both in terms of what happens while the grammar is matched against the text (Spec/Attempts.lean).
-/
namespace Verif.Props
open Verif Spec

/-- **C69** The grammar determines the attempts: a text is matched by an expression, or not, in one way, with one list of
failed attempts. -/
theorem C69_unique {neg : Bool} {e : Ex} {b : Bytes} {l l' : List Event} {r r' : Ends} (h : Tries neg e b l r)
    (h' : Tries neg e b l' r') : l' = l ∧ r' = r := by
  induction h generalizing l' r' with
  | action _ ih => cases h' with
    | action h' => obtain ⟨rfl, h⟩ := ih h'; cases h; exact ⟨rfl, rfl⟩
    | actionNo hn h' => exact absurd (ih h').2 (hn _)
  | actionNo hn _ ih => cases h' with
    | action h' => exact absurd (ih h').2.symm (hn _)
    | actionNo _ h' => exact ih h'
  | labeled _ ih => cases h' with | labeled h' => exact ih h'
  | ref _ ih => cases h' with | ref h' => exact ih h'
  | state => cases h'; exact ⟨rfl, rfl⟩
  | initParser => cases h'; exact ⟨rfl, rfl⟩
  | pushError => cases h'; exact ⟨rfl, rfl⟩
  | fatalError => cases h'; exact ⟨rfl, rfl⟩
  | any hb => cases h' with
    | any => exact ⟨rfl, rfl⟩
    | anyEnd => exact absurd rfl hb
  | anyEnd => cases h' with
    | any hb => exact absurd rfl hb
    | anyEnd => exact ⟨rfl, rfl⟩
  | cls hb hc => cases h' with
    | cls => exact ⟨rfl, rfl⟩
    | clsNo h => exact (h.elim hb (fun h => h hc)).elim
  | clsNo h => cases h' with
    | cls hb hc => exact (h.elim hb (fun h => h hc)).elim
    | clsNo => exact ⟨rfl, rfl⟩
  | lit h => cases h' with
    | lit h' => rw [h] at h'; cases h'; exact ⟨rfl, rfl⟩
    | litNo h' => rw [h] at h'; cases h'
  | litNo h => cases h' with
    | lit h' => rw [h] at h'; cases h'
    | litNo => exact ⟨rfl, rfl⟩
  | not _ ih => cases h' with
    | not h' => exact ⟨(ih h').1, rfl⟩
    | notNo h' => cases (ih h').2
    | notFatal h' => cases (ih h').2
  | notNo _ ih => cases h' with
    | not h' => cases (ih h').2
    | notNo h' => exact ⟨(ih h').1, rfl⟩
    | notFatal h' => cases (ih h').2
  | notFatal _ ih => cases h' with
    | not h' => cases (ih h').2
    | notNo h' => cases (ih h').2
    | notFatal h' => exact ⟨(ih h').1, rfl⟩
  | choiceNil => cases h'; exact ⟨rfl, rfl⟩
  | choice hn _ ih => cases h' with
    | choice _ h' => exact ih h'
    | choiceNext h' => exact absurd (ih h').2.symm hn
  | choiceNext _ _ ih1 ih2 => cases h' with
    | choice hn h' => exact absurd (ih1 h').2 hn
    | choiceNext h1 h2 => rw [(ih1 h1).1, (ih2 h2).1, (ih2 h2).2]; exact ⟨rfl, rfl⟩
  | seqNil => cases h'; exact ⟨rfl, rfl⟩
  | seqNo hn _ ih => cases h' with
    | seqNo _ h' => exact ih h'
    | seq h' => exact absurd (ih h').2.symm (hn _)
  | seq _ _ ih1 ih2 => cases h' with
    | seqNo hn h' => exact absurd (ih1 h').2 (hn _)
    | seq h1 h2 => obtain ⟨rfl, h3⟩ := ih1 h1; cases h3; rw [(ih2 h2).1, (ih2 h2).2]; exact ⟨rfl, rfl⟩
  | starEnd _ ih => cases h' with
    | starEnd h' => exact ⟨(ih h').1, rfl⟩
    | starFatal h' => cases (ih h').2
    | star h' => cases (ih h').2
  | starFatal _ ih => cases h' with
    | starEnd h' => cases (ih h').2
    | starFatal h' => exact ⟨(ih h').1, rfl⟩
    | star h' => cases (ih h').2
  | star _ _ ih1 ih2 => cases h' with
    | starEnd h' => cases (ih1 h').2
    | starFatal h' => cases (ih1 h').2
    | star h1 h2 => obtain ⟨rfl, h3⟩ := ih1 h1; cases h3; rw [(ih2 h2).1, (ih2 h2).2]; exact ⟨rfl, rfl⟩
  | plusNo hn _ ih => cases h' with
    | plusNo _ h' => exact ih h'
    | plus h' => exact absurd (ih h').2.symm (hn _)
  | plus _ _ ih1 ih2 => cases h' with
    | plusNo hn h' => exact absurd (ih1 h').2 (hn _)
    | plus h1 h2 => obtain ⟨rfl, h3⟩ := ih1 h1; cases h3; rw [(ih2 h2).1, (ih2 h2).2]; exact ⟨rfl, rfl⟩
  | opt hn _ ih => cases h' with
    | opt _ h' => exact ih h'
    | optNo h' => exact absurd (ih h').2.symm hn
  | optNo _ ih => cases h' with
    | opt hn h' => exact absurd (ih h').2 hn
    | optNo h' => exact ⟨(ih h').1, rfl⟩

theorem past_suffix : ∀ (v : Bytes) {b b' : Bytes}, past v b = some b' → b' <:+ b
  | [], b, b', h => by cases h; exact List.suffix_refl _
  | c :: cs, b, b', h => by
    simp only [past] at h
    split at h
    · exact (past_suffix cs h).trans (List.drop_suffix _ _)
    · cases h

/-- The text left is an end of the text, and so are the places of the events. -/
theorem tries_suffix {neg : Bool} {e : Ex} {b : Bytes} {l : List Event} {r : Ends} (h : Tries neg e b l r) :
    (∀ x ∈ l, ∀ p w, x = .missed p w → p <:+ b) ∧ ∀ b', r = .ok b' → b' <:+ b := by
  have hatt : ∀ (neg found : Bool) (b w : Bytes), ∀ x ∈ attempt neg found b w, ∀ p w, x = .missed p w → p <:+ b := by
    intro neg found b w x hm p w' hx
    cases neg <;> cases found <;> simp only [attempt, List.mem_singleton, List.not_mem_nil] at hm <;>
      (subst hm; cases hx; exact List.suffix_refl _)
  have hthen : ∀ {l l' : List Event} {b b' : Bytes}, (∀ x ∈ l, ∀ p w, x = .missed p w → p <:+ b) →
      (∀ x ∈ l', ∀ p w, x = .missed p w → p <:+ b') → b' <:+ b →
      ∀ x ∈ l ++ l', ∀ p w, x = .missed p w → p <:+ b := by
    intro l l' b b' h1 h2 hs x hx p w he
    rcases List.mem_append.1 hx with hx | hx
    · exact h1 x hx p w he
    · exact (h2 x hx p w he).trans hs
  induction h with
  | action _ ih =>
    refine ⟨?_, fun b' h => by cases h; exact ih.2 _ rfl⟩
    exact hthen ih.1 (b' := _) (by simp) (List.suffix_refl _)
  | actionNo _ _ ih => exact ih
  | labeled _ ih => exact ih
  | ref _ ih => exact ih
  | state => exact ⟨by simp, fun b' h => by cases h; exact List.suffix_refl _⟩
  | initParser => exact ⟨by simp, fun b' h => by cases h; exact List.suffix_refl _⟩
  | pushError => exact ⟨by simp, fun b' h => by cases h⟩
  | fatalError => exact ⟨by simp, fun b' h => by cases h⟩
  | any hb => exact ⟨hatt _ _ _ _, fun b' h => by cases h; exact List.drop_suffix _ _⟩
  | anyEnd => exact ⟨hatt _ _ _ _, fun b' h => by cases h⟩
  | cls hb hc => exact ⟨hatt _ _ _ _, fun b' h => by cases h; exact List.drop_suffix _ _⟩
  | clsNo h => exact ⟨hatt _ _ _ _, fun b' h => by cases h⟩
  | lit h => exact ⟨hatt _ _ _ _, fun b' h' => by cases h'; exact past_suffix _ h⟩
  | litNo h => exact ⟨hatt _ _ _ _, fun b' h => by cases h⟩
  | not _ ih => exact ⟨ih.1, fun b' h => by cases h⟩
  | notNo _ ih => exact ⟨ih.1, fun b' h => by cases h; exact List.suffix_refl _⟩
  | notFatal _ ih => exact ih
  | choiceNil => exact ⟨by simp, fun b' h => by cases h⟩
  | choice _ _ ih => exact ih
  | choiceNext _ _ ih1 ih2 => exact ⟨hthen ih1.1 ih2.1 (List.suffix_refl _), ih2.2⟩
  | seqNil => exact ⟨by simp, fun b' h => by cases h; exact List.suffix_refl _⟩
  | seqNo _ _ ih => exact ih
  | seq _ _ ih1 ih2 =>
    have hs := ih1.2 _ rfl
    exact ⟨hthen ih1.1 ih2.1 hs, fun b' h => (ih2.2 b' h).trans hs⟩
  | starEnd _ ih => exact ⟨ih.1, fun b' h => by cases h; exact List.suffix_refl _⟩
  | starFatal _ ih => exact ih
  | star _ _ ih1 ih2 =>
    have hs := ih1.2 _ rfl
    exact ⟨hthen ih1.1 ih2.1 hs, fun b' h => (ih2.2 b' h).trans hs⟩
  | plusNo _ _ ih => exact ih
  | plus _ _ ih1 ih2 =>
    have hs := ih1.2 _ rfl
    exact ⟨hthen ih1.1 ih2.1 hs, fun b' h => (ih2.2 b' h).trans hs⟩
  | opt _ _ ih => exact ih
  | optNo _ ih => exact ⟨ih.1, fun b' h => by cases h; exact List.suffix_refl _⟩

/-- A repetition matches, unless the parse ends. -/
theorem star_ok {neg : Bool} {e : Ex} {b : Bytes} {l : List Event} {r : Ends} (h : Tries neg (.star e) b l r) :
    r ≠ .fail := by
  generalize hx : Ex.star e = x at h
  induction h with
  | starEnd => simp
  | starFatal => simp
  | star _ _ _ ih => exact ih hx
  | _ => cases hx

/-- A gap ends where something was looked for in vain. -/
theorem gap_tries {b b' : Bytes} {l : List Event} (h : Tries false G.gap b l (.ok b')) :
    ∃ p w, .missed p w ∈ l := by
  unfold G.gap at h
  generalize hx : Ex.star (.choice [G.comment, G.whitespace]) = x at h
  generalize hn : false = neg at h
  generalize hr : Ends.ok b' = r at h
  induction h with
  | starEnd h ih =>
    cases hx; cases hn; cases hr
    cases h with
    | choice h => exact absurd rfl h
    | choiceNext h1 h2 =>
      cases h2 with
      | choice h => exact absurd rfl h
      | choiceNext h2 h3 =>
        cases h2 with
        | actionNo _ h2 =>
          cases h2 with
          | plusNo _ h2 => cases h2 with | clsNo h => exact ⟨b', b!"[ \\t\\r\\n]", by simp [attempt]⟩
          | plus _ h2 => exact (star_ok h2 rfl).elim
  | star h1 h2 ih1 ih2 => obtain ⟨p, w, hw⟩ := ih2 hx hn hr; exact ⟨p, w, List.mem_append.2 (.inr hw)⟩
  | starFatal => cases hr
  | _ => cases hx

/-- When the text is not a configuration, something was looked for in vain. -/
theorem init_tries {b : Bytes} {l : List Event} (h : Tries false (.ref .init) b l .fail) : ∃ p w, .missed p w ∈ l := by
  cases h with
  | ref h =>
    change Tries false G.init b l .fail at h
    unfold G.init at h
    cases h with
    | actionNo _ h =>
      cases h with
      | seqNo _ h => cases h
      | seq _ h =>
        cases h with
        | seqNo _ h => cases h
        | seq h1 h =>
          cases h with
          | seqNo _ h =>
            cases h with
            | labeled h =>
              cases h with
              | choice h => exact absurd rfl h
              | choiceNext h3 h4 =>
                cases h4 with
                | choice h => exact absurd rfl h
                | choiceNext h4 h5 =>
                  cases h4 with
                  | actionNo _ h4 =>
                    cases h4 with
                    | seqNo _ h4 => exact (star_ok h4 rfl).elim
                    | seq h4 =>
                      obtain ⟨p, w, hw⟩ := gap_tries h4
                      exact ⟨p, w, by simp [hw]⟩
          | seq _ h => cases h

/-- The evaluation of the start rule agrees with the events. -/
theorem init_tried (o : Opts) (data : Bytes) (ff : List FF) (n : Nat) :
    Tried data false (gram .init) data ((0, []), (0, []), []) (eval o gram n G.init (initSt o data ff)) := by
  have hf := firstRead_fields o (St.start data ff)
  have h1 : (initSt o data ff).pt = ((St.start data ff).firstRead o).pt := rfl
  have hat : At data (initSt o data ff) := by
    unfold At
    rw [h1, hf.1]
    simp only [St.start, Pt.moveTo]
    by_cases hd : (decodeRune data).1 = 10 <;> simp [hd]
  have hrest : (initSt o data ff).pt.rest = data := by
    rw [h1, hf.1]
    simp only [St.start, Pt.moveTo]
    by_cases hd : (decodeRune data).1 = 10 <;> simp [hd]
  have hbk : (initSt o data ff).bk = ((0, []), (0, []), []) ∧ (initSt o data ff).mfInv = false := by
    unfold initSt St.firstRead St.bk St.start
    simp only
    split <;> exact ⟨rfl, rfl⟩
  have ht := eval_tried (o := o) (data := data) n G.init (initSt o data ff) hat
  rw [hrest, hbk.1, hbk.2] at ht
  exact ht

/-! ### C69 -/

/-- **C69** When `Parse` reports that nothing matches, it returns nothing else; the error is located at the farthest
place of the text where a token was looked for in vain, and its message names exactly the tokens looked for in vain
there. -/
theorem C69_no_match (o : Opts) (filename data : Bytes) (ff : List FF) (e : PErr)
    (he : e ∈ (parse o filename data ff).1.errs) (hm : b!"no match found" <+: e.msg) :
    (parse o filename data ff).1 = .done .nil [e] ∧ e.rule = none ∧
    ∃ log k, Tries false (.ref .init) data log .fail ∧ e.pos.offset = (k : Nat) ∧
      (∃ w, MissedAt data log k w) ∧ (∀ k' w, MissedAt data log k' w → k' ≤ k) ∧
      Sentence (MissedAt data log k) e.msg := by
  have hms := evalInit_msgs (parseFuel data) o data ff
  have hno : ∀ m ∈ errMsgs, ¬ b!"no match found" <+: m := by decide
  rw [parse_finish] at he ⊢
  cases h : evalInit (parseFuel data) o data ff with
  | timeout => rw [h] at he; simp [finish, ParseRes.errs] at he
  | ok v t =>
    rw [h] at he hms
    exact absurd hm (hno _ (hms e (dedupe_mem he)))
  | panic m t =>
    rw [h] at he hms
    simp only [finish, ParseRes.errs, St.addErr, St.addErrAt] at he ⊢
    have he := dedupe_mem he
    simp only [List.mem_append, List.mem_singleton] at he
    rcases he with he | he
    · exact absurd hm (hno _ (hms.1 e he))
    · subst he
      simp only at hm
      rcases hms.2 with h1 | h1 | h1
      · rw [h1] at hm; exact absurd hm (by decide)
      · rw [h1] at hm; exact absurd hm (by decide)
      · exfalso
        unfold getFarthestFailure at h1
        split at h1
        · cases h1
        · simp only [Prod.mk.injEq, and_true] at h1
          rw [← h1] at hm
          unfold ffHeader at hm
          simp only [List.append_assoc] at hm
          obtain ⟨x, hx⟩ := hm
          cases hx
  | fail t =>
    rw [h] at he hms
    simp only [finish, ParseRes.errs] at he ⊢
    have hempty : t.errs = [] := by
      cases hx : t.errs with
      | nil => rfl
      | cons a l =>
        exfalso
        rw [if_neg (by simp [hx])] at he
        exact hno _ (hms e (dedupe_mem he)) hm
    rw [if_pos (by simp [hempty])] at he ⊢
    have hr : t.rstack = [] := by
      rw [evalInit_eq] at h
      split at h <;> cases h
      rfl
    simp only [St.addErrAt, hempty, List.nil_append, hr, List.head?_nil] at he ⊢
    have hone : dedupe filename [] [(⟨t.mfPos, none, noMatchMsg t.mfExp⟩ : PErr)] =
        [⟨t.mfPos, none, noMatchMsg t.mfExp⟩] := rfl
    rw [hone] at he ⊢
    simp only [List.mem_singleton] at he
    subst he
    refine ⟨rfl, rfl, ?_⟩
    have ht := init_tried o data ff (parseFuel data)
    rw [evalInit_eq] at h
    cases hev : eval o gram (parseFuel data) G.init (initSt o data ff) with
    | timeout => rw [hev] at h; cases h
    | ok v u => rw [hev] at h; cases h
    | panic m u => rw [hev] at h; cases h
    | fail u =>
      rw [hev] at h ht
      cases h
      obtain ⟨log, h1, h2, h3, h4⟩ := ht
      have hinit : Tries false (.ref .init) data log .fail := .ref h1
      have hk : KeptFar data.length log u.bk.1 := by
        rw [h2]; simpa using kept_foldl log (f := ((0, []), (0, []), [])) (kept_start data.length)
      have hlen : ∀ p w, .missed p w ∈ log → p.length ≤ data.length := fun p w hx =>
        ((tries_suffix hinit).1 _ hx p w rfl).length_le
      obtain ⟨k, hkk⟩ : ∃ k : Nat, u.bk.1.1 = (k : Nat) := by
        rcases hk.here with h0 | ⟨p, w, _, h0⟩
        · exact ⟨0, by rw [h0]; rfl⟩
        · exact ⟨_, h0.symm⟩
      have hat : ∀ w, MissedAt data log k w ↔ w ∈ u.mfExp := by
        intro w
        rw [show w ∈ u.mfExp ↔ w ∈ u.bk.1.2 from Iff.rfl, hk.exp w]
        constructor
        · rintro ⟨p, hp, h5⟩
          exact ⟨p, hp, by rw [hkk]; omega⟩
        · rintro ⟨p, hp, h5⟩
          exact ⟨p, hp, by have := hlen p w hp; rw [hkk] at h5; omega⟩
      refine ⟨log, k, hinit, hkk, ?_, ?_, ?_⟩
      · rcases hk.here with h0 | ⟨p, w, hp, h0⟩
        · obtain ⟨p, w, hp⟩ := init_tries hinit
          refine ⟨w, p, hp, ?_⟩
          have := hk.far p w hp
          have := hlen p w hp
          omega
        · exact ⟨w, p, hp, by have := hlen p w hp; omega⟩
      · rintro k' w ⟨p, hp, h5⟩
        have := hk.far p w hp
        omega
      · have hs := noMatch_sentence u.mfExp
        have hex : (fun w => w ∈ u.mfExp) = MissedAt data log k := by
          funext w
          exact propext (hat w).symm
        rw [hex] at hs
        exact hs

/-! ### C06 -/

theorem distinctAt_view (p : Nat) (h : List FF) (seen : List Bytes) :
    (distinctAt p h seen).map FF.view =
      (onlyFirst ((h.map FF.view).filter (fun u => u.pos = p))).filter (fun u => u.msg ∉ seen) := by
  induction h generalizing seen with
  | nil => rfl
  | cons e h ih =>
    simp only [distinctAt, List.map_cons, List.filter_cons]
    by_cases hp : e.pos = p
    · have hv : (FF.view e).pos = p := hp
      simp only [hp, hv, true_and, decide_true, if_true, onlyFirst, List.filter_cons, List.filter_filter]
      by_cases hs : e.msg ∈ seen
      · have hvs : (FF.view e).msg ∈ seen := hs
        simp only [hs, not_true_eq_false, if_false, hvs, decide_false, Bool.false_eq_true]
        rw [ih]
        apply List.filter_congr
        intro u _
        by_cases hu : u.msg ∈ seen
        · simp [hu]
        · have : u.msg ≠ (FF.view e).msg := fun h => hu (h ▸ hvs)
          simp [hu, this]
      · have hvs : (FF.view e).msg ∉ seen := hs
        simp only [hs, not_false_eq_true, if_true, hvs, decide_true, List.map_cons]
        rw [ih]
        congr 1
        apply List.filter_congr
        intro u _
        have : (FF.view e).msg = e.msg := rfl
        simp [this]
        grind
    · have hv : ¬ (FF.view e).pos = p := hp
      simp only [hp, hv, false_and, if_false, decide_false, Bool.false_eq_true]
      exact ih seen

theorem farthest_view (h : List FF) : farPos (h.map FF.view) = farthest h := by
  unfold farPos farthest
  rw [List.map_map]
  rfl

/-- **C06** Unless the parse was stopped by the expression limit or by a failed type assertion, the report of
`GetFarthestFailure` is determined by what happened while the text was matched: it lists the expectations that were not
met at the farthest position, each message once, in the order in which they came up. -/
theorem C06_events (o : Opts) (filename data : Bytes) (ff : List FF)
    (h : ∀ e ∈ (parse o filename data ff).1.errs,
      e.msg ≠ b!"max number of expresssions parsed" ∧ e.msg ≠ b!"interface conversion") :
    ∃ log r, Tries false (.ref .init) data log r ∧
      (parse o filename data ff).2.map FF.view = farthestOnes (unmets data log) := by
  have hlim : parse o filename data ff = parse { o with maxExpr := none } filename data ff := by
    rcases C11_limit o filename data ff with h1 | ⟨es, e, h1, h2⟩
    · exact h1
    · rw [h1] at h
      exact absurd h2 (h e (by simp [ParseRes.errs])).1
  rw [hlim] at h ⊢
  obtain ⟨t, ht, hrep⟩ := C06_parse { o with maxExpr := none } filename data ff (.inl rfl)
  -- the events
  suffices hs : ∃ log r, Tries false (.ref .init) data log r ∧
      t.bk = log.foldl (Book.step data) ((0, []), (0, []), []) by
    obtain ⟨log, r, h1, h2⟩ := hs
    refine ⟨log, r, h1, ?_⟩
    have h3 : t.hist.map FF.view = unmets data log := by
      have h4 : t.bk.2 = log.foldl (note data) ((0, []), []) := by rw [h2, book_notes]
      unfold unmets
      rw [← h4]
      rfl
    rw [hrep, distinctAt_view, ← farthest_view, h3]
    unfold farthestOnes
    rw [List.filter_eq_self.2 (by simp)]
  have htr := init_tried { o with maxExpr := none } data ff (parseFuel data)
  rw [parse_finish] at h
  rw [evalInit_eq] at ht h
  cases hev : eval { o with maxExpr := none } gram (parseFuel data) G.init
      (initSt { o with maxExpr := none } data ff) with
  | timeout => rw [hev] at ht; rcases ht with ht | ⟨_, ht⟩ | ⟨_, ht⟩ <;> cases ht
  | ok v u =>
    rw [hev] at ht htr
    obtain ⟨log, h1, h2, -⟩ := htr
    rcases ht with ht | ⟨_, ht⟩ | ⟨_, ht⟩ <;> cases ht
    exact ⟨log, _, .ref h1, h2⟩
  | fail u =>
    rw [hev] at ht htr
    obtain ⟨log, h1, h2, -⟩ := htr
    rcases ht with ht | ⟨_, ht⟩ | ⟨_, ht⟩ <;> cases ht
    exact ⟨log, _, .ref h1, h2⟩
  | panic m u =>
    have hrp := evalInit_reports (parseFuel data) { o with maxExpr := none } data ff
    rw [evalInit_eq, hev] at hrp
    rw [hev] at ht htr h
    have hu : u = t := by rcases ht with ht | ⟨_, ht⟩ | ⟨_, ht⟩ <;> cases ht; rfl
    subst hu
    have hlast : ∃ e ∈ (finish filename (.panic m u)).1.errs, e.msg = m := by
      simp only [finish, ParseRes.errs, St.addErr, St.addErrAt]
      have hmem : (⟨u.pt.pos, u.rstack.head?, m⟩ : PErr) ∈ u.errs ++ [⟨u.pt.pos, u.rstack.head?, m⟩] := by simp
      rcases dedupe_text (filename := filename) (seen := []) hmem with h1 | ⟨e, he, htx⟩
      · cases h1
      · refine ⟨e, he, ?_⟩
        have hre : Reports e.rule e.msg := by
          rcases List.mem_append.1 (dedupe_mem he) with h1 | h1
          · exact (hrp.1.errs e h1).reports
          · simp only [List.mem_singleton] at h1; subst h1; exact hrp.2.reports
        rw [text_inj hre hrp.2.reports htx]
    obtain ⟨e, he, hem⟩ := hlast
    have := h e he
    rw [hem] at this
    rcases htr with h1 | h1 | ⟨log, h1, h2⟩
    · exact absurd h1 this.1
    · exact absurd h1 this.2
    · exact ⟨log, _, .ref h1, h2⟩

theorem showNewline_onLine (s : Bytes) : OnLine s (showNewline s) := by
  induction s with
  | nil => exact .nil
  | cons b s ih =>
    have hs : showNewline (b :: s) = (if b = 10 then b!"\\n" else [b]) ++ showNewline s := by
      simp [showNewline]
    rw [hs]
    by_cases h : b = 10
    · rw [if_pos h, h]; exact .newline ih
    · rw [if_neg h]; exact .other h ih

/-- A text is shown in one way. -/
theorem OnLine.det {s t t' : Bytes} (h : OnLine s t) (h' : OnLine s t') : t' = t := by
  induction h generalizing t' with
  | nil => cases h'; rfl
  | newline _ ih => cases h' with
    | newline h' => rw [ih h']
    | other hb => exact absurd rfl hb
  | other hb _ ih => cases h' with
    | newline => exact absurd rfl hb
    | other _ h' => rw [ih h']

/-- **C06** What `GetFarthestFailure` returns after a parse of a valid UTF-8 text: nothing if no expectation was missed,
otherwise the text that names the position of the construct before the first entry, the offset at which it ends, its
text on one line, and the messages of all entries. -/
theorem C06_text (o : Opts) (filename data : Bytes) (ff : List FF) (hv : ValidUTF8 data)
    (hm : o.maxExpr = none ∨ ∃ m, o.maxExpr = some m ∧ 4 ≤ m) :
    ((parse o filename data ff).2 = [] ∧ getFarthestFailure (parse o filename data ff).2 = ([], false)) ∨
    ∃ p t, getFarthestFailure (parse o filename data ff).2 = (t, true) ∧ (Located data p ∨ p = Pos.zero) ∧
      ReportText p ((parse o filename data ff).2.map FF.view) t := by
  have hr := C51_report o filename data ff hv hm
  cases h : (parse o filename data ff).2 with
  | nil => exact .inl ⟨rfl, rfl⟩
  | cons e es =>
    obtain ⟨h1, h2⟩ := hr e (by rw [h]; simp)
    refine .inr ⟨e.cpos, _, rfl, h1, e.view, es.map FF.view, showNewline e.ctext, rfl, ?_, showNewline_onLine _, ?_⟩
    · have : 0 ≤ e.cpos.offset := by
        rcases h1 with (h1 | ⟨k, -, h1⟩) | h1
        · rw [h1]; decide
        · rw [h1]; unfold posAt; split <;> simp
        · rw [h1]; decide
      simp only [FF.view]; omega
    · simp only [ffHeader, posStr, posText, FF.view, ffLine, List.flatMap, List.map_map, List.append_assoc, List.map_cons]
      rfl

/-- The text of the report after a parse: the construct before spans two lines. -/
example : getFarthestFailure (parse {} [] b!"filter{if 5\n x" []).2 =
    (b!"Parsing error at pos 2:0 [11] and [13] (after: '\\n '):\n-> expect in operator (in)\n-> expect not in operator (not in)\n-> expect compare operator (==, !=, <=, >=, <, >)\n-> expect regexp comparison operator (=~, !~)\n-> expect boolean operator (and, or, xor, nand)\n", true) := by
  decide +kernel

/-- A list of events and its report: two expectations after the construct `if 5`, one of them twice. -/
example : farthestOnes (unmets b!"if 5 x" [.reset, .built b!"5 x" b!" x", .unmet b!"a", .unmet b!"b", .unmet b!"a"]) =
    [⟨b!"a", 3, b!"5", 4⟩, ⟨b!"b", 3, b!"5", 4⟩] := by decide

/-- A parse whose report has five entries; the hypothesis of `C06_events` is met. -/
example : (parse {} [] b!"filter{if 5 x" []).2.map FF.view =
    [⟨b!"expect in operator (in)", 11, b!" ", 12⟩, ⟨b!"expect not in operator (not in)", 11, b!" ", 12⟩,
      ⟨b!"expect compare operator (==, !=, <=, >=, <, >)", 11, b!" ", 12⟩,
      ⟨b!"expect regexp comparison operator (=~, !~)", 11, b!" ", 12⟩,
      ⟨b!"expect boolean operator (and, or, xor, nand)", 11, b!" ", 12⟩] ∧
    ∀ e ∈ (parse {} [] b!"filter{if 5 x" []).1.errs,
      e.msg ≠ b!"max number of expresssions parsed" ∧ e.msg ≠ b!"interface conversion" := by decide +kernel

/-- A section whose block does not begin: the error is at the end of the text and names what could have followed. -/
example : (parse {} [] b!"input" []).1.errs = [⟨⟨1, 6, 5⟩, none,
    b!"no match found, expected: \"#\", \"{\" or [ \\t\\r\\n]"⟩] := by decide +kernel

/-- Text after the last section, where nothing is expected (`EOF`) or another section. -/
example : (parse {} [] b!"input {} x" []).1.errs = [⟨⟨1, 10, 9⟩, none,
    b!"no match found, expected: \"#\", \"filter\", \"input\", \"output\", [ \\t\\r\\n] or EOF"⟩] := by
  decide +kernel

/-- The attempts on a small expression: one of two words or the end of the text. -/
example : Tries false (.choice [.lit b!"in", .seq [.lit b!"i", .not .any]]) b!"if"
    [.missed b!"if" b!"\"in\"", .missed b!"f" b!"!."] .fail :=
  .choiceNext (l := [_]) (.litNo (by decide))
    (.choiceNext (l := [_]) (l' := []) (.seq (l := []) (.lit (b' := b!"f") (by decide)) (.seqNo (by simp) (.not (.any (by simp))))) .choiceNil)

end Verif.Props
