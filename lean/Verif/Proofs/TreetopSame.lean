import Verif.Proofs.Treetop
/-
Texts on which the changed grammar and the original one agree.
-/
namespace Verif.Spec.Treetop
open Verif.Tt (star_end)

theorem Matches.suffix {R : Type} {G : R → PEx R} {e : PEx R} {s : List Char} {x : Option (List Char)}
    (h : Matches G e s x) : ∀ t, x = some t → t <:+ s := by
  induction h with
  | lit => rintro _ ⟨⟩; exact List.suffix_append _ _
  | cls => rintro _ ⟨⟩; exact List.suffix_cons _ _
  | any => rintro _ ⟨⟩; exact List.suffix_cons _ _
  | seq _ _ h1 h2 => intro t ht; exact (h2 t ht).trans (h1 _ rfl)
  | altFirst _ h => exact h
  | altSecond _ _ _ h => exact h
  | starEnd => rintro _ ⟨⟩; exact List.suffix_rfl
  | starMore _ _ h1 h2 => intro t ht; exact (h2 t ht).trans (h1 _ rfl)
  | plus _ _ h1 h2 => intro t ht; exact (h2 t ht).trans (h1 _ rfl)
  | opt _ h => exact h
  | optNone => rintro _ ⟨⟩; exact List.suffix_rfl
  | not => rintro _ ⟨⟩; exact List.suffix_rfl
  | ref _ h => exact h
  | _ => rintro _ ⟨⟩

/-- Two grammars agree on the texts of a set closed under suffixes, if the rules of the first one, read
in the second one, have the same outcomes as the rules of the second one. -/
theorem Matches.carry {R : Type} {G G' : R → PEx R} {P : List Char → Prop}
    (hP : ∀ {s t}, P s → t <:+ s → P t)
    (hR : ∀ r s x, P s → Matches G' (G r) s x → Matches G' (G' r) s x)
    {e : PEx R} {s : List Char} {x : Option (List Char)} (h : Matches G e s x) (hs : P s) :
    Matches G' e s x := by
  induction h with
  | lit => exact .lit
  | litFail h => exact .litFail h
  | cls h => exact .cls h
  | clsFail h => exact .clsFail h
  | clsEnd => exact .clsEnd
  | any => exact .any
  | anyEnd => exact .anyEnd
  | seq h1 _ ih1 ih2 => exact .seq (ih1 hs) (ih2 (hP hs (h1.suffix _ rfl)))
  | seqFail _ ih => exact .seqFail (ih hs)
  | altFirst _ ih => exact .altFirst (ih hs)
  | altSecond _ _ ih1 ih2 => exact .altSecond (ih1 hs) (ih2 hs)
  | starEnd _ ih => exact .starEnd (ih hs)
  | starMore h1 _ ih1 ih2 => exact .starMore (ih1 hs) (ih2 (hP hs (h1.suffix _ rfl)))
  | plus h1 _ ih1 ih2 => exact .plus (ih1 hs) (ih2 (hP hs (h1.suffix _ rfl)))
  | plusFail _ ih => exact .plusFail (ih hs)
  | opt _ ih => exact .opt (ih hs)
  | optNone _ ih => exact .optNone (ih hs)
  | not _ ih => exact .not (ih hs)
  | notFail _ ih => exact .notFail (ih hs)
  | ref _ ih => exact .ref (hR _ _ _ hs (ih hs))

/-- Congruence of repetition, on a set closed under suffixes. -/
theorem Matches.starP {R : Type} {G : R → PEx R} {P : List Char → Prop} (hP : ∀ {s t}, P s → t <:+ s → P t)
    {a b : PEx R} (hab : ∀ s x, P s → Matches G a s x → Matches G b s x) {s : List Char} {x : Option (List Char)}
    (h : Matches G (.star a) s x) (hs : P s) : Matches G (.star b) s x := by
  generalize he : PEx.star a = e at h
  induction h with
  | starEnd h => cases he; exact .starEnd (hab _ _ hs h)
  | starMore h _ _ ih => cases he; exact .starMore (hab _ _ hs h) (ih (hP hs (h.suffix _ rfl)) rfl)
  | _ => cases he

variable {G : TRule → PEx TRule}

/-! ### Texts without `#` -/

theorem hash_fails {s : List Char} (h : '#' ∉ s) (e : PEx TRule) : Matches G (tok c!"#" ;; e) s none := by
  refine .seqFail (.litFail ?_)
  rintro ⟨t, rfl⟩
  simp at h

/-- The two versions of a line of comments, and all others. -/
theorem no_comment {s : List Char} (h : '#' ∉ s) {e e' : PEx TRule} {x : Option (List Char)}
    (hm : Matches G (.plus (.opt (.ref .whitespace) ;; tok c!"#" ;; e)) s x) :
    Matches G (.plus (.opt (.ref .whitespace) ;; tok c!"#" ;; e')) s x := by
  have key : ∀ t, t <:+ s → '#' ∉ t := fun t ht hh => h (ht.mem hh)
  cases hm with
  | plus h1 _ =>
    cases h1 with
    | seq h2 h3 => have := h3.det (hash_fails (key _ (h2.suffix _ rfl)) e); cases this
  | plusFail h1 =>
    cases h1 with
    | seq h2 h3 => exact .plusFail (.seq h2 (hash_fails (key _ (h2.suffix _ rfl)) e'))
    | seqFail h2 => cases h2

theorem plus_end {a : PEx TRule} {s t : List Char} (h : Matches G (.plus a) s (some t)) : Matches G a t none := by
  cases h with
  | plus h1 h2 => exact star_end h2

/-- Repetition of a class always ends. -/
theorem star_cls (n : Bool) (cs : List Char) (rs : List (Char × Char)) (s : List Char) :
    ∃ t, Matches G (.star (.cls n cs rs)) s (some t) := by
  induction s with
  | nil => exact ⟨[], .starEnd .clsEnd⟩
  | cons c s ih =>
    cases h : inClass n cs rs c with
    | true => obtain ⟨t, ht⟩ := ih; exact ⟨t, .starMore (.cls h) ht⟩
    | false => exact ⟨_, .starEnd (.clsFail h)⟩

theorem plus_cls (n : Bool) (cs : List Char) (rs : List (Char × Char)) (s : List Char) :
    ∃ x, Matches G (.plus (.cls n cs rs)) s x := by
  cases s with
  | nil => exact ⟨none, .plusFail .clsEnd⟩
  | cons c s =>
    cases h : inClass n cs rs c with
    | true => obtain ⟨t, ht⟩ := star_cls (G := G) n cs rs s; exact ⟨_, .plus (.cls h) ht⟩
    | false => exact ⟨none, .plusFail (.clsFail h)⟩

/-- What the grammars have in common. -/
structure Common (G : TRule → PEx TRule) : Prop where
  ws : G .whitespace = treetop .whitespace
  gap : G .gap = treetop .gap
  comment : ∃ e, G .comment = .plus (.opt (.ref .whitespace) ;; tok c!"#" ;; e)
  bareword : G .bareword = treetop .bareword
  method : G .method = treetop .method
  methodCall : G .methodCall = treetop .methodCall

theorem common_treetop : Common treetop := ⟨rfl, rfl, ⟨_, rfl⟩, rfl, rfl, rfl⟩
theorem common_changed : Common changed := ⟨rfl, rfl, ⟨_, rfl⟩, rfl, rfl, rfl⟩

theorem ws_total (hG : Common G) (s : List Char) : ∃ x, Matches G (.ref .whitespace) s x := by
  obtain ⟨x, h⟩ := plus_cls (G := G) false [' ', '\t', '\r', '\n'] [] s
  exact ⟨x, .ref (by rw [hG.ws]; exact h)⟩

theorem ws_end (hG : Common G) {s t : List Char} (h : Matches G (.ref .whitespace) s (some t)) :
    Matches G (.ref .whitespace) t none := by
  cases h with
  | ref h =>
    rw [hG.ws] at h
    exact .ref (by rw [hG.ws]; exact .plusFail (plus_end h))

theorem comment_fails (hG : Common G) {s : List Char} (h : '#' ∉ s) : Matches G (.ref .comment) s none := by
  obtain ⟨e, he⟩ := hG.comment
  refine .ref ?_
  rw [he]
  obtain ⟨x, hx⟩ := ws_total hG s
  cases x with
  | none => exact .plusFail (.seq (.optNone hx) (hash_fails h e))
  | some t => exact .plusFail (.seq (.opt hx) (hash_fails (fun hh => h ((hx.suffix _ rfl).mem hh)) e))

/-- Without `#` there is no gap where there is no white space. -/
theorem gap_empty (hG : Common G) {s : List Char} (h : '#' ∉ s) (hw : Matches G (.ref .whitespace) s none) :
    Matches G g s (some s) := by
  refine .ref ?_
  rw [hG.gap]
  exact .starEnd (.altSecond (comment_fails hG h) hw)

theorem gap_total (hG : Common G) {s : List Char} (h : '#' ∉ s) : ∃ t, Matches G g s (some t) := by
  obtain ⟨x, hx⟩ := ws_total hG s
  cases x with
  | none => exact ⟨s, gap_empty hG h hx⟩
  | some t =>
    have h1 := gap_empty hG (s := t) (fun hh => h ((hx.suffix _ rfl).mem hh)) (ws_end hG hx)
    refine ⟨t, .ref ?_⟩
    rw [hG.gap]
    cases h1 with
    | ref h1 => rw [hG.gap] at h1; exact .starMore (.altSecond (comment_fails hG h) hx) h1

theorem bareword_total (hG : Common G) (s : List Char) : ∃ x, Matches G (.ref .bareword) s x := by
  suffices ∃ x, Matches G (treetop .bareword) s x by
    obtain ⟨x, h⟩ := this
    exact ⟨x, .ref (by rw [hG.bareword]; exact h)⟩
  cases s with
  | nil => exact ⟨none, .seqFail .clsEnd⟩
  | cons c s =>
    cases h : inClass false ['_'] AZ c with
    | false => exact ⟨none, .seqFail (.clsFail h)⟩
    | true =>
      obtain ⟨x, hx⟩ := plus_cls (G := G) false ['_'] (AZ ++ [('0', '9')]) s
      exact ⟨x, .seq (.cls h) hx⟩

/-- Without a parenthesis there is no method call. -/
theorem method_fails (hG : Common G) {s : List Char} (h : '#' ∉ s) (hp : '(' ∉ s) :
    Matches G (.ref .methodCall) s none := by
  refine .ref ?_
  rw [hG.methodCall]
  obtain ⟨x, hx⟩ := bareword_total hG s
  have hm : Matches G (.ref .method) s x := .ref (by rw [hG.method]; exact hx)
  cases x with
  | none => exact .seqFail hm
  | some t =>
    have ht := hx.suffix _ rfl
    obtain ⟨u, hu⟩ := gap_total hG (s := t) (fun hh => h (ht.mem hh))
    refine .seq hm (.seq hu (.seqFail (.litFail ?_)))
    rintro ⟨w, rfl⟩
    exact hp (ht.mem ((hu.suffix _ rfl).mem (by simp)))

/-! ### Field references -/

/-- The characters up to the next `]` or `,` contain no `[`. -/
def flat : List Char → Bool
  | [] => true
  | c :: s => if c = ']' ∨ c = ',' then true else c ≠ '[' && flat s

theorem flat_star {s : List Char} (h : flat s = true) {x : Option (List Char)} :
    (Matches G (.star (.cls true [']', ','] [])) s x → Matches G (.star (.cls true [']', '[', ','] [])) s x) ∧
    (Matches G (.star (.cls true [']', '[', ','] [])) s x → Matches G (.star (.cls true [']', ','] [])) s x) := by
  induction s with
  | nil =>
    constructor <;> intro hm
    · have := hm.det (.starEnd .clsEnd); subst this; exact .starEnd .clsEnd
    · have := hm.det (.starEnd .clsEnd); subst this; exact .starEnd .clsEnd
  | cons c s ih =>
    simp only [flat] at h
    by_cases hc : c = ']' ∨ c = ','
    · have h1 : inClass true [']', ','] [] c = false := by rcases hc with rfl | rfl <;> rfl
      have h2 : inClass true [']', '[', ','] [] c = false := by rcases hc with rfl | rfl <;> rfl
      constructor <;> intro hm
      · have := hm.det (.starEnd (.clsFail h1)); subst this; exact .starEnd (.clsFail h2)
      · have := hm.det (.starEnd (.clsFail h2)); subst this; exact .starEnd (.clsFail h1)
    · rw [if_neg hc] at h
      simp only [Bool.and_eq_true, decide_eq_true_eq] at h
      have h1 : inClass true [']', ','] [] c = true := by
        simp only [not_or] at hc; simp [inClass, hc]
      have h2 : inClass true [']', '[', ','] [] c = true := by
        simp only [not_or] at hc; simp [inClass, hc, h.1]
      obtain ⟨ih1, ih2⟩ := ih h.2
      constructor <;> intro hm
      · cases hm with
        | starEnd h3 => have := h3.det (.cls h1); cases this
        | starMore h3 h4 =>
          have := h3.det (.cls h1)
          simp only [Option.some.injEq] at this
          subst this
          exact .starMore (.cls h2) (ih1 h4)
      · cases hm with
        | starEnd h3 => have := h3.det (.cls h2); cases this
        | starMore h3 h4 =>
          have := h3.det (.cls h2)
          simp only [Option.some.injEq] at this
          subst this
          exact .starMore (.cls h1) (ih2 h4)

theorem flat_plus {s : List Char} (h : flat s = true) {x : Option (List Char)} :
    (Matches G (.plus (.cls true [']', ','] [])) s x → Matches G (.plus (.cls true [']', '[', ','] [])) s x) ∧
    (Matches G (.plus (.cls true [']', '[', ','] [])) s x → Matches G (.plus (.cls true [']', ','] [])) s x) := by
  cases s with
  | nil =>
    constructor <;> intro hm
    · have := hm.det (.plusFail .clsEnd); subst this; exact .plusFail .clsEnd
    · have := hm.det (.plusFail .clsEnd); subst this; exact .plusFail .clsEnd
  | cons c s =>
    simp only [flat] at h
    by_cases hc : c = ']' ∨ c = ','
    · have h1 : inClass true [']', ','] [] c = false := by rcases hc with rfl | rfl <;> rfl
      have h2 : inClass true [']', '[', ','] [] c = false := by rcases hc with rfl | rfl <;> rfl
      constructor <;> intro hm
      · have := hm.det (.plusFail (.clsFail h1)); subst this; exact .plusFail (.clsFail h2)
      · have := hm.det (.plusFail (.clsFail h2)); subst this; exact .plusFail (.clsFail h1)
    · rw [if_neg hc] at h
      simp only [Bool.and_eq_true, decide_eq_true_eq] at h
      have h1 : inClass true [']', ','] [] c = true := by
        simp only [not_or] at hc; simp [inClass, hc]
      have h2 : inClass true [']', '[', ','] [] c = true := by
        simp only [not_or] at hc; simp [inClass, hc, h.1]
      constructor <;> intro hm
      · cases hm with
        | plusFail h3 => have := h3.det (.cls h1); cases this
        | plus h3 h4 =>
          have := h3.det (.cls h1)
          simp only [Option.some.injEq] at this
          subst this
          exact .plus (.cls h2) ((flat_star h.2).1 h4)
      · cases hm with
        | plusFail h3 => have := h3.det (.cls h2); cases this
        | plus h3 h4 =>
          have := h3.det (.cls h2)
          simp only [Option.some.injEq] at this
          subst this
          exact .plus (.cls h1) ((flat_star h.2).2 h4)

theorem not_flat {s : List Char} (h : flat s = false) :
    ∃ v w, s = v ++ '[' :: w ∧ ']' ∉ v ∧ ',' ∉ v := by
  induction s with
  | nil => cases h
  | cons c s ih =>
    simp only [flat] at h
    by_cases hc : c = ']' ∨ c = ','
    · rw [if_pos hc] at h; cases h
    · rw [if_neg hc] at h
      simp only [Bool.and_eq_false_iff, decide_eq_false_iff_not, Decidable.not_not] at h
      rcases h with rfl | h
      · exact ⟨[], s, rfl, by simp, by simp⟩
      · obtain ⟨v, w, rfl, h1, h2⟩ := ih h
        refine ⟨c :: v, w, rfl, ?_, ?_⟩ <;> grind

/-! ### The two grammars -/

theorem Untouched.suffix {s t : List Char} (h : Untouched s) (ht : t <:+ s) : Untouched t := by
  obtain ⟨p, rfl⟩ := ht
  refine ⟨fun hh => h.comments (by simp [hh]), fun hh => h.methods (by simp [hh]), ?_⟩
  rintro u v w rfl
  exact h.references (p ++ u) v w (by simp)

theorem Untouched.flat {s : List Char} (h : Untouched ('[' :: s)) : flat s = true := by
  cases hf : Treetop.flat s with
  | true => rfl
  | false =>
    obtain ⟨v, w, rfl, h1, h2⟩ := not_flat hf
    rcases h.references [] v w rfl with h | h
    · exact absurd h h1
    · exact absurd h h2

/-- Field references. -/
theorem reference_same {s : List Char} (h : Untouched s) {x : Option (List Char)} :
    (Matches G (treetop .selectorElement) s x → Matches G (changed .selectorElement) s x) ∧
    (Matches G (changed .selectorElement) s x → Matches G (treetop .selectorElement) s x) := by
  cases s with
  | nil =>
    have key : ∀ e : PEx TRule, Matches G (tok c!"[" ;; e) [] none := fun e => .seqFail (.litFail (by simp))
    constructor <;> intro hm
    · have := hm.det (key _); subst this; exact key _
    · have := hm.det (key _); subst this; exact key _
  | cons c s =>
    by_cases hc : c = '['
    · subst hc
      have hl : Matches G (tok c!"[") ('[' :: s) (some s) := .lit (s := ['['])
      have hf := h.flat
      constructor <;> intro hm
      · cases hm with
        | seqFail h1 => have := h1.det hl; cases this
        | seq h1 h2 =>
          have := h1.det hl
          simp only [Option.some.injEq] at this
          subst this
          cases h2 with
          | seqFail h3 => exact .seq hl (.seqFail ((flat_plus hf).1 h3))
          | seq h3 h4 => exact .seq hl (.seq ((flat_plus hf).1 h3) h4)
      · cases hm with
        | seqFail h1 => have := h1.det hl; cases this
        | seq h1 h2 =>
          have := h1.det hl
          simp only [Option.some.injEq] at this
          subst this
          cases h2 with
          | seqFail h3 => exact .seq hl (.seqFail ((flat_plus hf).2 h3))
          | seq h3 h4 => exact .seq hl (.seq ((flat_plus hf).2 h3) h4)
    · have key : ∀ e : PEx TRule, Matches G (tok c!"[" ;; e) (c :: s) none := fun e =>
        .seqFail (.litFail (by simpa using fun h => hc h.symm))
      constructor <;> intro hm
      · have := hm.det (key _); subst this; exact key _
      · have := hm.det (key _); subst this; exact key _

/-- Right sides of conditions. -/
theorem rvalue_same (hG : Common G) {s : List Char} (h : Untouched s) {x : Option (List Char)} :
    (Matches G (treetop .rvalue) s x → Matches G (changed .rvalue) s x) ∧
    (Matches G (changed .rvalue) s x → Matches G (treetop .rvalue) s x) := by
  have hm := method_fails hG h.comments h.methods
  constructor
  · intro h1
    cases h1 with
    | altFirst h1 => exact .altFirst h1
    | altSecond h1 h2 =>
    refine .altSecond h1 ?_
    cases h2 with
    | altFirst h1 => exact .altFirst h1
    | altSecond h1 h2 =>
    refine .altSecond h1 ?_
    cases h2 with
    | altFirst h1 => exact .altFirst h1
    | altSecond h1 h2 =>
    refine .altSecond h1 ?_
    cases h2 with
    | altFirst h1 => exact .altFirst h1
    | altSecond h1 h2 =>
    refine .altSecond h1 ?_
    cases h2 with
    | altFirst h1 => have := h1.det hm; cases this
    | altSecond h1 h2 => exact h2
  · intro h1
    cases h1 with
    | altFirst h1 => exact .altFirst h1
    | altSecond h1 h2 =>
    refine .altSecond h1 ?_
    cases h2 with
    | altFirst h1 => exact .altFirst h1
    | altSecond h1 h2 =>
    refine .altSecond h1 ?_
    cases h2 with
    | altFirst h1 => exact .altFirst h1
    | altSecond h1 h2 =>
    refine .altSecond h1 ?_
    cases h2 with
    | altFirst h1 => exact .altFirst h1
    | altSecond h1 h2 =>
    exact .altSecond h1 (.altSecond hm h2)

/-- Entries of hashes. -/
theorem entry_same (hG : Common G) {s : List Char} (h : Untouched s) {x : Option (List Char)} (e : PEx TRule) :
    (Matches G (.ref .whitespace ;; e) s x → Matches G (.ref .whitespace ;; g ;; e) s x) ∧
    (Matches G (.ref .whitespace ;; g ;; e) s x → Matches G (.ref .whitespace ;; e) s x) := by
  constructor
  · intro h1
    cases h1 with
    | seqFail h1 => exact .seqFail h1
    | seq h1 h2 =>
      exact .seq h1 (.seq (gap_empty hG (h.suffix (h1.suffix _ rfl)).comments (ws_end hG h1)) h2)
  · intro h1
    cases h1 with
    | seqFail h1 => exact .seqFail h1
    | seq h1 h2 =>
      have hg := gap_empty hG (h.suffix (h1.suffix _ rfl)).comments (ws_end hG h1)
      cases h2 with
      | seqFail h3 => have := h3.det hg; cases this
      | seq h3 h4 =>
        have := h3.det hg
        simp only [Option.some.injEq] at this
        subst this
        exact .seq h1 h4

theorem hashentries_same (hG : Common G) {s : List Char} (h : Untouched s) {x : Option (List Char)} :
    (Matches G (treetop .hashentries) s x → Matches G (changed .hashentries) s x) ∧
    (Matches G (changed .hashentries) s x → Matches G (treetop .hashentries) s x) := by
  constructor
  · intro h1
    cases h1 with
    | seqFail h1 => exact .seqFail h1
    | seq h1 h2 =>
      exact .seq h1 (h2.starP Untouched.suffix (fun _ _ hs => (entry_same hG hs _).1) (h.suffix (h1.suffix _ rfl)))
  · intro h1
    cases h1 with
    | seqFail h1 => exact .seqFail h1
    | seq h1 h2 =>
      exact .seq h1 (h2.starP Untouched.suffix (fun _ _ hs => (entry_same hG hs _).2) (h.suffix (h1.suffix _ rfl)))

theorem treetop_changed {e : PEx TRule} {s : List Char} {x : Option (List Char)} (h : Matches treetop e s x)
    (hs : Untouched s) : Matches changed e s x := by
  refine h.carry Untouched.suffix (fun r s x hs hm => ?_) hs
  cases r with
  | comment => exact no_comment hs.comments hm
  | hashentries => exact (hashentries_same common_changed hs).1 hm
  | rvalue => exact (rvalue_same common_changed hs).1 hm
  | selectorElement => exact (reference_same hs).1 hm
  | _ => exact hm

theorem changed_treetop {e : PEx TRule} {s : List Char} {x : Option (List Char)} (h : Matches changed e s x)
    (hs : Untouched s) : Matches treetop e s x := by
  refine h.carry Untouched.suffix (fun r s x hs hm => ?_) hs
  cases r with
  | comment => exact no_comment hs.comments hm
  | hashentries => exact (hashentries_same common_treetop hs).2 hm
  | rvalue => exact (rvalue_same common_treetop hs).2 hm
  | selectorElement => exact (reference_same hs).2 hm
  | _ => exact hm

/-- A test for the condition on brackets. -/
def allFlat : List Char → Bool
  | [] => true
  | c :: s => (c != '[' || flat s) && allFlat s

theorem flat_mem {v w : List Char} (h : flat (v ++ '[' :: w) = true) : ']' ∈ v ∨ ',' ∈ v := by
  induction v with
  | nil => simp [flat] at h
  | cons c v ih =>
    simp only [List.cons_append, flat] at h
    by_cases hc : c = ']' ∨ c = ','
    · rcases hc with rfl | rfl <;> simp
    · rw [if_neg hc] at h
      simp only [Bool.and_eq_true] at h
      rcases ih h.2 with h | h <;> simp [h]

theorem untouched_of {s : List Char} (h1 : '#' ∉ s) (h2 : '(' ∉ s) (h3 : allFlat s = true) : Untouched s := by
  refine ⟨h1, h2, ?_⟩
  rintro u v w rfl
  clear h1 h2
  induction u with
  | nil =>
    simp only [List.nil_append, allFlat, Bool.and_eq_true, Bool.or_eq_true] at h3
    exact flat_mem (by simpa using h3.1)
  | cons c u ih =>
    simp only [List.cons_append, allFlat, Bool.and_eq_true] at h3
    exact ih h3.2

theorem encode_inj {s t : List Char} (h : encode s = encode t) : s = t := by
  induction s generalizing t with
  | nil =>
    cases t with
    | nil => rfl
    | cons c t => exact absurd h.symm (encode_ne_nil c t)
  | cons c s ih =>
    cases t with
    | nil => exact absurd h (encode_ne_nil c s)
    | cons d t =>
      have h1 := decode_cons c s
      rw [h, decode_cons] at h1
      have h2 := nextB_cons c s
      rw [h, nextB_cons] at h2
      rw [ih h2.symm, ← Char.ofNat_toNat c, ← h1, Char.ofNat_toNat]

end Verif.Spec.Treetop
