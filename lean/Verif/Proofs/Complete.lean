import Verif.Proofs.SoundBase
/-
Completeness of the grammar: the text of a concrete syntax tree is accepted, and the value is the
configuration the tree denotes.  First part: plugins and values.
-/
namespace Verif
open Spec

section
variable {o : Opts}

/-! ### First characters -/

theorem takeWhile_nil {p : UInt8 → Bool} {b : Bytes} (h : ∀ c, b.head? = some c → p c = false) : b.takeWhile p = [] := by
  cases b with
  | nil => rfl
  | cons c t => simp [List.takeWhile, h c rfl]

theorem stop_head {b : Bytes} (h : ∀ c, b.head? = some c → isStop c = true) : Stop b := by
  cases b with
  | nil => exact stop_nil
  | cons c t => exact stop_cons (h c rfl)

theorem not_prefix_of_head {tok b : Bytes} {x : UInt8} {y : Bytes} (ht : tok = x :: y) (h : b.head? ≠ some x) : ¬ tok <+: b := by
  rintro ⟨t, rfl⟩
  rw [ht] at h
  simp at h

/-- Characters a gap can start with. -/
def isGapChar (c : UInt8) : Bool := isWs c || c == 35

theorem gap_head {g : Gap} {X : Bytes} {c : UInt8} (hg : g.Ok) (h : (g.text ++ X).head? = some c) :
    isGapChar c = true ∨ (g = .empty ∧ X.head? = some c) := by
  obtain ⟨ls, tl⟩ := g
  obtain ⟨h1, h2⟩ := hg
  cases ls with
  | nil =>
    simp only [Gap.text, List.flatMap_nil, List.nil_append] at h
    cases tl with
    | nil => exact .inr ⟨rfl, by simpa using h⟩
    | cons d t =>
      simp only [List.cons_append, List.head?_cons, Option.some.injEq] at h
      subst h
      simp only [List.all_cons, Bool.and_eq_true] at h2
      exact .inl (by simp [isGapChar, h2.1])
  | cons l ls =>
    have h3 := (h1 l (by simp)).1.1
    obtain ⟨ws, body, cr, lf⟩ := l
    left
    simp only [Gap.text, List.flatMap_cons, CommentLine.text] at h
    cases ws with
    | nil =>
      simp only [List.nil_append, List.cons_append, List.head?_cons, Option.some.injEq] at h
      subst h; decide
    | cons d t =>
      simp only [List.cons_append, List.head?_cons, Option.some.injEq] at h
      subst h
      simp only [List.all_cons, Bool.and_eq_true] at h3
      simp [isGapChar, h3.1]

theorem name_head {s : StrLit} (h : s.Name) {X : Bytes} {c : UInt8} (hc : (s.text ++ X).head? = some c) :
    isNameChar c = true ∨ c = 34 ∨ c = 39 := by
  obtain ⟨sat, body⟩ := s
  rcases h with ⟨h, h1, h2⟩ | ⟨h, _⟩ | ⟨h, _⟩ <;> simp only at h <;> subst h
  · cases body with
    | nil => exact absurd rfl h1
    | cons d t =>
      simp only [StrLit.text, StrLit.quote, List.nil_append, List.append_nil, List.cons_append, List.head?_cons, Option.some.injEq] at hc
      subst hc
      simp only [List.all_cons, Bool.and_eq_true] at h2
      exact .inl h2.1
  · simp [StrLit.text, StrLit.quote] at hc; exact .inr (.inl hc.symm)
  · simp [StrLit.text, StrLit.quote] at hc; exact .inr (.inr hc.symm)

theorem nameChar_stop : ∀ c : UInt8, isNameChar c = true → isStop c = true := by decide +kernel
theorem nameChar_brace : ∀ c : UInt8, isNameChar c = true → c ≠ 123 := by decide +kernel
theorem wordChar_name : ∀ c : UInt8, isWordChar c = true → isNameChar c = true := by decide +kernel
theorem wordStart_name : ∀ c : UInt8, isWordStart c = true → isNameChar c = true := by decide +kernel
theorem digit_name : ∀ c : UInt8, Spec.isDigit c = true → isNameChar c = true := by decide +kernel
theorem gapChar_name : ∀ c : UInt8, isGapChar c = true → isNameChar c = false := by decide +kernel
theorem gapChar_num : ∀ c : UInt8, isGapChar c = true → isNumChar c = false := by decide +kernel
theorem gapChar_word : ∀ c : UInt8, isGapChar c = true → isWordChar c = false := by decide +kernel
theorem nameChar_not_word {c : UInt8} (h : isNameChar c = false) : isWordChar c = false := by
  cases h1 : isWordChar c
  · rfl
  · rw [wordChar_name c h1] at h; cases h

theorem name_stop {s : StrLit} (h : s.Name) (X : Bytes) : Stop (s.text ++ X) := by
  refine stop_head fun c hc => ?_
  rcases name_head h hc with h | rfl | rfl
  · exact nameChar_stop c h
  · decide
  · decide

/-! ### Failing plugins -/

theorem plugin_fail_name {b : Bytes} (hs : Stop b) (h : Fails o G.name b) : Fails o G.plugin b := by
  unfold Fails
  rw [G.plugin, action_fail, run_seq, seqR_cons_fail]
  refine .inr ⟨_, _, _, labeled_ok.2 ⟨runs_gap.2 ⟨rfl, rfl⟩, rfl⟩, ?_⟩
  rw [seqR_cons_fail, gapOf_stop hs]
  exact .inl (labeled_fail.2 h)

theorem plugin_fail_brace {b b1 : Bytes} {v : Val} (hs : Stop b) (h : Runs o G.name b v b1)
    (h2 : (gapOf b1).2.head? ≠ some 123) : Fails o G.plugin b := by
  unfold Fails
  rw [G.plugin, action_fail, run_seq, seqR_cons_fail]
  refine .inr ⟨_, _, _, labeled_ok.2 ⟨runs_gap.2 ⟨rfl, rfl⟩, rfl⟩, ?_⟩
  rw [seqR_cons_fail, gapOf_stop hs]
  refine .inr ⟨_, _, _, labeled_ok.2 ⟨h, rfl⟩, ?_⟩
  rw [seqR_cons_fail]
  refine .inr ⟨_, _, _, gapS_ok.2 ⟨rfl, rfl, rfl⟩, ?_⟩
  rw [seqR_cons_fail]
  refine .inr ⟨_, _, _, warn_ok.2 ⟨rfl, rfl, rfl⟩, ?_⟩
  rw [seqR_cons_fail]
  exact .inl ((tok_fail (by decide)).2 (not_prefix_of_head rfl h2))

/-! ### What may follow a value -/

/-- What may follow a value: the end, a gap, `}`, `]` or `,`, and after the gap no `{`. -/
def ValFollow (b : Bytes) : Prop :=
  (∀ c, b.head? = some c → isGapChar c = true ∨ c = 125 ∨ c = 93 ∨ c = 44) ∧ (gapOf b).2.head? ≠ some 123

theorem ValFollow.name {b : Bytes} (h : ValFollow b) : b.takeWhile isNameChar = [] := by
  refine takeWhile_nil fun c hc => ?_
  rcases h.1 c hc with h | rfl | rfl | rfl
  · exact gapChar_name c h
  all_goals decide
theorem ValFollow.word {b : Bytes} (h : ValFollow b) : b.takeWhile isWordChar = [] := by
  refine takeWhile_nil fun c hc => ?_
  rcases h.1 c hc with h | rfl | rfl | rfl
  · exact gapChar_word c h
  all_goals decide
theorem ValFollow.num {b : Bytes} (h : ValFollow b) : b.takeWhile isNumChar = [] := by
  refine takeWhile_nil fun c hc => ?_
  rcases h.1 c hc with h | rfl | rfl | rfl
  · exact gapChar_num c h
  all_goals decide

/-- A gap and a closing token may follow a value. -/
theorem valFollow_gap {g : Gap} (hg : g.Ok) {c : UInt8} (X : Bytes) (hc : c = 125 ∨ c = 93 ∨ c = 44) :
    ValFollow (g.text ++ c :: X) := by
  have hs : isStop c = true := by rcases hc with rfl | rfl | rfl <;> decide
  constructor
  · intro d hd
    rcases gap_head hg hd with h | ⟨_, h⟩
    · exact .inl h
    · simp at h; subst h; exact .inr hc
  · rw [gapOf_text hg (stop_cons hs)]
    rcases hc with rfl | rfl | rfl <;> simp

theorem sep_gap {sep : Bytes} {com : Gap} (h : SepOk sep com) (hc : com.Ok) : ∃ g : Gap, g.Ok ∧ g.text = sep ++ com.text := by
  obtain ⟨h1, h2, h3⟩ := h
  obtain ⟨ls, tl⟩ := com
  cases ls with
  | nil =>
    simp only at h3
    subst h3
    exact ⟨⟨[], sep⟩, ⟨by simp, h2⟩, by simp [Gap.text]⟩
  | cons l ls =>
    obtain ⟨ws, body, cr, lf⟩ := l
    simp only at h3
    subst h3
    refine ⟨⟨⟨sep, body, cr, lf⟩ :: ls, tl⟩, ⟨?_, hc.2⟩, by simp [Gap.text, CommentLine.text]⟩
    intro l hl
    rcases List.mem_cons.1 hl with rfl | hl
    · have := hc.1 _ (List.mem_cons_self ..)
      exact ⟨⟨h2, this.1.2⟩, this.2⟩
    · exact hc.1 l (by simp [hl])

/-- A separator, a gap and a name may follow a value. -/
theorem valFollow_sep {sep : Bytes} {com : Gap} (h : SepOk sep com) (hc : com.Ok) {X : Bytes}
    (hX : ∀ c, X.head? = some c → isStop c = true ∧ c ≠ 123) : ValFollow (sep ++ (com.text ++ X)) := by
  obtain ⟨g, g1, g2⟩ := sep_gap h hc
  rw [← List.append_assoc, ← g2]
  constructor
  · intro d hd
    rcases gap_head g1 hd with h | ⟨rfl, _⟩
    · exact .inl h
    · have : sep ++ com.text = [] := by rw [← g2]; rfl
      exact absurd (List.append_eq_nil_iff.1 this).1 h.1
  · rw [gapOf_text g1 (stop_head fun c hc => (hX c hc).1)]
    intro hd
    exact (hX _ hd).2 rfl

theorem sep_takeWhile {sep : Bytes} {com : Gap} (h : SepOk sep com) {X : Bytes}
    (hX : ∀ c, X.head? = some c → isStop c = true) :
    (sep ++ (com.text ++ X)).takeWhile isWs = sep ∧ (sep ++ (com.text ++ X)).dropWhile isWs = com.text ++ X := by
  obtain ⟨h1, h2, h3⟩ := h
  have key : (com.text ++ X).takeWhile isWs = [] := by
    obtain ⟨ls, tl⟩ := com
    cases ls with
    | nil =>
      simp only at h3
      subst h3
      simp only [Gap.text, List.flatMap_nil, List.append_nil, List.nil_append]
      refine takeWhile_nil fun c hc => ?_
      have := hX c hc
      simp only [isStop, Bool.and_eq_true, Bool.not_eq_true'] at this
      exact this.1
    | cons l ls =>
      obtain ⟨ws, body, cr, lf⟩ := l
      simp only at h3
      subst h3
      simp only [Gap.text, List.flatMap_cons, CommentLine.text, List.nil_append, List.cons_append]
      rfl
  constructor
  · rw [takeWhile_append_all _ h2, key, List.append_nil]
  · rw [dropWhile_append_all _ h2]
    exact dropWhile_of_takeWhile_nil key

/-! ### Building runs -/

/-- The result of running a sequence, whatever was accumulated before, satisfies `P`. -/
def SeqP (o : Opts) (P : Res → Prop) (es : List Ex) (b : Bytes) (fr : Frame) : Prop := ∀ acc, P (seqR (run o) es acc b fr)
/-- Success leaving `b` and frame `fr`. -/
def OkAt (b : Bytes) (fr : Frame) (r : Res) : Prop := ∃ w, r = .ok w b fr
/-- Failure. -/
def IsFail (r : Res) : Prop := r = .fail

theorem seqA {e : Ex} {es : List Ex} {b b1 : Bytes} {fr fr1 : Frame} {v : Val} {P : Res → Prop}
    (h : run o e b fr = .ok v b1 fr1) (h2 : SeqP o P es b1 fr1) : SeqP o P (e :: es) b fr := by
  intro acc
  rw [seqR, h]; exact h2 _
theorem seqEnd {b : Bytes} {fr : Frame} : SeqP o (OkAt b fr) [] b fr := by
  intro acc; rw [seqR]; exact ⟨_, rfl⟩
theorem seqF {e : Ex} {es : List Ex} {b : Bytes} {fr : Frame} (h : run o e b fr = .fail) : SeqP o IsFail (e :: es) b fr := by
  intro acc; rw [seqR, h]; rfl
theorem labA {l : Lbl} {e : Ex} {b b1 : Bytes} {fr : Frame} {v : Val} (h : Runs o e b v b1) :
    run o (.labeled l e) b fr = .ok v b1 ((l, v) :: fr) := labeled_ok.2 ⟨h, rfl⟩
theorem refA {r : Rule} {b b1 : Bytes} {v : Val} (h : Runs o (gram r) b v b1) : Runs o (.ref r) b v b1 := runs_ref.2 h
theorem refF {r : Rule} {b : Bytes} (h : Fails o (gram r) b) : Fails o (.ref r) b := ref_fail.2 h
theorem actA {a : Act} {es : List Ex} {b b1 : Bytes} {v : Val} (fr : Frame) (h : SeqP o (OkAt b1 fr) es b [])
    (h2 : runAct o a fr Pos.zero (consumed b b1) [] = .val v) : Runs o (.action a (.seq es)) b v b1 := by
  obtain ⟨w, h⟩ := h []
  exact ⟨fr, action_ok.2 ⟨w, by rw [run_seq]; exact h, h2⟩⟩
theorem actF {a : Act} {es : List Ex} {b : Bytes} (h : SeqP o IsFail es b []) : Fails o (.action a (.seq es)) b := by
  unfold Fails; rw [action_fail, run_seq]; exact h []
theorem gapA {g : Gap} {X : Bytes} (hg : g.Ok) (hs : Stop X) : Runs o G.gap (g.text ++ X) (gapVal o g) X := by
  rw [runs_gap, gapOf_text hg hs]; exact ⟨rfl, rfl⟩
theorem gapSW {g : Gap} {X : Bytes} {es : List Ex} {fr : Frame} {P : Res → Prop} (hg : g.Ok) (hs : Stop X)
    (h : SeqP o P es X fr) : SeqP o P (G.gapS :: G.warn :: es) (g.text ++ X) fr := by
  refine seqA (gapS_ok.2 ⟨rfl, rfl, rfl⟩) ?_
  rw [gapOf_text hg hs]
  exact seqA (warn_ok.2 ⟨rfl, rfl, rfl⟩) h
theorem tokF {c : UInt8} {t : Bytes} {fr : Frame} {b : Bytes} (hc : Ascii (c :: t)) (h : b.head? ≠ some c) :
    run o (.lit (c :: t)) b fr = .fail := (tok_fail hc).2 (not_prefix_of_head rfl h)
theorem choiceA {es : List Ex} {b b1 : Bytes} {v : Val} (h : ∀ fr, choiceR (run o) es b fr = .ok v b1 fr) : Runs o (.choice es) b v b1 :=
  ⟨[], by rw [run_choice]; exact h []⟩
theorem choice1 {e : Ex} {es : List Ex} {b b1 : Bytes} {v : Val} {fr : Frame} (h : Runs o e b v b1) :
    choiceR (run o) (e :: es) b fr = .ok v b1 fr := choiceR_cons_ok.2 (.inl ⟨h, rfl⟩)
theorem choice2 {e : Ex} {es : List Ex} {b : Bytes} {fr : Frame} {r : Res} (h : Fails o e b) (h2 : choiceR (run o) es b fr = r) :
    choiceR (run o) (e :: es) b fr = r := by
  rw [choiceR, h]; exact h2
theorem gap_block {g : Gap} (hg : g.Ok) (sb sa : Bool) :
    commentBlock (gapVal o g) sb sa = g.block o.ignoreComments sb sa := by
  have := block_gap (o := o) (g.text ++ []) sb sa
  rwa [gapOf_text hg stop_nil] at this

/-! ### Failing values -/

theorem plugin_fail_head {b : Bytes} (hs : Stop b) (h1 : b.takeWhile isNameChar = []) (h2 : b.head? ≠ some 34) (h3 : b.head? ≠ some 39) :
    Fails o G.plugin b := plugin_fail_name hs (fails_name.2 ⟨h1, h2, h3⟩)

theorem bareword_fail_head {b : Bytes} (h : ∀ c, b.head? = some c → isWordStart c = false) : Fails o G.bareword b := by
  rw [fails_bareword]
  rintro ⟨c, d, t, rfl, h1, _⟩
  rw [h c rfl] at h1; cases h1

theorem number_fail_head {c : UInt8} {X : Bytes} (h1 : c ≠ 45) (h2 : Spec.isDigit c = false) : Fails o G.number (c :: X) := by
  rw [fails_number]
  have : signOf (c :: X) = ([], c :: X) := by
    unfold signOf
    split
    · rename_i h; simp at h; exact absurd h.1 h1
    · rfl
  rw [this]
  simp [List.takeWhile, h2]

theorem array_fail {b : Bytes} (h : b.head? ≠ some 91) : Fails o G.array b := actF (seqF (tokF (by decide) h))
theorem hash_fail {b : Bytes} (h : b.head? ≠ some 123) : Fails o G.hash b := actF (seqF (tokF (by decide) h))

theorem value_fail_close {c : UInt8} {X : Bytes} (h : c = 125 ∨ c = 93) : Fails o G.value (c :: X) := by
  unfold Fails G.value
  rw [run_choice]
  have h1 : Fails o (.ref .plugin) (c :: X) := refF (plugin_fail_head (stop_cons (by rcases h with rfl | rfl <;> decide))
    (takeWhile_nil (by rcases h with rfl | rfl <;> simp <;> decide)) (by rcases h with rfl | rfl <;> simp) (by rcases h with rfl | rfl <;> simp))
  refine choice2 h1 (choice2 (bareword_fail_head (by rcases h with rfl | rfl <;> simp <;> decide)) (choice2 ?_ (choice2 ?_ (choice2 ?_ (choice2 ?_ (choice2 ?_ ?_))))))
  · rw [fails_stringValue]; rcases h with rfl | rfl <;> simp
  · exact number_fail_head (by rcases h with rfl | rfl <;> decide) (by rcases h with rfl | rfl <;> decide)
  · exact refF (array_fail (by rcases h with rfl | rfl <;> simp))
  · exact refF (hash_fail (by rcases h with rfl | rfl <;> simp))
  · exact run_pushError ..
  · rw [choiceR]

theorem name_fail_close {X : Bytes} : Fails o G.name (125 :: X) := by
  rw [fails_name]
  exact ⟨takeWhile_nil (by simp; decide), by simp, by simp⟩

theorem attr_fail_close {X : Bytes} : Fails o G.attr (125 :: X) := actF (seqF (labeled_fail.2 name_fail_close))

/-- After the separating whitespace there is still a gap. -/
theorem gap_dropWs {g : Gap} (hg : g.Ok) {c : UInt8} (X : Bytes) (hc : isStop c = true) :
    ∃ g' : Gap, g'.Ok ∧ (g.text ++ c :: X).dropWhile isWs = g'.text ++ c :: X := by
  obtain ⟨ls, tl⟩ := g
  obtain ⟨h1, h2⟩ := hg
  cases ls with
  | nil =>
    refine ⟨.empty, ⟨by simp [Gap.empty], rfl⟩, ?_⟩
    simp only [Gap.text, List.flatMap_nil, List.nil_append, Gap.empty]
    rw [dropWhile_append_all _ h2]
    refine dropWhile_of_takeWhile_nil (takeWhile_nil fun d hd => ?_)
    simp at hd; subst hd
    simp only [isStop, Bool.and_eq_true, Bool.not_eq_true'] at hc
    exact hc.1
  | cons l ls =>
    have hl := h1 l (by simp)
    obtain ⟨ws, body, cr, lf⟩ := l
    refine ⟨⟨⟨[], body, cr, lf⟩ :: ls, tl⟩, ⟨?_, h2⟩, ?_⟩
    · intro l' hl'
      rcases List.mem_cons.1 hl' with rfl | h
      · exact ⟨⟨rfl, hl.1.2⟩, hl.2⟩
      · exact h1 l' (by simp [h])
    · simp only [Gap.text, List.flatMap_cons, CommentLine.text, List.append_assoc, List.nil_append, List.cons_append]
      rw [dropWhile_append_all _ hl.1.1]
      rfl

theorem attrStep_fail {g : Gap} (hg : g.Ok) (X : Bytes) : Fails o attrStepEx (g.text ++ 125 :: X) := by
  refine actF ?_
  by_cases hw : (g.text ++ 125 :: X).takeWhile isWs = []
  · exact seqF (ws_fail.2 hw)
  · refine seqA (ws_ok.2 ⟨hw, rfl, rfl, rfl⟩) ?_
    obtain ⟨g', g1, g2⟩ := gap_dropWs hg X (c := 125) (by decide)
    rw [g2]
    refine seqA (labA (gapA g1 (stop_cons (by decide)))) (seqF (labeled_fail.2 (refF attr_fail_close)))

theorem elemStep_fail {g : Gap} (hg : g.Ok) (X : Bytes) : Fails o elemStepEx (g.text ++ 93 :: X) := by
  refine actF (gapSW hg (stop_cons (by decide)) (seqF (tokF (by decide) (by simp))))

theorem key_fail_close {X : Bytes} : Fails o (.choice [G.number, G.bareword, G.stringValue]) (125 :: X) := by
  unfold Fails; rw [run_choice]
  refine choice2 (number_fail_head (by decide) (by decide)) (choice2 (bareword_fail_head ?_) (choice2 ?_ ?_))
  · simp; decide
  · rw [fails_stringValue]; simp
  · rw [choiceR]

theorem hashentry_fail {g : Gap} (hg : g.Ok) (X : Bytes) : Fails o G.hashentry (g.text ++ 125 :: X) :=
  actF (seqA (labA (gapA hg (stop_cons (by decide)))) (seqF (labeled_fail.2 key_fail_close)))

theorem entryStep_fail {g : Gap} (hg : g.Ok) (X : Bytes) : Fails o entryStepEx (g.text ++ 125 :: X) := by
  refine actF ?_
  by_cases hw : (g.text ++ 125 :: X).takeWhile isWs = []
  · exact seqF (ws_fail.2 hw)
  · refine seqA (ws_ok.2 ⟨hw, rfl, rfl, rfl⟩) ?_
    obtain ⟨g', g1, g2⟩ := gap_dropWs hg X (c := 125) (by decide)
    rw [g2]
    exact seqF (labeled_fail.2 (refF (hashentry_fail g1 X)))

/-! ### Follow sets inside plugins, arrays and hashes -/

theorem name_brace {s : StrLit} (h : s.Name) (X : Bytes) : ∀ c, (s.text ++ X).head? = some c → isStop c = true ∧ c ≠ 123 := by
  intro c hc
  rcases name_head h hc with h | rfl | rfl
  · exact ⟨nameChar_stop c h, nameChar_brace c h⟩
  · decide
  · decide

theorem value_name {s : StrLit} (h : s.Value) : s.Name := by
  rcases h with ⟨h1, c, r, h2, h3, h4, h5⟩ | h
  · refine .inl ⟨h1, by simp [h2], ?_⟩
    rw [h2, List.all_cons, wordStart_name c h3, Bool.true_and, List.all_eq_true]
    intro d hd
    exact wordChar_name d (List.all_eq_true.1 h5 d hd)
  · exact .inr h

theorem num_head {t : Bytes} (h : NumOk t) (X : Bytes) : ∃ c r, t ++ X = c :: r ∧ (c = 45 ∨ Spec.isDigit c = true) := by
  obtain ⟨⟨s, d, f, rfl, hs, hd, hd2, _⟩, _⟩ := h
  rcases hs with rfl | rfl
  · cases d with
    | nil => exact absurd rfl hd
    | cons c d =>
      simp only [List.all_cons, Bool.and_eq_true] at hd2
      exact ⟨c, d ++ (f ++ X), by simp, .inr hd2.1⟩
  · exact ⟨45, d ++ (f ++ X), by simp, .inl rfl⟩

theorem numHead_name {c : UInt8} (h : c = 45 ∨ Spec.isDigit c = true) : isNameChar c = true := by
  rcases h with rfl | h
  · decide
  · exact digit_name c h

theorem key_head {k : CKey} (h : k.Ok) (X : Bytes) : ∀ c, (k.text ++ X).head? = some c → isStop c = true ∧ c ≠ 123 := by
  cases k with
  | str s => exact name_brace (value_name h) X
  | num t =>
    intro c hc
    obtain ⟨d, r, h1, h2⟩ := num_head h X
    simp only [CKey.text] at hc
    rw [h1] at hc
    simp at hc; subst hc
    exact ⟨nameChar_stop _ (numHead_name h2), nameChar_brace _ (numHead_name h2)⟩

theorem cval_stop {v : CVal} (h : v.Ok) (X : Bytes) : Stop (v.text ++ X) := by
  cases v with
  | str s => exact name_stop (value_name h) X
  | num t =>
    obtain ⟨d, r, h1, h2⟩ := num_head h X
    simp only [CVal.text]
    rw [h1]
    exact stop_cons (nameChar_stop _ (numHead_name h2))
  | arr e g => simp only [CVal.text, List.append_assoc]; exact stop_cons (by decide)
  | hash e g => simp only [CVal.text, List.append_assoc]; exact stop_cons (by decide)
  | plug p =>
    obtain ⟨nm, g, as, ft⟩ := p
    simp only [CVal.text, CPlugin.text, List.append_assoc]
    exact name_stop h.1 _

theorem follow_attrs {as : List CAttr} (h : attrsOk false as) {g : Gap} (hg : g.Ok) (X : Bytes) :
    ValFollow (attrsText false as ++ (g.text ++ 125 :: X)) := by
  cases as with
  | nil => exact valFollow_gap hg X (.inl rfl)
  | cons a as =>
    obtain ⟨sep, com, n, g1, g2, v⟩ := a
    obtain ⟨h1, h2, h3, _⟩ := h
    simp only [attrsText, Bool.false_eq_true, if_false, List.append_assoc]
    exact valFollow_sep (h1 rfl) h2 (name_brace h3 _)

theorem follow_entries {as : List CEntry} (h : entriesOk false as) {g : Gap} (hg : g.Ok) (X : Bytes) :
    ValFollow (entriesText false as ++ (g.text ++ 125 :: X)) := by
  cases as with
  | nil => exact valFollow_gap hg X (.inl rfl)
  | cons a as =>
    obtain ⟨sep, com, n, g1, g2, v⟩ := a
    obtain ⟨h1, h2, h3, _⟩ := h
    simp only [entriesText, Bool.false_eq_true, if_false, List.append_assoc]
    exact valFollow_sep (h1 rfl) h2 (key_head h3 _)

theorem follow_elems {as : List CElem} (h : elemsOk false as) {g : Gap} (hg : g.Ok) (X : Bytes) :
    ValFollow (elemsText false as ++ (g.text ++ 93 :: X)) := by
  cases as with
  | nil => exact valFollow_gap hg X (.inr (.inl rfl))
  | cons a as =>
    obtain ⟨pre, com, v⟩ := a
    obtain ⟨h1, h2, h3, _⟩ := h
    simp only [elemsText, Bool.false_eq_true, if_false, List.append_assoc]
    exact valFollow_gap h1 _ (.inr (.inr rfl))

theorem gapTok {g : Gap} (hg : g.Ok) {c : UInt8} (hc : isStop c = true) {t X : Bytes} {es : List Ex} {fr : Frame} {P : Res → Prop}
    (ha : Ascii (c :: t)) (h : SeqP o P es X fr) :
    SeqP o P (G.gapS :: G.warn :: .lit (c :: t) :: es) (g.text ++ ((c :: t) ++ X)) fr :=
  gapSW hg (stop_cons hc) (seqA (tok_append ha _ _) h)

theorem gapClose {l : Lbl} {g : Gap} (hg : g.Ok) {c : UInt8} (hc : isStop c = true) {X : Bytes} {fr : Frame}
    {code : Code} (hcode : code ≠ .initParser) (ha : Ascii [c]) :
    SeqP o (OkAt X ((l, gapVal o g) :: fr)) [.labeled l G.gap, G.close [c] code] (g.text ++ ([c] ++ X)) fr :=
  seqA (labA (gapA hg (stop_cons hc))) (seqA ((close_ok ha hcode).2 ⟨rfl, rfl, rfl⟩) seqEnd)

/-! ### Plugins and values -/

theorem gap_takeWhile {p : UInt8 → Bool} (hp : ∀ c, isGapChar c = true → p c = false) {g : Gap} (hg : g.Ok) {X : Bytes}
    (hX : ∀ c, X.head? = some c → p c = false) : (g.text ++ X).takeWhile p = [] := by
  refine takeWhile_nil fun c hc => ?_
  rcases gap_head hg hc with h | ⟨_, h⟩
  · exact hp c h
  · exact hX c h

theorem nameA {s : StrLit} (h : s.Name) {X : Bytes} (hX : X.takeWhile isNameChar = []) :
    Runs o G.name (s.text ++ X) (.attr (.str s.ast)) X := runs_name.2 ⟨s, h, rfl, rfl, fun _ => hX⟩

theorem attr_complete {n : StrLit} {g1 g2 : Gap} {v : CVal} {X : Bytes} (hn : n.Name) (h1 : g1.Ok) (h2 : g2.Ok) (hv : v.Ok)
    (h : Runs o G.value (v.text ++ X) (cvalVal o.ignoreComments v) X) :
    Runs o G.attr (n.text ++ (g1.text ++ (b!"=>" ++ (g2.text ++ (v.text ++ X)))))
      (.attr (withName n.text (v.ast o.ignoreComments))) X := by
  refine actA _ (seqA (labA (nameA hn (gap_takeWhile gapChar_name h1 (by simp; decide))))
    (gapTok h1 (by decide) (by decide) (gapSW h2 (cval_stop hv X) (seqA (labA (refA h)) seqEnd)))) ?_
  simp only [runAct, Frame.get, if_true, reduceCtorEq, if_false]
  exact attribute_cval hn v

theorem attrStep_complete {sep : Bytes} {com : Gap} {n : StrLit} {g1 g2 : Gap} {v : CVal} {X : Bytes}
    (hok : attrsOk false [.mk sep com n g1 g2 v]) (h : Runs o G.value (v.text ++ X) (cvalVal o.ignoreComments v) X) :
    Runs o attrStepEx (attrsText false [.mk sep com n g1 g2 v] ++ X)
      (.attr (withComment (com.block o.ignoreComments true false) (withName n.text (v.ast o.ignoreComments)))) X := by
  obtain ⟨h0, h1, hn, h2, h3, hv, _⟩ := hok
  have h0 := h0 rfl
  simp only [attrsText, Bool.false_eq_true, if_false, List.append_assoc, List.nil_append]
  have hw := sep_takeWhile h0 (X := n.text ++ (g1.text ++ (b!"=>" ++ (g2.text ++ (v.text ++ X))))) (fun c hc => (name_brace hn _ c hc).1)
  refine actA _ (seqA (ws_ok.2 ⟨?_, rfl, hw.2.symm, rfl⟩) (seqA (labA (gapA h1 (name_stop hn _)))
    (seqA (labA (refA (attr_complete hn h2 h3 hv h))) seqEnd))) ?_
  · rw [hw.1]; exact h0.1
  · simp only [runAct, Frame.get, if_true, reduceCtorEq, if_false, attributeComment_cval, gap_block h1]

theorem attrs_complete {com : Gap} {n : StrLit} {g1 g2 : Gap} {v : CVal} {r : List CAttr} {Y X : Bytes}
    (h1 : com.Ok) (hn : n.Name) (h2 : g1.Ok) (h3 : g2.Ok) (hv : v.Ok)
    (h : Runs o G.value (v.text ++ (attrsText false r ++ X)) (cvalVal o.ignoreComments v) (attrsText false r ++ X))
    (hr : Steps o attrStepEx (attrsText false r ++ X) ((attrsAst o.ignoreComments false r).map Val.attr) X)
    (hf : Fails o attrStepEx X) :
    Runs o attrsEx (attrsText true (.mk Y com n g1 g2 v :: r) ++ X)
      (.attrs (attrsAst o.ignoreComments true (.mk Y com n g1 g2 v :: r))) X := by
  simp only [attrsText, if_true, List.append_assoc, List.nil_append]
  refine actA _ (seqA (labA (gapA h1 (name_stop hn _))) (seqA (labA (refA (attr_complete hn h2 h3 hv h)))
    (seqA (labA ⟨[], star_of_steps _ hr hf⟩) seqEnd))) ?_
  simp only [runAct, Frame.get, if_true, reduceCtorEq, if_false, attributeComment_cval, gap_block h1, toIfaceSlice]
  rw [show ∀ (x : Attr) (l : List Attr), [Val.attr x] ++ l.map Val.attr = (x :: l).map Val.attr from fun _ _ => rfl,
      collectAttrs_attr]
  simp [attrsAst]

theorem attrs_none {g : Gap} (hg : g.Ok) (X : Bytes) : Fails o attrsEx (g.text ++ 125 :: X) :=
  actF (seqA (labA (gapA hg (stop_cons (by decide)))) (seqF (labeled_fail.2 (refF attr_fail_close))))

theorem optA {e : Ex} {b b1 : Bytes} {v : Val} (h : Runs o e b v b1) : Runs o (.opt e) b v b1 := ⟨[], opt_ok.2 (.inl ⟨h, rfl⟩)⟩
theorem optN {e : Ex} {b : Bytes} (h : Fails o e b) : Runs o (.opt e) b .nil b := ⟨[], opt_ok.2 (.inr ⟨h, rfl, rfl, rfl⟩)⟩

/-- The value of an optional list of attributes. -/
def optAttrs (ign : Bool) (as : List CAttr) : Val := if as.isEmpty then .nil else .attrs (attrsAst ign true as)

theorem plugin_complete_of {com : Gap} {nm : StrLit} {g : Gap} {as : List CAttr} {foot : Gap} {X : Bytes}
    (hc : com.Ok) (hn : nm.Name) (hg : g.Ok) (hf : foot.Ok)
    (h : Runs o (.opt attrsEx) (attrsText true as ++ (foot.text ++ ([125] ++ X))) (optAttrs o.ignoreComments as) (foot.text ++ ([125] ++ X))) :
    Runs o G.plugin (com.text ++ ((CPlugin.mk nm g as foot).text ++ X))
      (.plugin (CPlugin.ast o.ignoreComments (com.block o.ignoreComments false false) (.mk nm g as foot))) X := by
  simp only [CPlugin.text, List.append_assoc]
  refine actA _ (seqA (labA (gapA hc (name_stop hn _))) (seqA (labA (nameA hn (gap_takeWhile gapChar_name hg (by simp; decide))))
    (gapTok hg (by decide) (by decide) (seqA (labA h) (gapClose hf (by decide) (by simp) (by decide)))))) ?_
  simp only [runAct, Frame.get, if_true, reduceCtorEq, if_false, optAttrs]
  cases as with
  | nil => simp only [List.isEmpty_nil, if_true, strLit_valueStr hn, gap_block hc, gap_block hf]; rfl
  | cons a as => simp only [List.isEmpty_cons, Bool.false_eq_true, if_false, strLit_valueStr hn, gap_block hc, gap_block hf]; rfl

/-! ### Arrays -/

theorem elemStep_complete {pre com : Gap} {v : CVal} {X : Bytes} (hok : elemsOk false [.mk pre com v])
    (h : Runs o G.value (v.text ++ X) (cvalVal o.ignoreComments v) X) :
    Runs o elemStepEx (elemsText false [.mk pre com v] ++ X)
      (.attr (withComment (com.block o.ignoreComments true false) (v.ast o.ignoreComments))) X := by
  obtain ⟨h0, h1, hv, hp, _⟩ := hok
  have hp := hp rfl
  simp only [elemsText, Bool.false_eq_true, if_false, List.append_assoc, List.nil_append]
  refine actA _ (gapTok h0 (by decide) (by decide) (seqA (labA (gapA h1 (cval_stop hv _))) (seqA (labA (refA h)) seqEnd))) ?_
  simp only [runAct, Frame.get, if_true, reduceCtorEq, if_false, attributeComment_cvalVal, hp, gap_block h1, Bool.false_eq_true]

theorem elems_complete {pre com : Gap} {v : CVal} {r : List CElem} {X : Bytes} (h1 : com.Ok) (hv : v.Ok)
    (h : Runs o G.value (v.text ++ (elemsText false r ++ X)) (cvalVal o.ignoreComments v) (elemsText false r ++ X))
    (hr : Steps o elemStepEx (elemsText false r ++ X) ((elemsAst o.ignoreComments false r).map Val.attr) X)
    (hf : Fails o elemStepEx X) :
    Runs o elemsEx (elemsText true (.mk pre com v :: r) ++ X) (.attrs (elemsAst o.ignoreComments true (.mk pre com v :: r))) X := by
  simp only [elemsText, if_true, List.append_assoc, List.nil_append]
  refine actA _ (seqA (labA (gapA h1 (cval_stop hv _))) (seqA (labA (refA h))
    (seqA (labA ⟨[], star_of_steps _ hr hf⟩) seqEnd))) ?_
  simp only [runAct, Frame.get, if_true, reduceCtorEq, if_false, attributeComment_cvalVal, gap_block h1, toIfaceSlice]
  cases hp : v.isPlug with
  | true => simp [collectAttrs_attr, elemsAst, hp]
  | false =>
    simp only [Bool.false_eq_true, if_false]
    rw [show ∀ (x : Attr) (l : List Attr), [Val.attr x] ++ l.map Val.attr = (x :: l).map Val.attr from fun _ _ => rfl,
      collectAttrs_attr]
    simp [elemsAst, hp]

theorem elems_none {g : Gap} (hg : g.Ok) (X : Bytes) : Fails o elemsEx (g.text ++ 93 :: X) :=
  actF (seqA (labA (gapA hg (stop_cons (by decide)))) (seqF (labeled_fail.2 (refF (value_fail_close (.inr rfl))))))

/-- The value of an optional list of elements. -/
def optElems (ign : Bool) (as : List CElem) : Val := if as.isEmpty then .nil else .attrs (elemsAst ign true as)

theorem array_complete_of {as : List CElem} {foot : Gap} {X : Bytes} (hf : foot.Ok)
    (h : Runs o (.opt elemsEx) (elemsText true as ++ (foot.text ++ ([93] ++ X))) (optElems o.ignoreComments as) (foot.text ++ ([93] ++ X))) :
    Runs o G.array ((CVal.arr as foot).text ++ X) (.attr (CVal.ast o.ignoreComments (.arr as foot))) X := by
  simp only [CVal.text, List.append_assoc]
  refine actA _ (seqA (tok_append (by decide) _ _) (seqA (labA h) (gapClose hf (by decide) (by simp) (by decide)))) ?_
  simp only [runAct, Frame.get, if_true, reduceCtorEq, if_false, optElems]
  cases as with
  | nil => simp only [List.isEmpty_nil, if_true, gap_block hf]; rfl
  | cons a as => simp only [List.isEmpty_cons, Bool.false_eq_true, if_false, gap_block hf]; rfl

/-! ### Hashes -/

theorem keyA {k : CKey} (hk : k.Ok) {g : Gap} (hg : g.Ok) {X : Bytes} (hX : ∀ c, X.head? = some c → isNumChar c = false ∧ isWordChar c = false) :
    ∃ v, Runs o (.choice [G.number, G.bareword, G.stringValue]) (k.text ++ (g.text ++ X)) v (g.text ++ X) ∧ toHKey v = some k.ast := by
  cases k with
  | num t => exact ⟨_, choiceA fun _ => choice1 (number_complete hk (gap_takeWhile gapChar_num hg fun c hc => (hX c hc).1)), rfl⟩
  | str s =>
    obtain ⟨sat, body⟩ := s
    rcases hk with ⟨h1, c, r, h2, h3, h4, h5⟩ | h
    · simp only at h1 h2; subst h1 h2
      refine ⟨_, choiceA fun _ => choice2 ?_ (choice1 (runs_bareword.2 ⟨c :: r, ⟨c, r, rfl, h3, h4, h5⟩, ?_,
        gap_takeWhile gapChar_word hg fun c hc => (hX c hc).2, rfl⟩)), rfl⟩
      · simp only [CKey.text, StrLit.text, StrLit.quote, List.nil_append, List.append_nil, List.cons_append]
        have : c ≠ 45 ∧ Spec.isDigit c = false := by revert h3; revert c; decide +kernel
        exact number_fail_head this.1 this.2
      · simp [CKey.text, StrLit.text, StrLit.quote]
    · refine ⟨_, choiceA fun _ => choice2 ?_ (choice2 ?_ (choice1 (runs_stringValue.2 ⟨_, h, rfl, rfl⟩))), rfl⟩
      · rcases h with ⟨h, _⟩ | ⟨h, _⟩ <;> simp only at h <;> subst h <;>
          exact number_fail_head (by decide) (by decide)
      · rcases h with ⟨h, _⟩ | ⟨h, _⟩ <;> simp only at h <;> subst h <;>
          exact bareword_fail_head (by simp [CKey.text, StrLit.text, StrLit.quote]; decide)

theorem hashentry_complete {com : Gap} {k : CKey} {g1 g2 : Gap} {v : CVal} {X : Bytes} (hc : com.Ok) (hk : k.Ok) (h1 : g1.Ok) (h2 : g2.Ok)
    (hv : v.Ok) (hp : v.isPlug = false) (h : Runs o G.value (v.text ++ X) (cvalVal o.ignoreComments v) X) :
    Runs o G.hashentry (com.text ++ (k.text ++ (g1.text ++ (b!"=>" ++ (g2.text ++ (v.text ++ X))))))
      (.hentry (.mk Pos.zero k.ast (v.ast o.ignoreComments) (com.block o.ignoreComments true false))) X := by
  obtain ⟨kv, k1, k2⟩ := keyA (o := o) hk h1 (X := b!"=>" ++ (g2.text ++ (v.text ++ X))) (by simp; decide)
  refine actA _ (seqA (labA (gapA hc (stop_head fun c h => (key_head hk _ c h).1))) (seqA (labA k1)
    (gapTok h1 (by decide) (by decide) (gapSW h2 (cval_stop hv X) (seqA (labA (refA h)) seqEnd))))) ?_
  have hv : toAttr (cvalVal o.ignoreComments v) = some (v.ast o.ignoreComments) := by
    cases v <;> first | rfl | (simp [CVal.isPlug] at hp)
  simp only [runAct, Frame.get, if_true, reduceCtorEq, if_false, k2, gap_block hc, hv]

theorem entryStep_complete {sep : Bytes} {com : Gap} {k : CKey} {g1 g2 : Gap} {v : CVal} {X : Bytes}
    (hok : entriesOk false [.mk sep com k g1 g2 v]) (h : Runs o G.value (v.text ++ X) (cvalVal o.ignoreComments v) X) :
    Runs o entryStepEx (entriesText false [.mk sep com k g1 g2 v] ++ X)
      (.hentry (.mk Pos.zero k.ast (v.ast o.ignoreComments) (com.block o.ignoreComments true false))) X := by
  obtain ⟨h0, h1, hk, h2, h3, hv, hp, _⟩ := hok
  have h0 := h0 rfl
  simp only [entriesText, Bool.false_eq_true, if_false, List.append_assoc, List.nil_append]
  have hw := sep_takeWhile h0 (X := k.text ++ (g1.text ++ (b!"=>" ++ (g2.text ++ (v.text ++ X))))) (fun c hc => (key_head hk _ c hc).1)
  refine actA _ (seqA (ws_ok.2 ⟨?_, rfl, hw.2.symm, rfl⟩)
    (seqA (labA (refA (hashentry_complete h1 hk h2 h3 hv hp h))) seqEnd)) ?_
  · rw [hw.1]; exact h0.1
  · simp only [runAct, Frame.get, if_true]

theorem entries_complete {sep : Bytes} {com : Gap} {k : CKey} {g1 g2 : Gap} {v : CVal} {r : List CEntry} {X : Bytes}
    (h1 : com.Ok) (hk : k.Ok) (h2 : g1.Ok) (h3 : g2.Ok) (hv : v.Ok) (hp : v.isPlug = false)
    (h : Runs o G.value (v.text ++ (entriesText false r ++ X)) (cvalVal o.ignoreComments v) (entriesText false r ++ X))
    (hr : Steps o entryStepEx (entriesText false r ++ X) ((entriesAst o.ignoreComments false r).map Val.hentry) X)
    (hf : Fails o entryStepEx X) :
    Runs o G.hashentries (entriesText true (.mk sep com k g1 g2 v :: r) ++ X)
      (.hentries (entriesAst o.ignoreComments true (.mk sep com k g1 g2 v :: r))) X := by
  simp only [entriesText, if_true, List.append_assoc, List.nil_append]
  refine actA _ (seqA (labA (refA (hashentry_complete h1 hk h2 h3 hv hp h)))
    (seqA (labA ⟨[], star_of_steps _ hr hf⟩) seqEnd)) ?_
  simp only [runAct, Frame.get, if_true, reduceCtorEq, if_false, toIfaceSlice]
  rw [show ∀ (x : HEntry) (l : List HEntry), Val.hentry x :: l.map Val.hentry = (x :: l).map Val.hentry from fun _ _ => rfl,
        collectHEntries_hentry]
  simp only [setFirst_eq]
  simp [entriesAst]

theorem entries_none {g : Gap} (hg : g.Ok) (X : Bytes) : Fails o (.ref .hashentries) (g.text ++ 125 :: X) :=
  refF (actF (seqF (labeled_fail.2 (refF (hashentry_fail hg X)))))

/-- The value of an optional list of entries. -/
def optEntries (ign : Bool) (as : List CEntry) : Val := if as.isEmpty then .nil else .hentries (entriesAst ign true as)

theorem hash_complete_of {as : List CEntry} {foot : Gap} {X : Bytes} (hf : foot.Ok)
    (h : Runs o (.opt (.ref .hashentries)) (entriesText true as ++ (foot.text ++ ([125] ++ X))) (optEntries o.ignoreComments as) (foot.text ++ ([125] ++ X))) :
    Runs o G.hash ((CVal.hash as foot).text ++ X) (.attr (CVal.ast o.ignoreComments (.hash as foot))) X := by
  simp only [CVal.text, List.append_assoc]
  refine actA _ (seqA (tok_append (by decide) _ _) (seqA (labA h) (gapClose hf (by decide) (by simp) (by decide)))) ?_
  simp only [runAct, Frame.get, if_true, reduceCtorEq, if_false, optEntries]
  cases as with
  | nil => simp only [List.isEmpty_nil, if_true, gap_block hf]; rfl
  | cons a as => simp only [List.isEmpty_cons, Bool.false_eq_true, if_false, gap_block hf]; rfl

/-! ### Values -/

theorem num_plugin_fail {t X : Bytes} (h : NumOk t) (hX : ValFollow X) : Fails o G.plugin (t ++ X) := by
  have hs : Stop (t ++ X) := cval_stop (v := .num t) h X
  obtain ⟨⟨s, d, f, rfl, hsg, hd, hd2, hf⟩, _⟩ := h
  have hall : (s ++ d).all isNameChar = true := by
    rw [List.all_append, Bool.and_eq_true]
    constructor
    · rcases hsg with rfl | rfl <;> decide
    · rw [List.all_eq_true]; intro c hc; exact digit_name c (List.all_eq_true.1 hd2 c hc)
  have hnm : StrLit.Name ⟨.bareword, s ++ d⟩ := .inl ⟨rfl, by simp [hd], hall⟩
  have e : ∀ Y, (s ++ d) ++ Y = StrLit.text ⟨.bareword, s ++ d⟩ ++ Y := by intro Y; simp [StrLit.text, StrLit.quote]
  rcases hf with rfl | ⟨f', rfl, hf'⟩
  · rw [List.append_nil] at hs ⊢
    refine plugin_fail_brace (v := .attr (.str (StrLit.ast ⟨.bareword, s ++ d⟩))) hs ?_ hX.2
    rw [e]; exact nameA hnm hX.name
  · rw [List.append_assoc] at hs ⊢
    refine plugin_fail_brace (v := .attr (.str (StrLit.ast ⟨.bareword, s ++ d⟩))) (b1 := 46 :: (f' ++ X)) hs ?_ ?_
    · rw [e, List.cons_append]; exact nameA hnm (takeWhile_nil (by simp; decide))
    · rw [gapOf_stop (stop_cons (by decide))]; simp

theorem str_plugin_fail {s : StrLit} {X : Bytes} (h : s.Value) (hX : ValFollow X) : Fails o G.plugin (s.text ++ X) :=
  plugin_fail_brace (name_stop (value_name h) X) (nameA (value_name h) hX.name) hX.2

theorem open_plugin_fail {c : UInt8} {X : Bytes} (h : c = 91 ∨ c = 123) : Fails o G.plugin (c :: X) :=
  plugin_fail_head (stop_cons (by rcases h with rfl | rfl <;> decide))
    (takeWhile_nil (by rcases h with rfl | rfl <;> simp <;> decide)) (by rcases h with rfl | rfl <;> simp) (by rcases h with rfl | rfl <;> simp)

theorem str_complete {s : StrLit} {X : Bytes} (h : s.Value) (hX : ValFollow X) :
    Runs o G.value (s.text ++ X) (.attr (.str s.ast)) X := by
  refine choiceA fun _ => choice2 (refF (str_plugin_fail h hX)) ?_
  obtain ⟨sat, body⟩ := s
  rcases h with ⟨h1, c, r, h2, h3, h4, h5⟩ | h
  · simp only at h1 h2; subst h1 h2
    exact choice1 (runs_bareword.2 ⟨c :: r, ⟨c, r, rfl, h3, h4, h5⟩, by simp [StrLit.text, StrLit.quote], hX.word, rfl⟩)
  · refine choice2 ?_ (choice1 (runs_stringValue.2 ⟨_, h, rfl, rfl⟩))
    rcases h with ⟨h, _⟩ | ⟨h, _⟩ <;> simp only at h <;> subst h <;>
      exact bareword_fail_head (by simp [StrLit.text, StrLit.quote]; decide)

theorem num_complete {t X : Bytes} (h : NumOk t) (hX : ValFollow X) : Runs o G.value (t ++ X) (.attr (.num (numAst t))) X := by
  obtain ⟨c, r, h1, h2⟩ := num_head h X
  have hc : isWordStart c = false ∧ c ≠ 34 ∧ c ≠ 39 := by
    rcases h2 with rfl | h2
    · decide
    · clear h1; revert h2; revert c; decide +kernel
  refine choiceA fun _ => choice2 (refF (num_plugin_fail h hX)) (choice2 (bareword_fail_head ?_) (choice2 ?_
    (choice1 (number_complete h hX.num))))
  · rw [h1]; simpa using hc.1
  · rw [h1, fails_stringValue]; simpa using hc.2

theorem val_arr_complete {as : List CElem} {foot : Gap} {X : Bytes} (h : Runs o G.array ((CVal.arr as foot).text ++ X) v X) :
    Runs o G.value ((CVal.arr as foot).text ++ X) v X := by
  have e : (CVal.arr as foot).text ++ X = 91 :: (elemsText true as ++ (foot.text ++ ([93] ++ X))) := by simp [CVal.text]
  rw [e] at h ⊢
  refine choiceA fun _ => choice2 (refF (open_plugin_fail (.inl rfl))) (choice2 (bareword_fail_head ?_) (choice2 ?_
    (choice2 (number_fail_head (by decide) (by decide)) (choice1 (refA h)))))
  · simp; decide
  · rw [fails_stringValue]; simp

theorem val_hash_complete {as : List CEntry} {foot : Gap} {X : Bytes} (h : Runs o G.hash ((CVal.hash as foot).text ++ X) v X) :
    Runs o G.value ((CVal.hash as foot).text ++ X) v X := by
  have e : (CVal.hash as foot).text ++ X = 123 :: (entriesText true as ++ (foot.text ++ ([125] ++ X))) := by simp [CVal.text]
  rw [e] at h ⊢
  refine choiceA fun _ => choice2 (refF (open_plugin_fail (.inr rfl))) (choice2 (bareword_fail_head ?_) (choice2 ?_
    (choice2 (number_fail_head (by decide) (by decide)) (choice2 (refF (array_fail (by simp))) (choice1 (refA h))))))
  · simp; decide
  · rw [fails_stringValue]; simp

theorem gap_empty_ok : Gap.empty.Ok := ⟨by simp [Gap.empty], rfl⟩

mutual
/-- Completeness of the rule `value`. -/
theorem val_complete (o : Opts) : (v : CVal) → v.Ok → (X : Bytes) → ValFollow X →
    Runs o G.value (v.text ++ X) (cvalVal o.ignoreComments v) X
  | .str _, h, _, hX => str_complete h hX
  | .num _, h, _, hX => num_complete h hX
  | .arr es g, h, X, _ => val_arr_complete (array_complete_of h.2 (optElems_complete o es h.1 g h.2 X))
  | .hash es g, h, X, _ => val_hash_complete (hash_complete_of h.2 (optEntries_complete o es h.1 g h.2 X))
  | .plug (.mk nm g as ft), h, X, _ => by
    have h1 := plugin_complete_of (o := o) (com := .empty) (nm := nm) gap_empty_ok h.1 h.2.1 h.2.2.2 (optAttrs_complete o as h.2.2.1 ft h.2.2.2 X)
    rw [block_empty] at h1
    exact choiceA fun _ => choice1 (refA h1)
/-- Elements of an array. -/
theorem optElems_complete (o : Opts) : (es : List CElem) → elemsOk true es → (g : Gap) → g.Ok → (X : Bytes) →
    Runs o (.opt elemsEx) (elemsText true es ++ (g.text ++ ([93] ++ X))) (optElems o.ignoreComments es) (g.text ++ ([93] ++ X))
  | [], _, _, hg, X => optN (elems_none hg X)
  | .mk _ _ v :: r, h, _, hg, X => optA (elems_complete h.2.1 h.2.2.1
      (val_complete o v h.2.2.1 _ (follow_elems h.2.2.2.2 hg X)) (elemSteps_complete o r h.2.2.2.2 _ hg X) (elemStep_fail hg X))
/-- Further elements of an array. -/
theorem elemSteps_complete (o : Opts) : (es : List CElem) → elemsOk false es → (g : Gap) → g.Ok → (X : Bytes) →
    Steps o elemStepEx (elemsText false es ++ (g.text ++ ([93] ++ X))) ((elemsAst o.ignoreComments false es).map Val.attr) (g.text ++ ([93] ++ X))
  | [], _, _, _, _ => .nil _
  | .mk pre com v :: r, h, g, hg, X => by
    have h1 := (elemsOk_append _ _).1 h
    rw [elemsText_append, List.append_assoc, elemsAst_append]
    have := elemStep_complete (o := o) h1.1 (val_complete o v h.2.2.1 _ (follow_elems h.2.2.2.2 hg X))
    simp only [elemsAst, h.2.2.2.1 rfl, Bool.false_eq_true, if_false, Bool.not_false, List.cons_append, List.nil_append, List.map_cons]
    exact .cons this (elemSteps_complete o r h.2.2.2.2 g hg X)
/-- Entries of a hash. -/
theorem optEntries_complete (o : Opts) : (es : List CEntry) → entriesOk true es → (g : Gap) → g.Ok → (X : Bytes) →
    Runs o (.opt (.ref .hashentries)) (entriesText true es ++ (g.text ++ ([125] ++ X))) (optEntries o.ignoreComments es) (g.text ++ ([125] ++ X))
  | [], _, _, hg, X => optN (entries_none hg X)
  | .mk _ _ _ _ _ v :: r, h, _, hg, X => optA (refA (entries_complete h.2.1 h.2.2.1 h.2.2.2.1 h.2.2.2.2.1 h.2.2.2.2.2.1 h.2.2.2.2.2.2.1
      (val_complete o v h.2.2.2.2.2.1 _ (follow_entries h.2.2.2.2.2.2.2 hg X)) (entrySteps_complete o r h.2.2.2.2.2.2.2 _ hg X) (entryStep_fail hg X)))
/-- Further entries of a hash. -/
theorem entrySteps_complete (o : Opts) : (es : List CEntry) → entriesOk false es → (g : Gap) → g.Ok → (X : Bytes) →
    Steps o entryStepEx (entriesText false es ++ (g.text ++ ([125] ++ X))) ((entriesAst o.ignoreComments false es).map Val.hentry) (g.text ++ ([125] ++ X))
  | [], _, _, _, _ => .nil _
  | .mk sep com k g1 g2 v :: r, h, g, hg, X => by
    have h1 := (entriesOk_append _ _).1 h
    rw [entriesText_append, List.append_assoc, entriesAst_append]
    have := entryStep_complete (o := o) h1.1 (val_complete o v h.2.2.2.2.2.1 _ (follow_entries h.2.2.2.2.2.2.2 hg X))
    simp only [entriesAst, Bool.not_false, markFirst_block, List.cons_append, List.nil_append, List.map_cons]
    exact .cons this (entrySteps_complete o r h.2.2.2.2.2.2.2 g hg X)
/-- Attributes of a plugin. -/
theorem optAttrs_complete (o : Opts) : (es : List CAttr) → attrsOk true es → (g : Gap) → g.Ok → (X : Bytes) →
    Runs o (.opt attrsEx) (attrsText true es ++ (g.text ++ ([125] ++ X))) (optAttrs o.ignoreComments es) (g.text ++ ([125] ++ X))
  | [], _, _, hg, X => optN (attrs_none hg X)
  | .mk _ _ _ _ _ v :: r, h, _, hg, X => optA (attrs_complete h.2.1 h.2.2.1 h.2.2.2.1 h.2.2.2.2.1 h.2.2.2.2.2.1
      (val_complete o v h.2.2.2.2.2.1 _ (follow_attrs h.2.2.2.2.2.2 hg X)) (attrSteps_complete o r h.2.2.2.2.2.2 _ hg X) (attrStep_fail hg X))
/-- Further attributes of a plugin. -/
theorem attrSteps_complete (o : Opts) : (es : List CAttr) → attrsOk false es → (g : Gap) → g.Ok → (X : Bytes) →
    Steps o attrStepEx (attrsText false es ++ (g.text ++ ([125] ++ X))) ((attrsAst o.ignoreComments false es).map Val.attr) (g.text ++ ([125] ++ X))
  | [], _, _, _, _ => .nil _
  | .mk sep com k g1 g2 v :: r, h, g, hg, X => by
    have h1 := (attrsOk_append _ _).1 h
    rw [attrsText_append, List.append_assoc, attrsAst_append]
    have := attrStep_complete (o := o) h1.1 (val_complete o v h.2.2.2.2.2.1 _ (follow_attrs h.2.2.2.2.2.2 hg X))
    simp only [attrsAst, Bool.not_false, List.cons_append, List.nil_append, List.map_cons]
    exact .cons this (attrSteps_complete o r h.2.2.2.2.2.2 g hg X)
end

/-- Completeness of the rule `plugin`. -/
theorem plugin_complete {com : Gap} {p : CPlugin} (hc : com.Ok) (h : p.Ok) (X : Bytes) :
    Runs o G.plugin (com.text ++ (p.text ++ X)) (.plugin (p.ast o.ignoreComments (com.block o.ignoreComments false false))) X := by
  obtain ⟨nm, g, as, ft⟩ := p
  exact plugin_complete_of hc h.1 h.2.1 h.2.2.2 (optAttrs_complete o as h.2.2.1 ft h.2.2.2 X)

/-- Completeness of the rule `array`. -/
theorem array_complete {es : List CElem} {g : Gap} (h : (CVal.arr es g).Ok) (X : Bytes) :
    Runs o G.array ((CVal.arr es g).text ++ X) (.attr (CVal.ast o.ignoreComments (.arr es g))) X :=
  array_complete_of h.2 (optElems_complete o es h.1 g h.2 X)

end
end Verif
