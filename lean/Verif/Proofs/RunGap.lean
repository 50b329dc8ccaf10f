import Verif.Proofs.RunLex
/-
Gaps: whitespace and comments.
-/
namespace Verif
open Spec

/-! ### The comments of a gap -/

theorem splitOn_noSep {x : Bytes} {c : UInt8} (h : c ∉ x) : splitOn c x = [x] := by
  induction x with
  | nil => rfl
  | cons d x ih =>
    simp only [List.mem_cons, not_or] at h
    rw [splitOn, if_neg (fun hh => h.1 hh.symm), ih h.2]

theorem splitOn_sep {x : Bytes} (y : Bytes) {c : UInt8} (h : c ∉ x) :
    splitOn c (x ++ c :: y) = x :: splitOn c y := by
  induction x with
  | nil => simp [splitOn]
  | cons d x ih =>
    simp only [List.mem_cons, not_or] at h
    rw [List.cons_append, splitOn, if_neg (fun hh => h.1 hh.symm), ih h.2]

theorem afterFirst_none {c : UInt8} {x : Bytes} (h : c ∉ x) : afterFirst c x = none := by
  induction x with
  | nil => rfl
  | cons d x ih =>
    simp only [List.mem_cons, not_or] at h
    rw [afterFirst, if_neg (fun hh => h.1 hh.symm), ih h.2]

theorem afterFirst_append {c : UInt8} {x : Bytes} (y : Bytes) (h : c ∉ x) : afterFirst c (x ++ c :: y) = some y := by
  induction x with
  | nil => simp [afterFirst]
  | cons d x ih =>
    simp only [List.mem_cons, not_or] at h
    rw [List.cons_append, afterFirst, if_neg (fun hh => h.1 hh.symm), ih h.2]

theorem split_first {w : Bytes} (c : UInt8) : c ∉ w ∨ ∃ w0 w1, w = w0 ++ c :: w1 ∧ c ∉ w0 := by
  induction w with
  | nil => exact .inl (by simp)
  | cons d w ih =>
    by_cases hd : d = c
    · exact .inr ⟨[], w, by simp [hd], by simp⟩
    · rcases ih with ih | ⟨w0, w1, rfl, h⟩
      · exact .inl (by simp only [List.mem_cons, not_or]; exact ⟨fun hh => hd hh.symm, ih⟩)
      · exact .inr ⟨d :: w0, w1, rfl, (by simp only [List.mem_cons, not_or]; exact ⟨fun hh => hd hh.symm, h⟩)⟩

/-- A comment line that is not the first piece. -/
theorem commentLines_line (w body : Bytes) (r : Option Bytes) (sp : Bool) (hw : (35 : UInt8) ∉ w)
    (hb : (10 : UInt8) ∉ body) :
    commentLines false sp (splitOn 10 (w ++ 35 :: body ++ (match r with | some r => 10 :: r | none => []))) =
      ⟨trim 32 body, sp || w.contains 10, false⟩ ::
        (match r with | some r => commentLines false false (splitOn 10 r) | none => []) := by
  obtain ⟨n, hn⟩ : ∃ n, w.length ≤ n := ⟨_, Nat.le_refl _⟩
  induction n generalizing w sp with
  | zero =>
    have : w = [] := by simpa using hn
    subst this
    have h1 : (10 : UInt8) ∉ (35 : UInt8) :: body := by simp [hb]
    cases r with
    | none => simp only [List.append_nil, List.nil_append]; rw [splitOn_noSep h1]; simp [commentLines, afterFirst]
    | some r => simp only [List.nil_append]; rw [splitOn_sep _ h1]; simp [commentLines, afterFirst]
  | succ n ih =>
    rcases split_first (w := w) 10 with h | ⟨w0, w1, rfl, h⟩
    · have h1 : (10 : UInt8) ∉ w ++ (35 : UInt8) :: body := by simp [hb, h]
      have h2 := afterFirst_append body hw
      have h3 : w.contains 10 = false := by rw [Bool.eq_false_iff]; simpa using h
      cases r with
      | none => simp only [List.append_nil]; rw [splitOn_noSep h1]; simp [commentLines, h2, h]
      | some r => simp only []; rw [splitOn_sep _ h1]; simp [commentLines, h2, h]
    · have h1 : (w0 ++ 10 :: w1 ++ 35 :: body ++ (match r with | some r => 10 :: r | none => [])) =
        w0 ++ 10 :: (w1 ++ 35 :: body ++ (match r with | some r => 10 :: r | none => [])) := by simp
      rw [h1, splitOn_sep _ h]
      have h2 : (35 : UInt8) ∉ w0 := fun hh => hw (by simp [hh])
      have h3 : (35 : UInt8) ∉ w1 := fun hh => hw (by simp [hh])
      simp only [commentLines, afterFirst_none h2]
      rw [ih w1 _ h3 (by simp at hn; omega)]
      simp

/-- The first comment line. -/
theorem commentLines_first (w body : Bytes) (r : Option Bytes) (hw : (35 : UInt8) ∉ w)
    (hb : (10 : UInt8) ∉ body) :
    commentLines true false (splitOn 10 (w ++ 35 :: body ++ (match r with | some r => 10 :: r | none => []))) =
      ⟨trim 32 body, decide (2 ≤ w.count 10), false⟩ ::
        (match r with | some r => commentLines false false (splitOn 10 r) | none => []) := by
  rcases split_first (w := w) 10 with h | ⟨w0, w1, rfl, h⟩
  · have h1 : (10 : UInt8) ∉ w ++ (35 : UInt8) :: body := by simp [hb, h]
    have h2 := afterFirst_append body hw
    have h3 : w.count 10 = 0 := List.count_eq_zero.2 h
    cases r with
    | none => simp only [List.append_nil]; rw [splitOn_noSep h1]; simp [commentLines, h2, h3]
    | some r => simp only []; rw [splitOn_sep _ h1]; simp [commentLines, h2, h3]
  · have h1 : (w0 ++ 10 :: w1 ++ 35 :: body ++ (match r with | some r => 10 :: r | none => [])) =
      w0 ++ 10 :: (w1 ++ 35 :: body ++ (match r with | some r => 10 :: r | none => [])) := by simp
    rw [h1, splitOn_sep _ h]
    have h2 : (35 : UInt8) ∉ w0 := fun hh => hw (by simp [hh])
    have h3 : (35 : UInt8) ∉ w1 := fun hh => hw (by simp [hh])
    simp only [commentLines, afterFirst_none h2]
    simp only [if_true]
    rw [commentLines_line _ _ _ _ h3 hb]
    have h4 : w0.count 10 = 0 := List.count_eq_zero.2 h
    congr 2
    by_cases h5 : 10 ∈ w1
    · have : 0 < w1.count 10 := List.count_pos_iff.2 h5
      simp [List.count_append, h4, h5]
    · have : w1.count 10 = 0 := List.count_eq_zero.2 h5
      simp [List.count_append, h4, h5, this]

/-- Comment lines as the text the comment action splits. -/
def lineText (l : CommentLine) : Bytes := l.ws.filter (· != 13) ++ 35 :: l.body

/-- Comment lines joined by newlines. -/
def joinLines : List CommentLine → Bytes
  | [] => []
  | [l] => lineText l
  | l :: k :: ls => lineText l ++ 10 :: joinLines (k :: ls)

/-- All lines but the last end with a newline. -/
def LinesOk : List CommentLine → Prop
  | [] => True
  | [l] => l.OkEnd
  | l :: k :: ls => l.Ok ∧ LinesOk (k :: ls)

theorem linesOk_cons {l : CommentLine} {ls : List CommentLine} (h : LinesOk (l :: ls)) : l.OkEnd ∧ LinesOk ls := by
  cases ls with
  | nil => exact ⟨h, trivial⟩
  | cons k ls => exact ⟨h.1.1, h.2⟩

theorem ws_no_hash {w : Bytes} (h : w.all isWs = true) : (35 : UInt8) ∉ w := by
  intro hh
  have := List.all_eq_true.1 h _ hh
  revert this; decide

theorem body_no {l : CommentLine} (h : l.OkEnd) : (10 : UInt8) ∉ l.body ∧ (13 : UInt8) ∉ l.body := by
  constructor <;>
  · intro hh
    have := List.all_eq_true.1 h.2 _ hh
    revert this; decide

theorem filter_ws_no_hash {l : CommentLine} (h : l.OkEnd) : (35 : UInt8) ∉ l.ws.filter (· != 13) := by
  intro hh
  exact ws_no_hash h.1 (List.mem_filter.1 hh).1

theorem filter13_contains (w : Bytes) : (w.filter (· != 13)).contains 10 = w.contains 10 := by
  induction w with
  | nil => rfl
  | cons c w ih =>
    by_cases hc : c = 13
    · subst hc; simp at ih ⊢
    · simp [hc] at ih ⊢

theorem joinLines_comments (ls : List CommentLine) (h : LinesOk ls) (hne : ls ≠ []) :
    commentLines false false (splitOn 10 (joinLines ls)) = ls.map fun l => l.comment (l.ws.contains 10) := by
  induction ls with
  | nil => exact absurd rfl hne
  | cons l ls ih =>
    obtain ⟨h1, h2⟩ := linesOk_cons h
    cases ls with
    | nil =>
      have := commentLines_line (l.ws.filter (· != 13)) l.body none false (filter_ws_no_hash h1) (body_no h1).1
      simp only [List.append_nil] at this
      simp only [joinLines, lineText, List.map, CommentLine.comment]
      rw [this, filter13_contains]; rfl
    | cons k ls =>
      have := commentLines_line (l.ws.filter (· != 13)) l.body (some (joinLines (k :: ls))) false
        (filter_ws_no_hash h1) (body_no h1).1
      simp only at this
      rw [joinLines, lineText, this, filter13_contains, ih h2 (by simp)]
      simp [CommentLine.comment]

theorem trimRight_append_single (c : UInt8) (x : Bytes) : trimRight c (x ++ [c]) = trimRight c x := by
  simp [trimRight]

theorem trimRight_id {c : UInt8} {x : Bytes} (h : x.getLast? ≠ some c) : trimRight c x = x := by
  unfold trimRight
  rcases List.eq_nil_or_concat x with rfl | ⟨y, d, rfl⟩
  · rfl
  · have : d ≠ c := by simpa using h
    simp [this]

theorem joinLines_last (ls : List CommentLine) (h : LinesOk ls) (hne : ls ≠ []) :
    ∃ y d, joinLines ls = y ++ [d] ∧ d ≠ 10 := by
  induction ls with
  | nil => exact absurd rfl hne
  | cons l ls ih =>
    obtain ⟨h1, h2⟩ := linesOk_cons h
    cases ls with
    | nil =>
      rcases List.eq_nil_or_concat l.body with hb | ⟨y, d, hb⟩
      · exact ⟨l.ws.filter (· != 13), 35, by simp [joinLines, lineText, hb], by decide⟩
      · refine ⟨l.ws.filter (· != 13) ++ 35 :: y, d, by simp [joinLines, lineText, hb], ?_⟩
        rintro rfl
        exact (body_no h1).1 (by simp [hb])
    | cons k ls =>
      obtain ⟨y, d, h3, h4⟩ := ih h2 (by simp)
      exact ⟨lineText l ++ 10 :: y, d, by simp [joinLines, h3], h4⟩

theorem filter13_line {l : CommentLine} (h : l.OkEnd) :
    l.text.filter (· != 13) = lineText l ++ (if l.lf then [10] else []) := by
  have h1 : l.body.filter (· != 13) = l.body := by
    rw [List.filter_eq_self]
    intro c hc
    have := (body_no h).2
    simp only [bne_iff_ne, ne_eq]
    rintro rfl; exact this hc
  unfold CommentLine.text lineText
  cases l.cr <;> cases l.lf <;> simp [h1]

theorem filter13_lines (ls : List CommentLine) (h : LinesOk ls) (hne : ls ≠ []) :
    ∃ b : Bool, (ls.flatMap CommentLine.text).filter (· != 13) = joinLines ls ++ (if b then [10] else []) := by
  induction ls with
  | nil => exact absurd rfl hne
  | cons l ls ih =>
    obtain ⟨h1, h2⟩ := linesOk_cons h
    cases ls with
    | nil => exact ⟨l.lf, by simp only [List.flatMap_cons, List.flatMap_nil, List.append_nil]; rw [filter13_line h1]; rfl⟩
    | cons k ls =>
      obtain ⟨b, hb⟩ := ih h2 (by simp)
      refine ⟨b, ?_⟩
      rw [List.flatMap_cons, List.filter_append, filter13_line h1, hb]
      have : l.lf = true := h.1.2
      simp [this, joinLines]

theorem dropWhile_append_stop {P : UInt8 → Bool} {x : Bytes} {c : UInt8} (y : Bytes) (h : P c = false) :
    (x ++ c :: y).dropWhile P = x.dropWhile P ++ c :: y := by
  induction x with
  | nil => simp [List.dropWhile, h]
  | cons d x ih =>
    simp only [List.cons_append, List.dropWhile]
    cases P d
    · rfl
    · exact ih

theorem joinLines_dropWhile (l : CommentLine) (ls : List CommentLine) :
    (joinLines (l :: ls)).dropWhile (· == 10) =
      (l.ws.filter (· != 13)).dropWhile (· == 10) ++ 35 :: l.body ++
        (match (if ls = [] then none else some (joinLines ls)) with | some r => 10 :: r | none => []) := by
  cases ls with
  | nil =>
    simp only [joinLines, lineText, if_true, List.append_nil]
    exact dropWhile_append_stop _ (by decide)
  | cons k ls =>
    simp only [joinLines, lineText, List.append_assoc, List.cons_append, reduceCtorEq, if_false]
    exact dropWhile_append_stop _ (by decide)

theorem trim_joinLines (ls : List CommentLine) (h : LinesOk ls) (hne : ls ≠ []) (b : Bool) :
    trim 10 (joinLines ls ++ (if b then [10] else [])) = (joinLines ls).dropWhile (· == 10) := by
  obtain ⟨y, d, h1, h2⟩ := joinLines_last ls h hne
  unfold trim
  have hd : (d == (10 : UInt8)) = false := by simpa using h2
  have h3 : (joinLines ls ++ (if b then [10] else [])).dropWhile (· == 10) =
      (joinLines ls).dropWhile (· == 10) ++ (if b then [10] else []) := by
    rw [h1, List.append_assoc, List.singleton_append,
      dropWhile_append_stop (P := (· == 10)) _ hd, dropWhile_append_stop (P := (· == 10)) _ hd]
    simp
  have h4 : (joinLines ls).dropWhile (· == 10) = y.dropWhile (· == 10) ++ [d] := by
    rw [h1, dropWhile_append_stop (P := (· == 10)) _ hd]
  have h5 : trimRight 10 ((joinLines ls).dropWhile (· == 10)) = (joinLines ls).dropWhile (· == 10) := by
    apply trimRight_id
    rw [h4]; simpa using h2
  rw [h3]
  cases b
  · simpa using h5
  · simp only [if_true]; rw [trimRight_append_single, h5]

/-- The comment action on the lines of a gap. -/
theorem commentAction_lines (o : Opts) (l : CommentLine) (ls : List CommentLine) (tail : Bytes)
    (h : LinesOk (l :: ls)) :
    commentAction o ((l :: ls).flatMap CommentLine.text) =
      if o.ignoreComments then [] else Gap.comments ⟨l :: ls, tail⟩ := by
  unfold commentAction
  split
  · rfl
  · obtain ⟨b, hb⟩ := filter13_lines (l :: ls) h (by simp)
    unfold removeByte
    rw [hb, trim_joinLines _ h (by simp), joinLines_dropWhile]
    obtain ⟨h1, h2⟩ := linesOk_cons h
    rw [commentLines_first]
    · simp only [Gap.comments, CommentLine.comment, blankBeforeFirst]
      congr 1
      cases ls with
      | nil => simp
      | cons k ls =>
        have := joinLines_comments (k :: ls) h2 (by simp)
        simp only [reduceCtorEq, if_false]
        rw [this]; rfl
    · intro hh
      exact filter_ws_no_hash h1 (List.dropWhile_subset _ hh)
    · exact (body_no h1).1

/-! ### Reading a gap -/

section
variable {o : Opts}

/-- Read one comment line. -/
def lineOf (b : Bytes) : Option (CommentLine × Bytes) :=
  match b.dropWhile isWs with
  | 35 :: r =>
    match r.dropWhile (fun c => c != 13 && c != 10) with
    | [] => some (⟨b.takeWhile isWs, r.takeWhile (fun c => c != 13 && c != 10), false, false⟩, [])
    | [13] => some (⟨b.takeWhile isWs, r.takeWhile (fun c => c != 13 && c != 10), true, false⟩, [])
    | 13 :: 10 :: t => some (⟨b.takeWhile isWs, r.takeWhile (fun c => c != 13 && c != 10), true, true⟩, t)
    | 10 :: t => some (⟨b.takeWhile isWs, r.takeWhile (fun c => c != 13 && c != 10), false, true⟩, t)
    | _ => none
  | _ => none

theorem takeWhile_all (P : UInt8 → Bool) (b : Bytes) : (b.takeWhile P).all P = true := List.all_takeWhile ..

theorem dropWhile_head {P : UInt8 → Bool} {b : Bytes} {c : UInt8} {t : Bytes} (h : b.dropWhile P = c :: t) :
    P c = false := by
  have := List.head_dropWhile_not (p := P) (l := b) (by rw [h]; simp)
  simpa [h] using this

theorem lineOf_some {b b' : Bytes} {l : CommentLine} (h : lineOf b = some (l, b')) :
    b = l.text ++ b' ∧ l.OkEnd ∧ (l.lf = false → b' = []) ∧ b'.length < b.length := by
  have hb := List.takeWhile_append_dropWhile (p := isWs) (l := b)
  unfold lineOf at h
  split at h
  · rename_i r hr
    rw [hr] at hb
    have hr' := List.takeWhile_append_dropWhile (p := fun c => c != 13 && c != 10) (l := r)
    have hlen : b.length = (b.takeWhile isWs).length + (1 + r.length) := by
      conv => lhs; rw [← hb]
      simp; omega
    have hrl := congrArg List.length hr'
    simp only [List.length_append] at hrl
    split at h
    all_goals first | (cases h; done) | skip
    all_goals
      rename_i hd
      simp only [Option.some.injEq, Prod.mk.injEq] at h
      obtain ⟨rfl, rfl⟩ := h
      rw [hd] at hr' hrl
      refine ⟨?_, ⟨takeWhile_all _ _, takeWhile_all _ _⟩, by simp, ?_⟩
      · conv => lhs; rw [← hb, ← hr']
        simp [CommentLine.text]
      · simp only [List.length_cons, List.length_nil] at hrl ⊢; omega
  · cases h

theorem dropWhile_of_takeWhile_nil {P : UInt8 → Bool} {b : Bytes} (h : b.takeWhile P = []) : b.dropWhile P = b := by
  have := List.takeWhile_append_dropWhile (p := P) (l := b)
  rw [h] at this; exact this

theorem runs_optws (b : Bytes) : ∃ v, ∀ fr, run o (.opt G.whitespace) b fr = .ok v (b.dropWhile isWs) fr := by
  by_cases h : b.takeWhile isWs = []
  · exact ⟨.nil, fun fr => by rw [run_opt, run_ws, h]; simp [dropWhile_of_takeWhile_nil h]⟩
  · exact ⟨.ws, fun fr => by rw [run_opt, run_ws]; simp [h]⟩

theorem run_commentLine (b : Bytes) :
    match lineOf b with
    | some (_, b') => ∃ v, ∀ fr, run o G.commentLine b fr = .ok v b' fr
    | none => ∀ fr, run o G.commentLine b fr = .fail := by
  obtain ⟨v1, h1⟩ := runs_optws (o := o) b
  have hash : (b!"#").all (fun c => decide (c < 128)) = true := by decide
  have cr : (b!"\r").all (fun c => decide (c < 128)) = true := by decide
  have nl : (b!"\n").all (fun c => decide (c < 128)) = true := by decide
  unfold lineOf
  cases hd : b.dropWhile isWs with
  | nil =>
    intro fr
    rw [G.commentLine, run_seq]
    simp only [seqR, h1, hd, run_tok hash]
    rfl
  | cons c r =>
    by_cases hc : c = 35
    · subst hc
      obtain ⟨v2, h2⟩ := class_body.star' (o := o) r
      have key : ∀ fr, run o G.commentLine b fr =
          seqR (run o) [.opt (.lit b!"\r"), .choice [.lit b!"\n", G.eof]] [v1, .bytes b!"#", v2]
            (r.dropWhile (fun c => c != 13 && c != 10)) fr := by
        intro fr
        rw [G.commentLine, run_seq]
        simp only [seqR, h1, hd, run_tok hash]
        simp only [List.isPrefixOf, BEq.rfl, Bool.and_self, if_true, List.drop_succ_cons, List.drop_zero,
          List.length_cons, List.length_nil, h2, List.nil_append, List.cons_append]
      simp only [key]
      generalize r.dropWhile (fun c => c != 13 && c != 10) = s
      simp only [seqR, run_opt, run_tok cr, run_choice, choiceR, run_tok nl, run_eof]
      cases s with
      | nil => exact ⟨_, fun fr => rfl⟩
      | cons d s =>
        by_cases h13 : d = 13
        · subst h13
          cases s with
          | nil => exact ⟨_, fun fr => rfl⟩
          | cons d s =>
            by_cases h10 : d = 10
            · subst h10; exact ⟨_, fun fr => rfl⟩
            · have : ¬ (10 : UInt8) = d := fun hh => h10 hh.symm
              simp [List.isPrefixOf, h10, this]
        · have h13' : ¬ (13 : UInt8) = d := fun hh => h13 hh.symm
          by_cases h10 : d = 10
          · subst h10
            simp only [List.isPrefixOf]
            exact ⟨_, fun fr => rfl⟩
          · have : ¬ (10 : UInt8) = d := fun hh => h10 hh.symm
            simp [List.isPrefixOf, h10, this, h13, h13']
    · split
      · rename_i heq
        split at heq
        · rename_i h35; simp only [List.cons.injEq] at h35; exact absurd h35.1 hc
        · cases heq
      intro fr
      rw [G.commentLine, run_seq]
      have : ((35 : UInt8) == c) = false := by simpa using fun hh : 35 = c => hc hh.symm
      simp only [seqR, h1, hd, run_tok hash, List.isPrefixOf, this, Bool.false_and]
      rfl

/-- Read comment lines as long as possible. -/
def linesOf (b : Bytes) : List CommentLine × Bytes :=
  match h : lineOf b with
  | some (l, b') => (l :: (linesOf b').1, (linesOf b').2)
  | none => ([], b)
termination_by b.length
decreasing_by all_goals exact (lineOf_some h).2.2.2

theorem linesOf_none {b : Bytes} (h : lineOf b = none) : linesOf b = ([], b) := by
  rw [linesOf]; split
  · rename_i h1; rw [h] at h1; cases h1
  · rfl

theorem linesOf_some {b b' : Bytes} {l : CommentLine} (h : lineOf b = some (l, b')) :
    linesOf b = (l :: (linesOf b').1, (linesOf b').2) := by
  rw [linesOf]; split
  · rename_i h1
    rw [h] at h1
    simp only [Option.some.injEq, Prod.mk.injEq] at h1
    obtain ⟨rfl, rfl⟩ := h1
    rfl
  · rename_i h1; rw [h] at h1; cases h1

/-- Induction along the comment lines. -/
theorem lines_ind {P : Bytes → Prop} (h0 : ∀ b, lineOf b = none → P b)
    (h1 : ∀ b l b', lineOf b = some (l, b') → P b' → P b) (b : Bytes) : P b := by
  obtain ⟨n, hn⟩ : ∃ n, b.length ≤ n := ⟨_, Nat.le_refl _⟩
  induction n generalizing b with
  | zero =>
    have : b = [] := by simpa using hn
    subst this; exact h0 _ rfl
  | succ n ih =>
    cases h : lineOf b with
    | none => exact h0 b h
    | some p =>
      obtain ⟨l, b'⟩ := p
      exact h1 b l b' h (ih b' (by have := (lineOf_some h).2.2.2; omega))

/-- The end of a gap: no whitespace and no comment follows. -/
def Stop (b : Bytes) : Prop := b.takeWhile isWs = [] ∧ lineOf b = none

theorem linesOf_spec (b : Bytes) :
    b = (linesOf b).1.flatMap CommentLine.text ++ (linesOf b).2 ∧ LinesOk (linesOf b).1 ∧
      lineOf (linesOf b).2 = none ∧
      ((∀ l ∈ (linesOf b).1, l.Ok) ∨
        ∃ ls l, (linesOf b).1 = ls ++ [l] ∧ (∀ l ∈ ls, l.Ok) ∧ l.OkEnd ∧ l.lf = false ∧ (linesOf b).2 = []) := by
  induction b using lines_ind with
  | h0 b h => rw [linesOf_none h]; exact ⟨by simp, trivial, h, .inl (by simp)⟩
  | h1 b l b' h ih =>
    rw [linesOf_some h]
    obtain ⟨e1, e2, e3, e4⟩ := lineOf_some h
    obtain ⟨i1, i2, i3, i4⟩ := ih
    have hl : l.lf = false → (linesOf b').1 = [] ∧ (linesOf b').2 = [] := by
      intro hl
      have := e3 hl
      subst this
      rw [linesOf_none rfl]; simp
    refine ⟨?_, ?_, i3, ?_⟩
    · conv => lhs; rw [e1, i1]
      simp
    · cases hc : (linesOf b').1 with
      | nil => exact e2
      | cons k ls =>
        refine ⟨⟨e2, ?_⟩, hc ▸ i2⟩
        cases hlf : l.lf with
        | true => rfl
        | false => have := (hl hlf).1; rw [hc] at this; cases this
    · cases hlf : l.lf with
      | false =>
        obtain ⟨j1, j2⟩ := hl hlf
        exact .inr ⟨[], l, by simp [j1], by simp, e2, hlf, j2⟩
      | true =>
        rcases i4 with i4 | ⟨ls, l2, k1, k2, k3, k4, k5⟩
        · refine .inl fun m hm => ?_
          simp only [List.mem_cons] at hm
          rcases hm with rfl | hm
          · exact ⟨e2, hlf⟩
          · exact i4 m hm
        · refine .inr ⟨l :: ls, l2, by simp [k1], ?_, k3, k4, k5⟩
          intro m hm
          simp only [List.mem_cons] at hm
          rcases hm with rfl | hm
          · exact ⟨e2, hlf⟩
          · exact k2 m hm

/-- Read a gap. -/
def gapOf (b : Bytes) : Gap × Bytes :=
  (⟨(linesOf b).1, (linesOf b).2.takeWhile isWs⟩, (linesOf b).2.dropWhile isWs)

theorem takeWhile_dropWhile (P : UInt8 → Bool) (b : Bytes) : (b.dropWhile P).takeWhile P = [] := by
  cases h : b.dropWhile P with
  | nil => rfl
  | cons c t => simp [List.takeWhile, dropWhile_head h]

theorem dropWhile_idem (P : UInt8 → Bool) (b : Bytes) : (b.dropWhile P).dropWhile P = b.dropWhile P :=
  dropWhile_of_takeWhile_nil (takeWhile_dropWhile P b)

theorem lineOf_dropWhile {b : Bytes} (h : lineOf b = none) : lineOf (b.dropWhile isWs) = none := by
  unfold lineOf at h ⊢
  rw [dropWhile_idem]
  generalize b.dropWhile isWs = s at h ⊢
  generalize b.takeWhile isWs = w at h
  generalize s.takeWhile isWs = w'
  cases s with
  | nil => rfl
  | cons c r =>
    by_cases hc : c = 35
    · subst hc
      simp only at h ⊢
      generalize r.dropWhile (fun c => c != 13 && c != 10) = u at h ⊢
      split at h
      · cases h
      · cases h
      · cases h
      · cases h
      · rfl
    · split
      · rename_i h35; simp only [List.cons.injEq] at h35; exact absurd h35.1 hc
      · rfl

theorem gapOf_spec (b : Bytes) :
    b = (gapOf b).1.text ++ (gapOf b).2 ∧ Stop (gapOf b).2 ∧ LinesOk (gapOf b).1.lines ∧
      ((gapOf b).1.Ok ∨ ((gapOf b).1.OkEnd ∧ (gapOf b).2 = [])) := by
  obtain ⟨h1, h2, h3, h4⟩ := linesOf_spec b
  refine ⟨?_, ⟨takeWhile_dropWhile _ _, lineOf_dropWhile h3⟩, h2, ?_⟩
  · conv => lhs; rw [h1]
    simp only [gapOf, Gap.text, List.append_assoc, List.takeWhile_append_dropWhile]
  · rcases h4 with h4 | ⟨ls, l, k1, k2, k3, k4, k5⟩
    · exact .inl ⟨h4, takeWhile_all _ _⟩
    · refine .inr ⟨.inr ⟨ls, l, ?_, k2, k3, k4⟩, ?_⟩
      · simp [gapOf, k1, k5]
      · simp [gapOf, k5]

theorem gapOf_ok {b : Bytes} {c : UInt8} {t : Bytes} (h : (gapOf b).2 = c :: t) : (gapOf b).1.Ok := by
  rcases (gapOf_spec b).2.2.2 with h1 | h1
  · exact h1
  · rw [h] at h1; simp at h1

theorem gapOf_stop {b : Bytes} (h : Stop b) : gapOf b = (Gap.empty, b) := by
  unfold gapOf
  rw [linesOf_none h.2]
  simp only [h.1, dropWhile_of_takeWhile_nil h.1]
  rfl

theorem gapOf_idem (b : Bytes) : gapOf (gapOf b).2 = (Gap.empty, (gapOf b).2) :=
  gapOf_stop (gapOf_spec b).2.1

/-- The value of the comment lines. -/
def linesVal (o : Opts) : List CommentLine → List Val
  | [] => []
  | l :: ls => [.comments (commentAction o ((l :: ls).flatMap CommentLine.text))]
/-- The value of the whitespace. -/
def tailVal : Bytes → List Val
  | [] => []
  | _ :: _ => [.ws]
/-- The value of a gap. -/
def gapVal (o : Opts) (g : Gap) : Val := .list (linesVal o g.lines ++ tailVal g.tail)

theorem line_steps (b : Bytes) : ∃ vs, Steps o G.commentLine b vs (linesOf b).2 ∧ Fails o G.commentLine (linesOf b).2 ∧
    (vs = [] ↔ (linesOf b).1 = []) := by
  induction b using lines_ind with
  | h0 b h =>
    have := run_commentLine (o := o) b
    rw [h] at this
    rw [linesOf_none h]
    exact ⟨[], .nil _, this [], by simp⟩
  | h1 b l b' h ih =>
    have := run_commentLine (o := o) b
    rw [h] at this
    obtain ⟨v, hv⟩ := this
    obtain ⟨vs, i1, i2, i3⟩ := ih
    rw [linesOf_some h]
    exact ⟨v :: vs, .cons ⟨_, hv []⟩ i1, i2, by simp⟩

theorem run_comment (b : Bytes) (fr : Frame) : run o G.comment b fr =
    match (linesOf b).1 with
    | [] => .fail
    | ls => .ok (.comments (commentAction o (ls.flatMap CommentLine.text))) (linesOf b).2 fr := by
  obtain ⟨vs, h1, h2, h3⟩ := line_steps (o := o) b
  cases hl : (linesOf b).1 with
  | nil =>
    simp only
    have hv := h3.2 hl
    subst hv
    have hb : (linesOf b).2 = b := by
      have := (linesOf_spec b).1
      rw [hl] at this
      simpa using this.symm
    rw [hb] at h2
    rw [G.comment, run_action, plus_fail h2]
  | cons l ls =>
    simp only
    have hv : vs ≠ [] := fun hh => by have := h3.1 hh; rw [hl] at this; cases this
    rw [G.comment, run_action, plus_ok.2 ⟨rfl, vs, hv, rfl, h1, h2⟩]
    have hb := (linesOf_spec b).1
    rw [hl] at hb
    have : consumed b (linesOf b).2 = (l :: ls).flatMap CommentLine.text := by
      conv => lhs; arg 1; rw [hb]
      exact consumed_append _ _
    simp only [actR, runAct, this]

theorem gap_fails {b : Bytes} (h : Stop b) : Fails o (.choice [G.comment, G.whitespace]) b := by
  unfold Fails
  rw [run_choice, choiceR, run_comment, linesOf_none h.2]
  simp only [choiceR, run_ws, h.1]
  rfl

/-- A gap. -/
theorem run_gap (b : Bytes) (fr : Frame) :
    run o G.gap b fr = .ok (gapVal o (gapOf b).1) (gapOf b).2 fr := by
  obtain ⟨h1, h2, h3, h4⟩ := linesOf_spec b
  have hs : Stop (gapOf b).2 := (gapOf_spec b).2.1
  have hws : ∃ ws, Steps o (.choice [G.comment, G.whitespace]) (linesOf b).2 ws (gapOf b).2 ∧
      ws = tailVal ((linesOf b).2.takeWhile isWs) := by
    cases ht : (linesOf b).2.takeWhile isWs with
    | nil =>
      refine ⟨[], ?_, rfl⟩
      have : (gapOf b).2 = (linesOf b).2 := dropWhile_of_takeWhile_nil ht
      rw [this]; exact .nil _
    | cons c t =>
      refine ⟨[.ws], .cons ⟨[], ?_⟩ (.nil _), rfl⟩
      rw [run_choice, choiceR, run_comment, linesOf_none h3]
      simp only [choiceR, run_ws, ht]
      rfl
  obtain ⟨ws, hw1, hw2⟩ := hws
  have hlines : ∃ vs, Steps o (.choice [G.comment, G.whitespace]) b vs (linesOf b).2 ∧
      vs = linesVal o (linesOf b).1 := by
    cases hl : (linesOf b).1 with
    | nil =>
      refine ⟨[], ?_, rfl⟩
      have hb : (linesOf b).2 = b := by
        rw [hl] at h1
        simpa using h1.symm
      rw [hb]; exact .nil _
    | cons l ls =>
      refine ⟨_, .cons ⟨[], ?_⟩ (.nil _), rfl⟩
      rw [run_choice, choiceR, run_comment, hl]
  obtain ⟨vs, hv1, hv2⟩ := hlines
  have := star_of_steps fr (hv1.append hw1) (gap_fails hs)
  rw [G.gap, this]
  unfold gapVal
  rw [hv2, hw2]
  rfl

theorem run_gapS (b : Bytes) (fr : Frame) :
    run o G.gapS b fr = .ok (.str (gapOf b).1.text) (gapOf b).2 fr := by
  rw [G.gapS, run_action, run_gap]
  simp only [actR, runAct]
  congr 2
  conv => lhs; arg 1; rw [(gapOf_spec b).1]
  exact consumed_append _ _

theorem run_warn (b : Bytes) (fr : Frame) : run o G.warn b fr = .ok .nil b fr := run_state _ _ _

theorem setFirst_eq (b : Bool) (l : List Comment) : setFirstSpaceBefore b l = markFirst b l := by cases l <;> rfl
theorem setLast_eq (l : List Comment) : setLastSpaceAfter l = markLast l := by
  induction l with
  | nil => rfl
  | cons c l ih =>
    cases l with
    | nil => rfl
    | cons d l => simp only [setLastSpaceAfter, markLast, ih]

/-- The comment block of a gap. -/
theorem commentBlock_gap (g : Gap) (h : LinesOk g.lines) (sb sa : Bool) :
    commentBlock (gapVal o g) sb sa = g.block o.ignoreComments sb sa := by
  obtain ⟨ls, tail⟩ := g
  have h0 : ∀ l (acc : List Comment), commentBlockLoop sb sa (tailVal tail) (l :: acc) =
      if sa && !tail.isEmpty then markLast (l :: acc) else l :: acc := by
    intro l acc
    cases tail with
    | nil => simp [commentBlockLoop, tailVal]
    | cons c t => cases sa <;> simp [commentBlockLoop, setLast_eq, tailVal]
  have h00 : commentBlockLoop sb sa (tailVal tail) [] = [] := by
    cases tail <;> rfl
  cases ls with
  | nil =>
    simp only [commentBlock, gapVal, toIfaceSlice, linesVal, List.nil_append, Gap.block, Gap.comments]
    rw [h00]
    cases o.ignoreComments <;> cases sb <;> cases sa <;> cases tail <;> rfl
  | cons l ls =>
    have hc := commentAction_lines o l ls tail h
    simp only [commentBlock, gapVal, toIfaceSlice, linesVal, List.cons_append, List.nil_append, commentBlockLoop, Gap.block]
    rw [hc]
    cases o.ignoreComments with
    | true =>
      simp only [if_true]
      have : (if sb && ([] : List Comment).isEmpty then setFirstSpaceBefore true [] else []) = [] := by
        cases sb <;> rfl
      rw [this]; exact h00
    | false =>
      simp only [Bool.false_eq_true, if_false, List.isEmpty_nil, Bool.and_true, setFirst_eq]
      obtain ⟨d, ds, hd⟩ : ∃ d ds, Gap.comments ⟨l :: ls, tail⟩ = d :: ds := ⟨_, _, rfl⟩
      rw [hd]
      cases sb
      · exact h0 _ _
      · exact h0 _ _

/-! ### Gaps in a given text -/

theorem lineOf_none_iff (b : Bytes) : lineOf b = none ↔ lineOf (b.dropWhile isWs) = none := by
  refine ⟨lineOf_dropWhile, ?_⟩
  intro h
  unfold lineOf at h ⊢
  rw [dropWhile_idem] at h
  generalize b.dropWhile isWs = s at h ⊢
  generalize b.takeWhile isWs = w at h ⊢
  generalize s.takeWhile isWs = w' at h
  cases s with
  | nil => rfl
  | cons c r =>
    by_cases hc : c = 35
    · subst hc
      simp only at h ⊢
      generalize r.dropWhile (fun c => c != 13 && c != 10) = u at h ⊢
      split at h
      · cases h
      · cases h
      · cases h
      · cases h
      · rfl
    · split
      · rename_i h35; simp only [List.cons.injEq] at h35; exact absurd h35.1 hc
      · rfl

/-- A byte that ends a gap. -/
def isStop (c : UInt8) : Bool := !isWs c && c != 35

theorem stop_cons {c : UInt8} {t : Bytes} (h : isStop c = true) : Stop (c :: t) := by
  simp only [isStop, Bool.and_eq_true, Bool.not_eq_true', bne_iff_ne, ne_eq] at h
  constructor
  · simp [List.takeWhile, h.1]
  · unfold lineOf
    simp only [List.dropWhile, h.1]
    split
    · rename_i h35; simp only [List.cons.injEq] at h35; exact absurd h35.1 h.2
    · rfl

theorem stop_nil : Stop [] := ⟨rfl, rfl⟩

theorem lineOf_text {l : CommentLine} (r : Bytes) (h : l.OkEnd) (hl : l.lf = true ∨ r = []) :
    lineOf (l.text ++ r) = some (l, r) := by
  obtain ⟨ws, body, cr, lf⟩ := l
  have e : (CommentLine.mk ws body cr lf).text ++ r =
      ws ++ 35 :: (body ++ ((if cr then [13] else []) ++ (if lf then [10] else []) ++ r)) := by
    simp [CommentLine.text]
  have h1 : ws.all isWs = true := h.1
  have h2 : body.all (fun c => c != 13 && c != 10) = true := h.2
  have hlf : lf = true ∨ r = [] := hl
  unfold lineOf
  rw [e, dropWhile_append_all _ h1, takeWhile_append_all _ h1]
  have e1 : ∀ y : Bytes, ((35 : UInt8) :: y).dropWhile isWs = 35 :: y := fun y => rfl
  have e2 : ∀ y : Bytes, ((35 : UInt8) :: y).takeWhile isWs = [] := fun y => rfl
  rw [e1, e2]
  simp only
  rw [dropWhile_append_all _ h2, takeWhile_append_all _ h2]
  rcases hlf with rfl | rfl
  · cases cr <;> simp [List.dropWhile, List.takeWhile]
  · cases cr <;> cases lf <;> simp [List.dropWhile, List.takeWhile]

theorem linesOf_text (ls : List CommentLine) (r : Bytes) (h : ∀ l ∈ ls, l.Ok) (hr : lineOf r = none) :
    linesOf (ls.flatMap CommentLine.text ++ r) = (ls, r) := by
  induction ls with
  | nil => exact linesOf_none hr
  | cons l ls ih =>
    have h1 := h l (by simp)
    rw [List.flatMap_cons, List.append_assoc, linesOf_some (lineOf_text _ h1.1 (.inl h1.2)),
      ih (fun m hm => h m (by simp [hm]))]

/-- A gap followed by something that ends it. -/
theorem gapOf_text {g : Gap} {b : Bytes} (h : g.Ok) (hb : Stop b) : gapOf (g.text ++ b) = (g, b) := by
  have h1 : lineOf (g.tail ++ b) = none := by
    rw [lineOf_none_iff, dropWhile_append_all _ h.2, dropWhile_of_takeWhile_nil hb.1]; exact hb.2
  unfold gapOf Gap.text
  rw [List.append_assoc, linesOf_text _ _ h.1 h1]
  simp only [dropWhile_append_all _ h.2, dropWhile_of_takeWhile_nil hb.1, takeWhile_append_all _ h.2, hb.1,
    List.append_nil]

/-- A gap at the end of the file. -/
theorem gapOf_end {g : Gap} (h : g.OkEnd) : gapOf g.text = (g, []) := by
  rcases h with h | ⟨ls, l, rfl, h1, h2, h3⟩
  · simpa using gapOf_text h stop_nil
  · have h4 : linesOf ((ls ++ [l]).flatMap CommentLine.text) = (ls ++ [l], []) := by
      induction ls with
      | nil =>
        have := lineOf_text [] h2 (.inr rfl)
        rw [List.append_nil] at this
        simp only [List.nil_append, List.flatMap_cons, List.flatMap_nil, List.append_nil]
        rw [linesOf_some this, linesOf_none rfl]
      | cons k ls ih =>
        have hk := h1 k (by simp)
        rw [List.cons_append, List.flatMap_cons, linesOf_some (lineOf_text _ hk.1 (.inl hk.2)),
          ih (fun m hm => h1 m (by simp [hm]))]
    unfold gapOf Gap.text
    simp only [List.append_nil]
    rw [h4]
    rfl

theorem linesOk_of_all {ls : List CommentLine} (h : ∀ l ∈ ls, l.Ok) : LinesOk ls := by
  induction ls with
  | nil => trivial
  | cons l ls ih =>
    cases ls with
    | nil => exact (h l (by simp)).1
    | cons k ls => exact ⟨h l (by simp), ih (fun m hm => h m (by simp [hm]))⟩

theorem Spec.Gap.Ok.lines {g : Gap} (h : g.Ok) : LinesOk g.lines := linesOk_of_all h.1

end

end Verif
