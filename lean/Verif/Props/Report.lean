import Verif.Model.App
import Verif.Proofs.Bytes
/-
Properties C06 (the failure report as a function of the pushed expectations) and C47
(rendering of error lists).
-/
namespace Verif.Props
open Verif

/-! ### C47 -/

/-- The lines of an error message: trailing newlines dropped, split at newlines. -/
def messageLines (e : Bytes) : List Bytes := splitOn 10 (trimRight 10 e)

/-- How the lines of one message should appear: a bullet before the first, blanks before
the others. -/
def bulleted : List Bytes → List Bytes
  | [] => []
  | l :: ls => (b!"\t* " ++ l) :: ls.map (b!"\t  " ++ ·)

theorem splitOn_ne_nil (c : UInt8) (s : Bytes) : splitOn c s ≠ [] := by
  cases s with
  | nil => simp [splitOn]
  | cons b t => simp only [splitOn]; split <;> (try split) <;> simp

theorem splitOn_append_sep (c : UInt8) (s t : Bytes) (h : c ∉ s) :
    splitOn c (s ++ c :: t) = s :: splitOn c t := by
  induction s with
  | nil => simp [splitOn]
  | cons b s ih =>
    simp at h
    simp only [List.cons_append, splitOn]
    rw [if_neg (Ne.symm h.1), ih h.2]

theorem splitOn_no_sep (c : UInt8) (s : Bytes) : ∀ l ∈ splitOn c s, c ∉ l := by
  induction s with
  | nil => simp [splitOn]
  | cons b s ih =>
    simp only [splitOn]
    split
    · intro l hl
      simp at hl
      rcases hl with rfl | hl
      · simp
      · exact ih l hl
    · rename_i hb
      cases h : splitOn c s with
      | nil => exact absurd h (splitOn_ne_nil c s)
      | cons x xs =>
        rw [h] at ih
        intro l hl
        simp at hl
        rcases hl with rfl | hl
        · simp [Ne.symm hb, ih x (by simp)]
        · exact ih l (by simp [hl])

private theorem splitOn_bulletLines (ls : List Bytes) (first : Bool) (t : Bytes)
    (h : ∀ l ∈ ls, (10 : UInt8) ∉ l) :
    splitOn 10 (bulletLines first ls ++ t) =
      (if first then bulleted ls else ls.map (b!"\t  " ++ ·)) ++ splitOn 10 t := by
  induction ls generalizing first with
  | nil => cases first <;> simp [bulletLines, bulleted]
  | cons l ls ih =>
    have hl := h l (by simp)
    have := ih false (fun x hx => h x (by simp [hx]))
    simp only [bulletLines, List.append_assoc, List.cons_append, List.nil_append]
    rw [← List.append_assoc, splitOn_append_sep 10 _ _ (by cases first <;> simp [hl]), this]
    cases first <;> simp [bulleted]

theorem splitOn_bullet (e t : Bytes) :
    splitOn 10 (bullet e ++ t) = bulleted (messageLines e) ++ splitOn 10 t :=
  splitOn_bulletLines _ true t (splitOn_no_sep _ _)

/-- The header line. -/
def errorCount (n : Nat) : Bytes :=
  if n = 1 then b!"1 error occurred:" else natToBytes n ++ b!" errors occurred:"

private theorem header_no_newline (n : Nat) : (10 : UInt8) ∉ errorCount n := by
  unfold errorCount
  split
  · decide
  · intro h
    rcases List.mem_append.1 h with h | h
    · exact absurd (natToBytes_digits n 10 h).1 (by decide)
    · revert h; decide

private theorem splitOn_joined (es : List Bytes) (h : es ≠ []) :
    splitOn 10 (joinSep b!"\n" (es.map bullet) ++ b!"\n") =
      es.flatMap (fun e => bulleted (messageLines e) ++ [[]]) ++ [[]] := by
  induction es with
  | nil => exact absurd rfl h
  | cons e es ih =>
    cases es with
    | nil => simp [joinSep, splitOn_bullet, splitOn]
    | cons e' es =>
      have := ih (by simp)
      simp only [List.map_cons, joinSep, List.append_assoc] at this ⊢
      rw [splitOn_bullet, List.cons_append, List.nil_append, splitOn, if_pos rfl, this]
      simp

/-- **C47** Read line by line, the rendering of a non-empty error list is the header with
the number of errors, then, for every error in order, exactly the lines of its message —
the first one behind a bullet, the others indented — and an empty line. -/
theorem C47_lines (es : List Bytes) (h : es ≠ []) :
    splitOn 10 (multiErr es) =
      errorCount es.length :: (es.flatMap (fun e => bulleted (messageLines e) ++ [[]]) ++ [[]]) := by
  have key : multiErr es = errorCount es.length ++ 10 :: (joinSep b!"\n" (es.map bullet) ++ b!"\n") := by
    cases es with
    | nil => exact absurd rfl h
    | cons e es =>
      cases es with
      | nil => simp [multiErr, errorCount, joinSep]
      | cons e' es => simp [multiErr, errorCount]
  rw [key, splitOn_append_sep _ _ _ (header_no_newline _), splitOn_joined es h]

/-- **C47** Nothing is lost: the lines of a message give back the message up to trailing
newlines. -/
theorem C47_message_recoverable (e : Bytes) : joinSep b!"\n" (messageLines e) = trimRight 10 e := by
  have : ∀ s : Bytes, joinSep b!"\n" (splitOn 10 s) = s := by
    intro s
    induction s with
    | nil => rfl
    | cons b t ih =>
      simp only [splitOn]
      split
      · rename_i hb
        cases h : splitOn 10 t with
        | nil => exact absurd h (splitOn_ne_nil _ _)
        | cons x xs => rw [h] at ih; simp [joinSep, ih, hb]
      · cases h : splitOn 10 t with
        | nil => exact absurd h (splitOn_ne_nil _ _)
        | cons x xs =>
          rw [h] at ih
          cases xs with
          | nil => simp [joinSep] at ih ⊢; exact ih
          | cons y ys => simp [joinSep] at ih ⊢; exact ih
  exact this _

example : splitOn 10 (multiErr [b!"a\nb\n", b!"c"]) =
    [b!"2 errors occurred:", b!"\t* a", b!"\t  b", [], b!"\t* c", [], []] := by decide +kernel

/-! ### C06 -/

/-- The failure list after a history of expectations, starting from an empty list. -/
def report (h : List FF) : List FF := h.foldl pushFF []

/-- The farthest position of a history. -/
def farthest (h : List FF) : Nat := (h.map FF.pos).foldl max 0

/-- The entries of a history that are at position `p`, without repeated messages (the
first entry with a message is kept). -/
def distinctAt (p : Nat) : List FF → List Bytes → List FF
  | [], _ => []
  | e :: h, seen =>
    if e.pos = p ∧ e.msg ∉ seen then e :: distinctAt p h (e.msg :: seen) else distinctAt p h seen

private theorem distinctAt_append (p : Nat) (h : List FF) (e : FF) (seen : List Bytes) :
    distinctAt p (h ++ [e]) seen = distinctAt p h seen ++
      (if e.pos = p ∧ e.msg ∉ seen ∧ e.msg ∉ (distinctAt p h seen).map FF.msg then [e] else []) := by
  induction h generalizing seen with
  | nil => simp [distinctAt]
  | cons x h ih =>
    simp only [List.cons_append, distinctAt]
    split
    · rw [ih]
      simp only [List.cons_append, List.map_cons, List.mem_cons, not_or]
      have : (e.pos = p ∧ (e.msg ≠ x.msg ∧ e.msg ∉ seen) ∧
          e.msg ∉ (distinctAt p h (x.msg :: seen)).map FF.msg) ↔
          (e.pos = p ∧ e.msg ∉ seen ∧ e.msg ≠ x.msg ∧
          e.msg ∉ (distinctAt p h (x.msg :: seen)).map FF.msg) :=
        ⟨fun ⟨a, ⟨b, c⟩, d⟩ => ⟨a, c, b, d⟩, fun ⟨a, c, b, d⟩ => ⟨a, ⟨b, c⟩, d⟩⟩
      simp only [this]
    · exact ih seen

theorem distinctAt_pos (p : Nat) (h : List FF) (seen : List Bytes) :
    ∀ e ∈ distinctAt p h seen, e.pos = p := by
  induction h generalizing seen with
  | nil => simp [distinctAt]
  | cons x h ih =>
    simp only [distinctAt]
    split
    · rename_i hx
      intro e he
      rcases List.mem_cons.1 he with rfl | he
      · exact hx.1
      · exact ih _ e he
    · exact ih _

private theorem farthest_append (h : List FF) (e : FF) :
    farthest (h ++ [e]) = max (farthest h) e.pos := by
  simp [farthest, List.foldl_append]

private theorem le_foldl_max (l : List Nat) (a : Nat) : a ≤ l.foldl max a := by
  induction l generalizing a with
  | nil => simp
  | cons x l ih => exact Nat.le_trans (Nat.le_max_left _ _) (ih _)

private theorem le_farthest (h : List FF) : ∀ e ∈ h, e.pos ≤ farthest h := by
  have : ∀ (l : List Nat) (a : Nat), ∀ x ∈ l, x ≤ l.foldl max a := by
    intro l
    induction l with
    | nil => simp
    | cons y l ih =>
      intro a x hx
      rcases List.mem_cons.1 hx with rfl | hx
      · exact Nat.le_trans (Nat.le_max_right _ _) (le_foldl_max _ _)
      · exact ih _ x hx
  intro e he
  exact this _ 0 _ (List.mem_map_of_mem he)

private theorem distinctAt_above (p : Nat) (h : List FF) (seen : List Bytes)
    (hp : ∀ e ∈ h, e.pos < p) : distinctAt p h seen = [] := by
  induction h generalizing seen with
  | nil => rfl
  | cons x h ih =>
    have := hp x (by simp)
    simp only [distinctAt]
    rw [if_neg (by omega)]
    exact ih seen fun e he => hp e (by simp [he])

private theorem report_append (h : List FF) (e : FF) :
    report (h ++ [e]) = pushFF (report h) e := by
  simp [report, List.foldl_append]

/-- A non-empty history has a first entry at the farthest position. -/
private theorem distinctAt_nonempty (h : List FF) (hne : h ≠ []) :
    distinctAt (farthest h) h [] ≠ [] := by
  have hex : ∃ e ∈ h, e.pos = farthest h := by
    have : ∀ (l : List Nat) (a : Nat), l.foldl max a = a ∨ l.foldl max a ∈ l := by
      intro l
      induction l with
      | nil => simp
      | cons x l ih =>
        intro a
        rcases ih (max a x) with h | h
        · simp only [List.foldl_cons]
          rcases Nat.le_total a x with hax | hax
          · right; rw [h, Nat.max_eq_right hax]; simp
          · left; rw [h, Nat.max_eq_left hax]
        · right; simp [h]
    rcases this (h.map FF.pos) 0 with h0 | h0
    · cases h with
      | nil => exact absurd rfl hne
      | cons e h =>
        refine ⟨e, by simp, ?_⟩
        have := le_farthest (e :: h) e (by simp)
        unfold farthest at this ⊢
        omega
    · obtain ⟨e, he, hp⟩ := List.mem_map.1 h0
      exact ⟨e, he, hp⟩
  have : ∀ (l : List FF) (seen : List Bytes) (p : Nat),
      (∃ e ∈ l, e.pos = p ∧ e.msg ∉ seen) → distinctAt p l seen ≠ [] := by
    intro l
    induction l with
    | nil => simp
    | cons x l ih =>
      rintro seen p ⟨e, he, hp, hm⟩
      simp only [distinctAt]
      split
      · simp
      · rename_i hx
        rcases List.mem_cons.1 he with rfl | he
        · exact absurd ⟨hp, hm⟩ hx
        · exact ih seen p ⟨e, he, hp, hm⟩
  obtain ⟨e, he, hp⟩ := hex
  exact this h [] _ ⟨e, he, hp, by simp⟩

/-- **C06** For every history of failed expectations since the last reset, the failure
list is exactly: the expectations at the farthest position of the history, in the order
in which they were first met, every message once. -/
theorem C06_farthest (h : List FF) : report h = distinctAt (farthest h) h [] := by
  suffices H : ∀ r : List FF, report r.reverse = distinctAt (farthest r.reverse) r.reverse [] by
    simpa using H h.reverse
  intro r
  induction r with
  | nil => rfl
  | cons e r ih =>
    rw [List.reverse_cons]
    generalize r.reverse = h at ih ⊢
    rw [report_append, ih, farthest_append, distinctAt_append]
    by_cases hne : h = []
    · subst hne; simp [distinctAt, pushFF, farthest]
    · cases hd : distinctAt (farthest h) h [] with
      | nil => exact absurd hd (distinctAt_nonempty h hne)
      | cons f r =>
        have hf : f.pos = farthest h := distinctAt_pos _ _ _ f (by rw [hd]; simp)
        simp only [pushFF]
        rcases Nat.lt_trichotomy (farthest h) e.pos with hlt | heq | hgt
        · rw [if_pos (by omega), Nat.max_eq_right (by omega),
            distinctAt_above _ _ _ (fun x hx => Nat.lt_of_le_of_lt (le_farthest h x hx) hlt)]
          simp
        · rw [if_neg (by omega), if_pos (by omega), Nat.max_eq_left (by omega), hd]
          by_cases hm : e.msg ∈ (f :: r).map FF.msg
          · rw [if_pos, if_neg]
            · simp
            · rintro ⟨-, -, h3⟩; exact h3 hm
            · simp only [List.any_eq_true, beq_iff_eq]
              obtain ⟨x, hx, hxe⟩ := List.mem_map.1 hm
              exact ⟨x, hx, hxe⟩
          · rw [if_neg, if_pos]
            · exact ⟨heq.symm, by simp, hm⟩
            · simp only [List.any_eq_true, beq_iff_eq, not_exists, not_and]
              intro x hx hxe
              exact hm (List.mem_map.2 ⟨x, hx, hxe⟩)
        · rw [if_neg (by omega), if_neg (by omega), Nat.max_eq_left (by omega), hd, if_neg (by omega)]
          simp

theorem distinctAt_notSeen (p : Nat) (h : List FF) (seen : List Bytes) :
    ∀ e ∈ distinctAt p h seen, e.msg ∉ seen := by
  induction h generalizing seen with
  | nil => simp [distinctAt]
  | cons x h ih =>
    simp only [distinctAt]
    split
    · rename_i hx
      intro e he
      rcases List.mem_cons.1 he with rfl | he
      · exact hx.2
      · exact fun hm => ih _ e he (List.mem_cons_of_mem _ hm)
    · exact ih _

theorem distinctAt_nodup (p : Nat) (h : List FF) (seen : List Bytes) :
    ((distinctAt p h seen).map FF.msg).Nodup := by
  induction h generalizing seen with
  | nil => simp [distinctAt]
  | cons x h ih =>
    simp only [distinctAt]
    split
    · rw [List.map_cons, List.nodup_cons]
      refine ⟨fun hm => ?_, ih _⟩
      obtain ⟨y, hy, hm⟩ := List.mem_map.1 hm
      exact distinctAt_notSeen _ _ _ y hy (by rw [hm]; exact List.mem_cons_self ..)
    · exact ih _

/-- A history in which the farthest position is met, left and met again. -/
example : (report [⟨b!"a", Pos.zero, [], 3⟩, ⟨b!"b", Pos.zero, [], 5⟩, ⟨b!"c", Pos.zero, [], 4⟩,
    ⟨b!"d", Pos.zero, [], 5⟩, ⟨b!"b", Pos.zero, [], 5⟩]).map FF.msg = [b!"b", b!"d"] := by
  decide +kernel

end Verif.Props
