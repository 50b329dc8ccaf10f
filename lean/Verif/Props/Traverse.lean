import Verif.Proofs.Traverse
/-
Properties C30, C31, C33: `astutil.ApplyPlugins`.
-/
namespace Verif.Props
open Verif Verif.Spec

/-- A callback instrumented to record the elements it is invoked on. -/
def logged {σ : Type} (f : Callback σ) : Callback (σ × List BOP) := fun s c =>
  (f s.1 c).map fun r => ((r.1, s.2 ++ [c.parent.getD c.index.toNat .nil]), r.2)

/-- The callback only ever uses its cursor in the disciplined way. -/
def DisciplinedCallback {σ : Type} (f : Callback σ) : Prop :=
  ∀ s c s' ops, f s c = some (s', ops) → Disciplined ops

theorem visitorOf_logged {σ : Type} (f : Callback σ) :
    visitorOf (logged f) = loggedV (visitorOf f) := by
  funext s left b right
  simp only [visitorOf, logged, loggedV]
  cases f s.1 ⟨left ++ b :: right, left.length, 1⟩ with
  | none => rfl
  | some r => simp [List.getD]

theorem logged_disciplined {σ : Type} (f : Callback σ) (hf : DisciplinedCallback f) :
    DisciplinedCallback (logged f) := by
  intro s c s' ops h
  simp only [logged] at h
  cases hc : f s.1 c with
  | none => rw [hc] at h; simp at h
  | some r =>
    rw [hc] at h
    simp at h
    exact hf _ _ _ _ (by rw [hc, ← h.2])

/-- **C30** For every tree and every disciplined callback (stateful, deciding on anything
it sees), the callback is invoked exactly on the plugins and nil elements of the original
tree, each once, in source order — never on inserted or replacing elements. -/
theorem C30_visits_each_once {σ : Type} (f : Callback σ) (hf : DisciplinedCallback f)
    (root : List BOP) (s s' : σ) (log r : List BOP) (fuel : Nat) (hfuel : bopsSize root ≤ fuel)
    (h : applyPlugins (logged f) fuel (s, []) root = .done (s', log) r) :
    log = visitList root := by
  rw [applyPlugins_eq _ (logged_disciplined f hf) root fuel _ hfuel, visitorOf_logged] at h
  cases hr : rewriteList (loggedV (visitorOf f)) (s, []) [] root with
  | none => rw [hr] at h; simp [applyOutcome] at h
  | some x =>
    rw [hr] at h
    obtain ⟨⟨s1, log1⟩, l⟩ := x
    simp only [applyOutcome, ApplyRes.done.injEq, Prod.mk.injEq] at h
    obtain ⟨⟨rfl, rfl⟩, rfl⟩ := h
    have := (loggedV_list (visitorOf f) root s [] [] _ _ _ hr).1
    simpa using this

/-- **C30** With a disciplined callback the traversal terminates, and it panics only if
the callback panics or the tree contains a `*ast.Plugin` element. -/
theorem C30_terminates {σ : Type} (f : Callback σ) (hf : DisciplinedCallback f)
    (root : List BOP) (s : σ) (fuel : Nat) (hfuel : bopsSize root ≤ fuel) :
    applyPlugins f fuel s root ≠ .timeout ∧
    ((∀ s c, (f s c).isSome = true) → (∀ p, BOP.pluginPtr p ∉ visitList root) →
      ∃ s' r, applyPlugins f fuel s root = .done s' r) := by
  rw [applyPlugins_eq _ hf root fuel _ hfuel]
  constructor
  · cases rewriteList (visitorOf f) s [] root <;> simp [applyOutcome]
  · intro ht hp
    have h := rewriteList_total (visitorOf f) (by
      intro s l b r
      simp only [visitorOf, Option.isSome_map]
      exact ht _ _) root s [] hp
    cases hr : rewriteList (visitorOf f) s [] root with
    | none => rw [hr] at h; simp at h
    | some x => exact ⟨x.1, x.2, by simp [applyOutcome]⟩

/-- **C31** The result of `ApplyPlugins` with a disciplined callback is the original tree
in which every visited element is replaced by what the callback's operations describe:
the elements inserted before it, the element itself (replaced, or nothing if deleted), the
elements inserted after it.  (`rewriteList` walks the tree structurally; a panic of the
callback aborts both.) -/
theorem C31_result {σ : Type} (f : Callback σ) (hf : DisciplinedCallback f)
    (root : List BOP) (s : σ) (fuel : Nat) (hfuel : bopsSize root ≤ fuel) :
    applyPlugins f fuel s root =
      match rewriteList (visitorOf f) s [] root with
      | some (s', r) => .done s' r
      | none => .panic := by
  rw [applyPlugins_eq _ hf root fuel _ hfuel]
  cases rewriteList (visitorOf f) s [] root <;> rfl

/-- A plugin without attributes. -/
def plainPlugin (n : Bytes) : BOP := .plugin (.mk Pos.zero n [] [] [])

/-- A callback for examples: replaces `a`, deletes `b`, inserts around `c`. -/
def demo : Callback Unit := fun _ c =>
  match c.plugin with
  | some (.mk _ n _ _ _) =>
    if n = b!"a" then some ((), [.replace (plainPlugin b!"A")])
    else if n = b!"b" then some ((), [.delete])
    else if n = b!"c" then
      some ((), [.insertAfter (plainPlugin b!"after"), .insertBefore (plainPlugin b!"before")])
    else some ((), [])
  | none => some ((), [])

theorem demo_disciplined : DisciplinedCallback demo := by
  intro s c s' ops h
  simp only [demo] at h
  split at h
  · split at h
    · simp at h; subst h; exact ⟨[.replace (plainPlugin b!"A")], [], by simp [isReplaceOrAfter], by simp, .inl rfl⟩
    · split at h
      · simp at h; subst h; exact ⟨[], [], by simp, by simp, .inr rfl⟩
      · split at h
        · simp at h; subst h
          exact ⟨[.insertAfter (plainPlugin b!"after")], [.insertBefore (plainPlugin b!"before")],
            by simp [isReplaceOrAfter], by simp [isBefore], .inl rfl⟩
        · simp at h; subst h; exact ⟨[], [], by simp, by simp, .inl rfl⟩
  · simp at h; subst h; exact ⟨[], [], by simp, by simp, .inl rfl⟩

/-- The hypotheses of C30 and C31 are met by a callback that replaces, deletes and
inserts, on a tree with a branch. -/
example : ∃ s' log r, applyPlugins (logged demo) 100 ((), [])
    [plainPlugin b!"a", .branch Pos.zero [] [plainPlugin b!"b", plainPlugin b!"c"] [] [] []
      ElseB.zero] = .done (s', log) r ∧
    log = [plainPlugin b!"a", plainPlugin b!"b", plainPlugin b!"c"] ∧
    r = [plainPlugin b!"A", .branch Pos.zero []
      [plainPlugin b!"before", plainPlugin b!"c", plainPlugin b!"after"] [] [] [] ElseB.zero] := by
  refine ⟨_, _, _, rfl, rfl, rfl⟩

/-- **C33** What an operation does when the cursor stands on `x`, at any place of any list: `Delete` removes `x` and
leaves the cursor on the element after it, `Replace` and `InsertAfter` leave it on the same place, and after
`InsertBefore p` it stands on `p`. -/
theorem C33_operations (l r : List BOP) (x p : BOP) (k : Int) :
    Cursor.run ⟨l ++ x :: r, l.length, k⟩ .delete = some ⟨l ++ r, l.length, k - 1⟩ ∧
    Cursor.run ⟨l ++ x :: r, l.length, k⟩ (.replace p) = some ⟨l ++ p :: r, l.length, k⟩ ∧
    Cursor.run ⟨l ++ x :: r, l.length, k⟩ (.insertBefore p) = some ⟨l ++ p :: x :: r, l.length, k + 1⟩ ∧
    Cursor.run ⟨l ++ x :: r, l.length, k⟩ (.insertAfter p) = some ⟨l ++ x :: p :: r, l.length, k + 1⟩ := by
  have h0 : ¬ ((l.length : Int) < 0) := by omega
  refine ⟨?_, ?_, ?_, ?_⟩ <;>
    simp [Cursor.run, h0, List.drop_append, List.take_append]
  rw [List.take_of_length_le (by omega), List.drop_of_length_le (by omega)]
  rfl

/-- **C33** After the last element of a list is deleted the cursor stands behind the list: only `InsertBefore` works, the
other operations panic. -/
theorem C33_behind (l : List BOP) (p : BOP) (k : Int) :
    Cursor.run ⟨l, l.length, k⟩ .delete = none ∧ Cursor.run ⟨l, l.length, k⟩ (.replace p) = none ∧
    Cursor.run ⟨l, l.length, k⟩ (.insertAfter p) = none ∧
    Cursor.run ⟨l, l.length, k⟩ (.insertBefore p) = some ⟨l ++ [p], l.length, k + 1⟩ := by
  have h0 : ¬ ((l.length : Int) < 0) := by omega
  refine ⟨?_, ?_, ?_, ?_⟩ <;> simp [Cursor.run, h0]

/-- **C33** A callback that calls `Delete` twice: the element after `x` goes too, and the traversal goes on one place
before `x` – it visits the element before `x` once more, or panics if there is none; and it panics if `x` is the last
element. -/
theorem C33_delete_twice {σ : Type} (f : Callback σ) (n : Nat) (s s' : σ) (l r : List BOP) (x : BOP) (k : Int)
    (hx : x = .nil ∨ ∃ p, x = .plugin p) (hf : f s ⟨l ++ x :: r, l.length, 1⟩ = some (s', [.delete, .delete])) :
    applyLoop f (n + 2) s ⟨l ++ x :: r, l.length, k⟩ =
      match r with
      | [] => .panic
      | _ :: r' => if l = [] then .panic else applyLoop f (n + 1) s' ⟨l ++ r', l.length - 1, -1⟩ := by
  have h1 : ¬ ((l.length : Int) ≥ ((l ++ x :: r).length : Int)) := by simp; omega
  have h2 : ¬ ((l.length : Int) < 0) := by omega
  have h3 : (l ++ x :: r)[l.length]? = some x := by simp
  have h4 : applyLoop f (n + 2) s ⟨l ++ x :: r, l.length, k⟩ =
      match Cursor.runAll ⟨l ++ x :: r, l.length, 1⟩ [.delete, .delete] with
      | none => .panic
      | some c' => applyLoop f (n + 1) s' { c' with index := c'.index + c'.step } := by
    rw [applyLoop]
    simp only [if_neg h1, if_neg h2, Int.toNat_natCast, h3, hf]
    rcases hx with rfl | ⟨p, rfl⟩ <;> rfl
  rw [h4]
  cases r with
  | nil =>
    simp only [Cursor.runAll, (C33_operations l [] x x 1).1]
    rw [List.append_nil, (C33_behind l x _).1]
  | cons y r' =>
    simp only [Cursor.runAll, (C33_operations l (y :: r') x x 1).1, (C33_operations l r' y y (1 - 1)).1]
    by_cases hl : l = []
    · subst hl
      rw [if_pos rfl, applyLoop]
      simp
      omega
    · rw [if_neg hl]
      rfl

/-- **C33**, the violation: a callback that calls `Delete` twice on the second of four
plugins deletes its neighbour too, and the first plugin is visited a second time. -/
def deleteTwice : Callback Unit := fun _ c =>
  match c.plugin with
  | some (.mk _ n _ _ _) => if n = b!"b" then some ((), [.delete, .delete]) else some ((), [])
  | none => some ((), [])

theorem C33_violated_delete_twice :
    applyPlugins (logged deleteTwice) 100 ((), [])
      [plainPlugin b!"a", plainPlugin b!"b", plainPlugin b!"c", plainPlugin b!"d"]
    = .done ((), [plainPlugin b!"a", plainPlugin b!"b", plainPlugin b!"a", plainPlugin b!"d"])
        [plainPlugin b!"a", plainPlugin b!"d"] := by rfl

/-- **C33**, the violation: on the first plugin a double `Delete` makes the index negative
and `ApplyPlugins` panics. -/
theorem C33_violated_delete_twice_panics :
    applyPlugins deleteTwice 100 ()
      [plainPlugin b!"b", plainPlugin b!"c", plainPlugin b!"d"] = .panic := by rfl

/-- **C33**, the violation: `Replace` after `InsertBefore` replaces the inserted element,
and `InsertAfter` after `InsertBefore` inserts in front of the current plugin. -/
theorem C33_violated_after_insertBefore :
    applyPlugins (fun (_ : Unit) _ => some ((), [.insertBefore (plainPlugin b!"i"),
        .replace (plainPlugin b!"r")])) 100 () [plainPlugin b!"a"]
      = .done () [plainPlugin b!"r", plainPlugin b!"a"] ∧
    applyPlugins (fun (_ : Unit) _ => some ((), [.insertBefore (plainPlugin b!"i"),
        .insertAfter (plainPlugin b!"j")])) 100 () [plainPlugin b!"a"]
      = .done () [plainPlugin b!"i", plainPlugin b!"j", plainPlugin b!"a"] := ⟨rfl, rfl⟩

end Verif.Props
