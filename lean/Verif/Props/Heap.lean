import Verif.Proofs.Heap
import Verif.Model.App
import Verif.Props.Traverse
/-
Property C32: `astutil.ApplyPlugins` on real slices.  A caller who throws the result away (as
`lint` does) still sees all replacements, but not deletions and insertions.
-/
namespace Verif.Props
open Verif.Spec

/-- **C32**, the traversal of slices computes what the traversal of trees (C30, C31) computes: let
the slice `root` on the heap `h` hold the block `bs`, with no two slices of the tree sharing an
array.  For every callback, `ApplyPlugins` on the heap ends, panics or runs on exactly if the
traversal of `bs` does; if it ends then with the same final state of the callback, the returned slice
holds the block the traversal of `bs` returns, and no array outside of the tree has changed.  This
holds however much spare capacity (`grow`) the runtime gives to a growing slice. -/
theorem C32_refines {σ : Type} (grow : Nat → Nat) (g : HCallback σ) (n : Nat) (s : σ) (h : Heap)
    (root : Slice) (bs : List BOP) (fp : List Nat) (ho : Owns h bs root fp) :
    match applyPlugins g.cur n s bs with
    | .done s' bs' => ∃ h' r fp', heapApply grow g n s h root = .done s' h' r ∧ Owns h' bs' r fp' ∧
        ∀ a, a < h.next → a ∉ fp → h'.blocks a = h.blocks a ∧ h'.elifs a = h.elifs a
    | .panic => heapApply grow g n s h root = .panic
    | .timeout => heapApply grow g n s h root = .timeout := by
  have := (loops (grow := grow) (g := g) n).1 s h ⟨root, 0, 1⟩ bs fp ho
  rw [show applyPlugins g.cur n s bs = applyLoop g.cur n s ⟨bs, 0, 1⟩ from rfl,
    show heapApply grow g n s h root = heapLoop grow g n s h ⟨root, 0, 1⟩ from rfl]
  simp only at this
  cases hr : heapLoop grow g n s h ⟨root, 0, 1⟩ <;> cases ht : applyLoop g.cur n s ⟨bs, 0, 1⟩ <;>
    rw [hr, ht] at this
  · obtain ⟨rfl, ⟨fp', h1, h2⟩, -⟩ := this
    exact ⟨_, _, fp', rfl, ⟨h1, h2.nodup, h2.bound⟩, h2.keep⟩
  all_goals first | exact this.elim | rfl

/-- **C32**, replacing works in place: if the callback only replaces, the slice the *caller* passed
holds the result afterwards — ignoring the returned slice loses nothing. -/
theorem C32_in_place {σ : Type} (grow : Nat → Nat) (g : HCallback σ) (hg : OnlyReplaces g) (n : Nat)
    (s : σ) (h : Heap) (root : Slice) (bs : List BOP) (fp : List Nat) (ho : Owns h bs root fp) (s' : σ)
    (bs' : List BOP) (ht : applyPlugins g.cur n s bs = .done s' bs') :
    ∃ h' fp', heapApply grow g n s h root = .done s' h' root ∧ Owns h' bs' root fp' := by
  have := (loops (grow := grow) (g := g) n).1 s h ⟨root, 0, 1⟩ bs fp ho
  rw [show applyPlugins g.cur n s bs = applyLoop g.cur n s ⟨bs, 0, 1⟩ from rfl] at ht
  rw [show heapApply grow g n s h root = heapLoop grow g n s h ⟨root, 0, 1⟩ from rfl]
  simp only at this
  rw [ht] at this
  cases hr : heapLoop grow g n s h ⟨root, 0, 1⟩ <;> rw [hr] at this
  · obtain ⟨rfl, ⟨fp', h1, h2⟩, h3⟩ := this
    have := h3 hg
    subst this
    exact ⟨_, fp', rfl, h1, h2.nodup, h2.bound⟩
  all_goals exact this.elim

/-- **C32**, coverage: every block can be laid out on a heap so that the hypothesis of the theorems
above holds. -/
theorem C32_every_tree (bs : List BOP) : ∃ h root fp, Owns h bs root fp := by
  obtain ⟨h', s, f, e, l, k⟩ := put_block bs ⟨fun _ => [], fun _ => [], 0⟩
  exact ⟨h', s, _, ⟨f, rfl, l, k⟩, e.nodup, e.bound⟩

/-- `validator.walk` (internal/app/lint/lint.go:121-145) as a callback on the heap. -/
def walkHeap : HCallback Validator := fun v p _ =>
  let v := { v with count := v.count + 1 }
  match p with
  | none => none
  | some p =>
    match p.id with
    | .id i =>
      if v.allIDs.contains i then
        some ({ v with duplicateIDs := v.duplicateIDs ++ [pluginRef p] }, [])
      else some ({ v with allIDs := i :: v.allIDs }, [])
    | _ =>
      if v.autoFix then
        some ({ v with changed := true }, [.replace (.pluginPtr (addID p v.count))])
      else some ({ v with noIDs := v.noIDs ++ [pluginRef p] }, [])

/-- It is the callback of the tree model. -/
theorem walkHeap_cur : walkHeap.cur = walk := by
  funext v c
  simp only [HCallback.cur, walkHeap, walk]
  cases c.plugin with
  | none => rfl
  | some p =>
    simp only
    cases p.id with
    | id i => simp only; by_cases hc : v.allIDs.contains i = true <;> simp only [hc, if_true, if_false, Bool.false_eq_true] <;> rfl
    | _ => simp only; by_cases hc : v.autoFix = true <;> simp only [hc, if_true, if_false, Bool.false_eq_true] <;> rfl

/-- It only replaces. -/
theorem walkHeap_replaces : OnlyReplaces walkHeap := by
  intro v p i v' ops h op hop
  simp only [walkHeap] at h
  cases p with
  | none => simp at h
  | some p =>
    simp only at h
    split at h
    · split at h <;> · rw [Option.some.injEq, Prod.mk.injEq] at h; rw [← h.2] at hop; simp at hop
    · split at h
      · rw [Option.some.injEq, Prod.mk.injEq] at h; rw [← h.2] at hop; exact ⟨_, by simpa using hop⟩
      · rw [Option.some.injEq, Prod.mk.injEq] at h; rw [← h.2] at hop; simp at hop

/-- **C32**, lint: `lint` ignores the slice `ApplyPlugins` returns.  Nevertheless each section
holds, after the walk, what the walk over its tree yields, ids added by `--auto-fix-id` included. -/
theorem C32_lint (grow : Nat → Nat) (n : Nat) (v : Validator) (h : Heap) (root : Slice) (bs : List BOP)
    (fp : List Nat) (ho : Owns h bs root fp) (v' : Validator) (bs' : List BOP)
    (ht : applyPlugins walk n v bs = .done v' bs') :
    ∃ h' fp', heapApply grow walkHeap n v h root = .done v' h' root ∧ Owns h' bs' root fp' :=
  C32_in_place grow walkHeap walkHeap_replaces n v h root bs fp ho v' bs' (by rw [walkHeap_cur]; exact ht)

/-! ### A concrete heap -/

/-- The heap of the block `a; if [] { b } else if [] { c } else { d }`: array 0 is the block (with a
spare cell), 1 the if-block, 2 the else-if blocks, 3 the block of the else-if, 4 the else block. -/
def demoHeap : Heap where
  blocks := fun a => match a with
    | 0 => [.plugin (.mk Pos.zero b!"a" [] [] []),
        .branch Pos.zero [] [] [] Pos.zero [] [] ⟨1, 1⟩ ⟨2, 1⟩ ⟨4, 1⟩, .nil]
    | 1 => [.plugin (.mk Pos.zero b!"b" [] [] [])]
    | 3 => [.plugin (.mk Pos.zero b!"c" [] [] [])]
    | 4 => [.plugin (.mk Pos.zero b!"d" [] [] [])]
    | _ => []
  elifs := fun a => match a with
    | 2 => [⟨Pos.zero, [], [], [], ⟨3, 1⟩⟩]
    | _ => []
  next := 5

/-- The tree. -/
def demoBlock : List BOP := [plainPlugin b!"a",
  .branch Pos.zero [] [plainPlugin b!"b"] [] [] [.mk Pos.zero [] [plainPlugin b!"c"] [] []]
    (.mk Pos.zero [plainPlugin b!"d"] [] [])]

/-- The hypothesis of the theorems is met. -/
theorem demo_owns : Owns demoHeap demoBlock ⟨0, 2⟩ [0, 1, 2, 3, 4] := by
  refine ⟨⟨[1, 2, 3, 4], rfl, by decide, ?_⟩, by decide, by decide⟩
  have one : ∀ n, HoldsList demoHeap [plainPlugin n] [.plugin (.mk Pos.zero n [] [] [])] [] := by
    intro n
    rw [HoldsList]
    refine ⟨_, [], [], [], rfl, rfl, ?_, ?_⟩
    · rw [plainPlugin, HoldsOne]; exact ⟨rfl, rfl⟩
    · rw [HoldsList]; exact ⟨rfl, rfl⟩
  rw [demoBlock, HoldsList]
  refine ⟨.plugin (.mk Pos.zero b!"a" [] [] []), [.branch Pos.zero [] [] [] Pos.zero [] [] ⟨1, 1⟩ ⟨2, 1⟩ ⟨4, 1⟩], [], [1, 2, 3, 4], rfl, rfl, ?_, ?_⟩
  · rw [plainPlugin, HoldsOne]; exact ⟨rfl, rfl⟩
  rw [HoldsList]
  refine ⟨_, [], [1, 2, 3, 4], [], rfl, rfl, ?_, ?_⟩
  · rw [HoldsOne]
    refine ⟨⟨1, 1⟩, ⟨2, 1⟩, ⟨4, 1⟩, [], [3], [], rfl, rfl, by decide, one _, by decide, ?_, by decide, one _⟩
    rw [HoldsElifs]
    refine ⟨⟨3, 1⟩, [], [], [], rfl, rfl, by decide, one _, ?_⟩
    rw [HoldsElifs]; exact ⟨rfl, rfl⟩
  · rw [HoldsList]; exact ⟨rfl, rfl⟩

/-- A callback that replaces every plugin by one named `x`. -/
def replaceAll : HCallback Unit := fun _ _ _ => some ((), [.replace (.plugin (.mk Pos.zero b!"x" [] [] []))])

/-- An instance of the theorem: all four plugins are replaced in the caller's slice, on a heap where
the caller's slice has a nested branch. -/
example : ∃ h' fp', heapApply (fun _ => 0) replaceAll 100 () demoHeap ⟨0, 2⟩ = .done () h' ⟨0, 2⟩ ∧
    Owns h' [plainPlugin b!"x", .branch Pos.zero [] [plainPlugin b!"x"] [] [] [.mk Pos.zero [] [plainPlugin b!"x"] [] []]
      (.mk Pos.zero [plainPlugin b!"x"] [] [])] ⟨0, 2⟩ fp' :=
  C32_in_place _ replaceAll (by intro s p i s' ops h op hop; simp [replaceAll] at h; rw [← h] at hop; simp at hop; exact ⟨_, hop⟩)
    100 () demoHeap ⟨0, 2⟩ demoBlock _ demo_owns () _ rfl

/-- The names of the plugins of a slice (branches are shown as `[]`). -/
def names (h : Heap) (s : Slice) : List Bytes := (h.read s).map fun x => match x with
  | .plugin (.mk _ n _ _ _) => n
  | _ => []

/-- The names in the caller's slice and in the returned slice after a traversal. -/
def seen (r : HRes Unit) (root : Slice) : Option (List Bytes × List Bytes) := match r with
  | .done _ h s => some (names h root, names h s)
  | _ => none

/-- Three plugins in an array with room for `spare` more. -/
def threeHeap (spare : Nat) : Heap where
  blocks := fun a => if a = 0 then [.plugin (.mk Pos.zero b!"a" [] [] []), .plugin (.mk Pos.zero b!"b" [] [] []),
    .plugin (.mk Pos.zero b!"c" [] [] [])] ++ List.replicate spare .nil else []
  elifs := fun _ => []
  next := 1

/-- A callback that performs `op` on the plugin `a`. -/
def onA (op : HOp) : HCallback Unit := fun _ p _ => match p with
  | some (.mk _ n _ _ _) => if n = b!"a" then some ((), [op]) else some ((), [])
  | none => some ((), [])

/-- **C32**, the limits: after `Delete` the caller's slice still has three elements, `b`, `c`, `c`; the
result is `b`, `c`.  After `InsertAfter` the caller's slice is `a`, `x`, `b` if the array had room, and
unchanged otherwise; the result is `a`, `x`, `b`, `c` in both cases.  A caller who deletes or inserts
must use the returned slice. -/
theorem C32_violated_delete_insert :
    seen (heapApply (fun _ => 0) (onA .delete) 100 () (threeHeap 0) ⟨0, 3⟩) ⟨0, 3⟩ =
      some ([b!"b", b!"c", b!"c"], [b!"b", b!"c"]) ∧
    seen (heapApply (fun _ => 0) (onA (.insertAfter (.plugin (.mk Pos.zero b!"x" [] [] [])))) 100 () (threeHeap 1) ⟨0, 3⟩) ⟨0, 3⟩ =
      some ([b!"a", b!"x", b!"b"], [b!"a", b!"x", b!"b", b!"c"]) ∧
    seen (heapApply (fun _ => 0) (onA (.insertAfter (.plugin (.mk Pos.zero b!"x" [] [] [])))) 100 () (threeHeap 0) ⟨0, 3⟩) ⟨0, 3⟩ =
      some ([b!"a", b!"b", b!"c"], [b!"a", b!"x", b!"b", b!"c"]) := by
  refine ⟨?_, ?_, ?_⟩ <;> decide +kernel

end Verif.Props
