import Verif.Model.Heap
/-
When does a heap hold a tree?  The footprint is the list of the arrays of the tree.
-/
namespace Verif.Spec
open Verif

mutual
/-- The block element `x` on the heap `h` is the tree, with the arrays `fp`. -/
def HoldsOne (h : Heap) : BOP → HBOP → List Nat → Prop
  | .nil, x, fp => x = .nil ∧ fp = []
  | .plugin p, x, fp => x = .plugin p ∧ fp = []
  | .pluginPtr p, x, fp => x = .pluginPtr p ∧ fp = []
  | .branch st cond block cm ft elifs (.mk est eblock ecm eft), x, fp =>
    ∃ s1 s2 s3 f1 f2 f3, x = .branch st cond cm ft est ecm eft s1 s2 s3 ∧
      fp = s1.arr :: f1 ++ (s2.arr :: f2 ++ (s3.arr :: f3)) ∧
      s1.len ≤ (h.blocks s1.arr).length ∧ HoldsList h block (h.read s1) f1 ∧
      s2.len ≤ (h.elifs s2.arr).length ∧ HoldsElifs h elifs ((h.elifs s2.arr).take s2.len) f2 ∧
      s3.len ≤ (h.blocks s3.arr).length ∧ HoldsList h eblock (h.read s3) f3
/-- The same for a list of block elements. -/
def HoldsList (h : Heap) : List BOP → List HBOP → List Nat → Prop
  | [], xs, fp => xs = [] ∧ fp = []
  | b :: bs, xs, fp => ∃ x ys f1 f2, xs = x :: ys ∧ fp = f1 ++ f2 ∧ HoldsOne h b x f1 ∧ HoldsList h bs ys f2
/-- The same for a list of else-if blocks. -/
def HoldsElifs (h : Heap) : List Elif → List HElif → List Nat → Prop
  | [], xs, fp => xs = [] ∧ fp = []
  | .mk st cond block cm ft :: es, xs, fp =>
    ∃ s ys f1 f2, xs = ⟨st, cond, cm, ft, s⟩ :: ys ∧ fp = (s.arr :: f1) ++ f2 ∧
      s.len ≤ (h.blocks s.arr).length ∧ HoldsList h block (h.read s) f1 ∧ HoldsElifs h es ys f2
end

/-- The slice `s` holds the block `bs`, with the arrays `fp`. -/
def Holds (h : Heap) (bs : List BOP) (s : Slice) (fp : List Nat) : Prop :=
  ∃ f, fp = s.arr :: f ∧ s.len ≤ (h.blocks s.arr).length ∧ HoldsList h bs (h.read s) f

/-- The slice `s` holds the block `bs`, and no two slices of the tree share an array. -/
def Owns (h : Heap) (bs : List BOP) (s : Slice) (fp : List Nat) : Prop :=
  Holds h bs s fp ∧ fp.Nodup ∧ ∀ a ∈ fp, a < h.next

/-- The callback only replaces. -/
def OnlyReplaces {σ : Type} (g : HCallback σ) : Prop :=
  ∀ s p i s' ops, g s p i = some (s', ops) → ∀ op ∈ ops, ∃ l, op = .replace l

end Verif.Spec
