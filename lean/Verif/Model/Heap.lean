import Verif.Model.AstUtil
/-
`ApplyPlugins` with Go's slices: backing arrays on a heap, `append` that writes in place when the
capacity suffices and copies otherwise, assignments through an index that are visible to everybody
who holds a slice of the same array.

Simplifications: all slices start at index 0 of their array (those of the parser do, and `apply.go`
creates no others that outlive a statement); a callback sees the current plugin and the index
(`Cursor.Plugin`, `Cursor.Index`), not `Cursor.Parent`, and puts plugins, pointers to plugins or nil
into the tree, not branches.
-/
namespace Verif

/-- A slice starting at the first element of the array `arr`. -/
structure Slice where
  arr : Nat
  len : Nat
deriving DecidableEq, Repr

/-- `ast.BranchOrPlugin` on the heap (ast/ast.go:237-241, 669-673): the blocks of a branch are slices. -/
inductive HBOP
  | nil
  | plugin (p : Plugin)
  | pluginPtr (p : Plugin)
  | branch (start : Pos) (cond : Condition) (comment footer : CommentBlock) (est : Pos) (ecm eft : CommentBlock)
      (ifBlock elifs elseBlock : Slice)

/-- `ast.ElseIfBlock` on the heap (ast/ast.go:746-752). -/
structure HElif where
  start : Pos
  cond : Condition
  comment : CommentBlock
  footer : CommentBlock
  block : Slice

/-- The heap: arrays of block elements and arrays of else-if blocks (the length of the list is the
length of the array), and the first unused array number. -/
structure Heap where
  blocks : Nat → List HBOP
  elifs : Nat → List HElif
  next : Nat

/-- The elements of a slice of block elements. -/
def Heap.read (h : Heap) (s : Slice) : List HBOP := (h.blocks s.arr).take s.len

/-- Overwrite an array of block elements. -/
def Heap.setBlock (h : Heap) (a : Nat) (l : List HBOP) : Heap :=
  { h with blocks := fun x => if x = a then l else h.blocks x }

/-- Overwrite an array of else-if blocks. -/
def Heap.setElif (h : Heap) (a : Nat) (l : List HElif) : Heap :=
  { h with elifs := fun x => if x = a then l else h.elifs x }

/-- Go's `append(s[:n], src...)` for a slice `s` with array number `a`: in place if the capacity
suffices; else a new array, with some spare capacity `grow`, as chosen by the runtime. -/
def Heap.append (grow : Nat → Nat) (h : Heap) (a n : Nat) (src : List HBOP) : Heap × Slice :=
  let arr := h.blocks a
  let m := n + src.length
  if m ≤ arr.length then (h.setBlock a (arr.take n ++ src ++ arr.drop m), ⟨a, m⟩)
  else
    ({ h.setBlock h.next (arr.take n ++ src ++ List.replicate (grow m) .nil) with next := h.next + 1 }, ⟨h.next, m⟩)

/-- What a callback can put into the tree. -/
inductive Leaf
  | nil
  | plugin (p : Plugin)
  | pluginPtr (p : Plugin)

/-- As a block element on the heap. -/
def Leaf.cell : Leaf → HBOP
  | .nil => .nil
  | .plugin p => .plugin p
  | .pluginPtr p => .pluginPtr p

/-- As a block element in a tree. -/
def Leaf.bop : Leaf → BOP
  | .nil => .nil
  | .plugin p => .plugin p
  | .pluginPtr p => .pluginPtr p

/-- The operations of a cursor. -/
inductive HOp
  | delete
  | replace (p : Leaf)
  | insertBefore (p : Leaf)
  | insertAfter (p : Leaf)

/-- The same operation on trees. -/
def HOp.cur : HOp → CurOp
  | .delete => .delete
  | .replace p => .replace p.bop
  | .insertBefore p => .insertBefore p.bop
  | .insertAfter p => .insertAfter p.bop

/-- `Cursor` (ast/astutil/apply.go:71-74). -/
structure HCursor where
  parent : Slice
  index : Int
  step : Int

/-- `Cursor.Plugin` (ast/astutil/apply.go:77-84). -/
def HCursor.plugin (h : Heap) (c : HCursor) : Option Plugin :=
  match (h.read c.parent)[c.index.toNat]? with
  | some (.plugin p) => some p
  | _ => none

/-- `Delete`, `Replace`, `InsertBefore`, `InsertAfter` (ast/astutil/apply.go:97-139); `none` is a
run-time panic. -/
def HCursor.run (grow : Nat → Nat) (h : Heap) (c : HCursor) (op : HOp) : Option (Heap × HCursor) :=
  if c.index < 0 then none
  else
    let i := c.index.toNat
    let s := c.parent
    match op with
    | .delete =>
      if i + 1 ≤ s.len then
        let r := h.append grow s.arr i ((h.read s).drop (i + 1))
        some (r.1, { c with parent := r.2, step := c.step - 1 })
      else none
    | .replace p =>
      if i < s.len then some (h.setBlock s.arr ((h.blocks s.arr).set i p.cell), c) else none
    | .insertBefore p =>
      if i ≤ s.len then
        let r := h.append grow s.arr i (p.cell :: (h.read s).drop i)
        some (r.1, { c with parent := r.2, step := c.step + 1 })
      else none
    | .insertAfter p =>
      if i + 1 ≤ s.len then
        let r := h.append grow s.arr (i + 1) (p.cell :: (h.read s).drop (i + 1))
        some (r.1, { c with parent := r.2, step := c.step + 1 })
      else none

/-- A sequence of operations. -/
def HCursor.runAll (grow : Nat → Nat) (h : Heap) (c : HCursor) : List HOp → Option (Heap × HCursor)
  | [] => some (h, c)
  | op :: ops => match c.run grow h op with
    | some (h', c') => c'.runAll grow h' ops
    | none => none

/-- A callback: it sees the current plugin and its index. -/
abbrev HCallback (σ : Type) := σ → Option Plugin → Int → Option (σ × List HOp)

/-- The same callback on trees. -/
def HCallback.cur {σ : Type} (g : HCallback σ) : Callback σ := fun s c =>
  match g s c.plugin c.index with
  | some (s', ops) => some (s', ops.map HOp.cur)
  | none => none

/-- Outcome of a traversal: the state of the callback, the heap, the result. -/
inductive HRes (σ : Type)
  | done (s : σ) (h : Heap) (r : Slice)
  | panic
  | timeout

mutual
/-- `ApplyPlugins` (ast/astutil/apply.go:16-58), the loop, on the heap. -/
def heapLoop {σ : Type} (grow : Nat → Nat) (g : HCallback σ) : Nat → σ → Heap → HCursor → HRes σ
  | 0, _, _, _ => .timeout
  | n + 1, s, h, c =>
    if c.index ≥ c.parent.len then .done s h c.parent
    else if c.index < 0 then .panic
    else
      let c : HCursor := { c with step := 1 }
      let i : Nat := c.index.toNat
      match (h.read c.parent)[i]? with
      | some (.branch st cond cm ft est ecm eft ib es eb) =>
        match heapLoop grow g n s h ⟨ib, 0, 1⟩ with
        | .done s1 h1 ib' =>
          match heapElifs grow g n s1 h1 es 0 with
          | .done s2 h2 es' =>
            match heapLoop grow g n s2 h2 ⟨eb, 0, 1⟩ with
            | .done s3 h3 eb' =>
              -- c.parent[c.iter.index] = block
              let h4 := h3.setBlock c.parent.arr
                ((h3.blocks c.parent.arr).set i (.branch st cond cm ft est ecm eft ib' es' eb'))
              heapLoop grow g n s3 h4 { c with index := c.index + 1 }
            | .panic => .panic
            | .timeout => .timeout
          | .panic => .panic
          | .timeout => .timeout
        | .panic => .panic
        | .timeout => .timeout
      | some (.pluginPtr _) => .panic
      | _ =>
        match g s (c.plugin h) c.index with
        | none => .panic
        | some (s', ops) =>
          match c.runAll grow h ops with
          | none => .panic
          | some (h', c') => heapLoop grow g n s' h' { c' with index := c'.index + c'.step }
/-- The loop over else-if blocks (ast/astutil/apply.go:36-38): `block.ElseIfBlock[i].Block` is assigned
in place; the slice itself stays.  `k` is the index. -/
def heapElifs {σ : Type} (grow : Nat → Nat) (g : HCallback σ) : Nat → σ → Heap → Slice → Nat → HRes σ
  | 0, _, _, _, _ => .timeout
  | n + 1, s, h, es, k =>
    if k ≥ es.len then .done s h es
    else
      match (h.elifs es.arr)[k]? with
      | none => .panic
      | some e =>
        match heapLoop grow g n s h ⟨e.block, 0, 1⟩ with
        | .done s' h' b' =>
          match (h'.elifs es.arr)[k]? with
          | none => .panic
          | some e' =>
            heapElifs grow g n s' (h'.setElif es.arr ((h'.elifs es.arr).set k { e' with block := b' })) es (k + 1)
        | .panic => .panic
        | .timeout => .timeout
end

/-- `ApplyPlugins` (ast/astutil/apply.go:16-58) on the heap, with fuel. -/
def heapApply {σ : Type} (grow : Nat → Nat) (g : HCallback σ) (fuel : Nat) (s : σ) (h : Heap) (root : Slice) : HRes σ :=
  heapLoop grow g fuel s h ⟨root, 0, 1⟩

end Verif
