import Verif.Spec.Heap
/-
`ApplyPlugins` on the heap computes what it computes on trees.
-/
namespace Verif
open Spec

/-- The heaps agree on the given arrays. -/
def Same (h h' : Heap) (fp : List Nat) : Prop := ∀ a ∈ fp, h'.blocks a = h.blocks a ∧ h'.elifs a = h.elifs a

theorem Same.mono {h h' : Heap} {f g : List Nat} (hs : Same h h' f) (hg : ∀ a ∈ g, a ∈ f) : Same h h' g :=
  fun a ha => hs a (hg a ha)

theorem Same.read {h h' : Heap} {fp : List Nat} (hs : Same h h' fp) {s : Slice} (hm : s.arr ∈ fp) : h'.read s = h.read s := by
  unfold Heap.read; rw [(hs _ hm).1]

mutual
theorem frameOne {h h' : Heap} : ∀ (b : BOP) {x fp}, Same h h' fp → HoldsOne h b x fp → HoldsOne h' b x fp
  | .nil, _, _, _, hh => by rw [HoldsOne] at hh ⊢; exact hh
  | .plugin p, _, _, _, hh => by rw [HoldsOne] at hh ⊢; exact hh
  | .pluginPtr p, _, _, _, hh => by rw [HoldsOne] at hh ⊢; exact hh
  | .branch st cond block cm ft elifs (.mk est eblock ecm eft), x, fp, hs, hh => by
    rw [HoldsOne] at hh ⊢
    obtain ⟨s1, s2, s3, f1, f2, f3, hx, rfl, h1, h2, h3, h4, h5, h6⟩ := hh
    refine ⟨s1, s2, s3, f1, f2, f3, hx, rfl, ?_, ?_, ?_, ?_, ?_, ?_⟩
    · rw [(hs s1.arr (by simp)).1]; exact h1
    · rw [hs.read (by simp)]; exact frameList block (hs.mono (by intro a ha; simp [ha])) h2
    · rw [(hs s2.arr (by simp)).2]; exact h3
    · rw [(hs s2.arr (by simp)).2]; exact frameElifs elifs (hs.mono (by intro a ha; simp [ha])) h4
    · rw [(hs s3.arr (by simp)).1]; exact h5
    · rw [hs.read (by simp)]; exact frameList eblock (hs.mono (by intro a ha; simp [ha])) h6
theorem frameList {h h' : Heap} : ∀ (bs : List BOP) {xs fp}, Same h h' fp → HoldsList h bs xs fp → HoldsList h' bs xs fp
  | [], _, _, _, hh => by rw [HoldsList] at hh ⊢; exact hh
  | b :: bs, xs, fp, hs, hh => by
    rw [HoldsList] at hh ⊢
    obtain ⟨x, ys, f1, f2, hx, rfl, h1, h2⟩ := hh
    exact ⟨x, ys, f1, f2, hx, rfl, frameOne b (hs.mono (by intro a ha; simp [ha])) h1,
      frameList bs (hs.mono (by intro a ha; simp [ha])) h2⟩
theorem frameElifs {h h' : Heap} : ∀ (es : List Elif) {xs fp}, Same h h' fp → HoldsElifs h es xs fp → HoldsElifs h' es xs fp
  | [], _, _, _, hh => by rw [HoldsElifs] at hh ⊢; exact hh
  | .mk st cond block cm ft :: es, xs, fp, hs, hh => by
    rw [HoldsElifs] at hh ⊢
    obtain ⟨s, ys, f1, f2, hx, rfl, h1, h2, h3⟩ := hh
    refine ⟨s, ys, f1, f2, hx, rfl, ?_, ?_, frameElifs es (hs.mono (by intro a ha; simp [ha])) h3⟩
    · rw [(hs s.arr (by simp)).1]; exact h1
    · rw [hs.read (by simp)]; exact frameList block (hs.mono (by intro a ha; simp [ha])) h2
end

theorem frame {h h' : Heap} {bs : List BOP} {s : Slice} {fp : List Nat} (hs : Same h h' fp) (hh : Holds h bs s fp) :
    Holds h' bs s fp := by
  obtain ⟨f, rfl, h1, h2⟩ := hh
  refine ⟨f, rfl, ?_, ?_⟩
  · rw [(hs s.arr (by simp)).1]; exact h1
  · rw [hs.read (by simp)]; exact frameList bs (hs.mono (by intro a ha; simp [ha])) h2

theorem holdsList_length {h : Heap} : ∀ {bs : List BOP} {xs fp}, HoldsList h bs xs fp → xs.length = bs.length
  | [], _, _, hh => by rw [HoldsList] at hh; simp [hh.1]
  | b :: bs, _, _, hh => by
    rw [HoldsList] at hh
    obtain ⟨x, ys, f1, f2, rfl, -, -, h2⟩ := hh
    simp [holdsList_length h2]

theorem holdsElifs_length {h : Heap} : ∀ {bs : List Elif} {xs fp}, HoldsElifs h bs xs fp → xs.length = bs.length
  | [], _, _, hh => by rw [HoldsElifs] at hh; simp [hh.1]
  | .mk _ _ _ _ _ :: bs, _, _, hh => by
    rw [HoldsElifs] at hh
    obtain ⟨s, ys, f1, f2, rfl, -, -, -, h2⟩ := hh
    simp [holdsElifs_length h2]

theorem holdsList_append {h : Heap} : ∀ {as bs : List BOP} {xs ys f g}, HoldsList h as xs f → HoldsList h bs ys g →
    HoldsList h (as ++ bs) (xs ++ ys) (f ++ g)
  | [], bs, _, _, _, _, ha, hb => by rw [HoldsList] at ha; simpa [ha.1, ha.2] using hb
  | a :: as, bs, _, _, _, _, ha, hb => by
    rw [HoldsList] at ha
    obtain ⟨x, zs, f1, f2, rfl, rfl, h1, h2⟩ := ha
    rw [List.cons_append, HoldsList]
    exact ⟨x, _, f1, _, rfl, by simp, h1, holdsList_append h2 hb⟩

theorem holdsList_split {h : Heap} : ∀ {as bs : List BOP} {xs f}, HoldsList h (as ++ bs) xs f →
    ∃ x1 x2 f1 f2, xs = x1 ++ x2 ∧ f = f1 ++ f2 ∧ HoldsList h as x1 f1 ∧ HoldsList h bs x2 f2
  | [], bs, xs, f, hh => ⟨[], xs, [], f, rfl, rfl, by rw [HoldsList]; exact ⟨rfl, rfl⟩, hh⟩
  | a :: as, bs, xs, f, hh => by
    rw [List.cons_append, HoldsList] at hh
    obtain ⟨x, ys, f1, f2, rfl, rfl, h1, h2⟩ := hh
    obtain ⟨x1, x2, g1, g2, rfl, rfl, h3, h4⟩ := holdsList_split h2
    exact ⟨x :: x1, x2, f1 ++ g1, g2, rfl, by simp, by rw [HoldsList]; exact ⟨x, x1, f1, g1, rfl, rfl, h1, h3⟩, h4⟩

theorem holds_leaf (h : Heap) (l : Leaf) : HoldsOne h l.bop l.cell [] := by
  cases l <;> · simp only [Leaf.bop, Leaf.cell]; rw [HoldsOne]; exact ⟨rfl, rfl⟩

/-- What a step may do to the heap, given the arrays it owns. -/
structure Evolves (h h' : Heap) (fp fp' : List Nat) : Prop where
  next : h.next ≤ h'.next
  nodup : fp'.Nodup
  bound : ∀ a ∈ fp', a < h'.next
  from_ : ∀ a ∈ fp', a ∈ fp ∨ h.next ≤ a
  keep : ∀ a, a < h.next → a ∉ fp → h'.blocks a = h.blocks a ∧ h'.elifs a = h.elifs a

theorem Evolves.refl {h : Heap} {fp : List Nat} (hn : fp.Nodup) (hb : ∀ a ∈ fp, a < h.next) : Evolves h h fp fp :=
  ⟨Nat.le_refl _, hn, hb, fun _ h => .inl h, fun _ _ _ => ⟨rfl, rfl⟩⟩

theorem Evolves.trans {h1 h2 h3 : Heap} {f1 f2 f3 : List Nat} (a : Evolves h1 h2 f1 f2) (b : Evolves h2 h3 f2 f3) :
    Evolves h1 h3 f1 f3 := by
  refine ⟨Nat.le_trans a.next b.next, b.nodup, b.bound, ?_, ?_⟩
  · intro x hx
    rcases b.from_ x hx with h | h
    · exact a.from_ x h
    · exact .inr (Nat.le_trans a.next h)
  · intro x hx hn
    have h1 := a.keep x hx hn
    have h2 := b.keep x (Nat.lt_of_lt_of_le hx a.next) (by
      intro hm
      rcases a.from_ x hm with h | h
      · exact hn h
      · omega)
    exact ⟨h2.1.trans h1.1, h2.2.trans h1.2⟩

/-- A step on a part of the arrays. -/
theorem Evolves.part {h h' : Heap} {p f q f' : List Nat} (e : Evolves h h' f f') (hn : (p ++ f ++ q).Nodup)
    (hb : ∀ a ∈ p ++ f ++ q, a < h.next) :
    Evolves h h' (p ++ f ++ q) (p ++ f' ++ q) ∧ Same h h' p ∧ Same h h' q := by
  have hp : ∀ a ∈ p, a < h.next := fun a ha => hb a (by simp [ha])
  have hq : ∀ a ∈ q, a < h.next := fun a ha => hb a (by simp [ha])
  rw [List.nodup_append, List.nodup_append] at hn
  obtain ⟨⟨n1, n2, n3⟩, n4, n5⟩ := hn
  have dp : ∀ a ∈ p, a ∉ f := fun a ha hf => n3 a ha a hf rfl
  have dq : ∀ a ∈ q, a ∉ f := fun a ha hf => n5 a (by simp [hf]) a ha rfl
  refine ⟨⟨e.next, ?_, ?_, ?_, ?_⟩, fun a ha => e.keep a (hp a ha) (dp a ha), fun a ha => e.keep a (hq a ha) (dq a ha)⟩
  · rw [List.nodup_append, List.nodup_append]
    refine ⟨⟨n1, e.nodup, ?_⟩, n4, ?_⟩
    · rintro a ha b hb' rfl
      rcases e.from_ a hb' with h | h
      · exact dp a ha h
      · have := hp a ha; omega
    · rintro a ha b hb' rfl
      rcases List.mem_append.1 ha with ha | ha
      · exact n5 a (by simp [ha]) a hb' rfl
      · rcases e.from_ a ha with h | h
        · exact dq a hb' h
        · have := hq a hb'; omega
  · intro a ha
    simp only [List.mem_append] at ha
    rcases ha with (ha | ha) | ha
    · exact Nat.lt_of_lt_of_le (hp a ha) e.next
    · exact e.bound a ha
    · exact Nat.lt_of_lt_of_le (hq a ha) e.next
  · intro a ha
    simp only [List.mem_append] at ha ⊢
    rcases ha with (ha | ha) | ha
    · exact .inl (.inl (.inl ha))
    · rcases e.from_ a ha with h | h
      · exact .inl (.inl (.inr h))
      · exact .inr h
    · exact .inl (.inr ha)
  · intro a ha hnot
    exact e.keep a ha (fun h => hnot (by simp [h]))

/-! ### Operations -/

theorem heap_read_length {h : Heap} {s : Slice} (hl : s.len ≤ (h.blocks s.arr).length) : (h.read s).length = s.len := by
  simp [Heap.read, hl]

/-- Writing an array of the tree, when the rest of the tree is elsewhere. -/
theorem evolves_set {h : Heap} {a : Nat} {f : List Nat} (l : List HBOP) (hn : (a :: f).Nodup)
    (hb : ∀ x ∈ a :: f, x < h.next) : Evolves h (h.setBlock a l) (a :: f) (a :: f) ∧ Same h (h.setBlock a l) f := by
  refine ⟨⟨Nat.le_refl _, hn, hb, fun _ h => .inl h, ?_⟩, ?_⟩
  · intro x hx hm
    simp only [List.mem_cons, not_or] at hm
    simp [Heap.setBlock, hm.1]
  · intro x hx
    have : x ≠ a := by rintro rfl; exact (List.nodup_cons.1 hn).1 hx
    simp [Heap.setBlock, this]

/-- `append` to a prefix of a slice. -/
theorem append_ok (grow : Nat → Nat) {h : Heap} {s : Slice} {f : List Nat} (i : Nat) (src : List HBOP) {bs : List BOP}
    {f' : List Nat} (hn : (s.arr :: f).Nodup) (hb : ∀ x ∈ s.arr :: f, x < h.next) (hi : i ≤ s.len)
    (hl : s.len ≤ (h.blocks s.arr).length)
    (hsub : ∀ a ∈ f', a ∈ f) (hn' : f'.Nodup)
    (hh : HoldsList h bs ((h.read s).take i ++ src) f') :
    ∃ fp', Holds (h.append grow s.arr i src).1 bs (h.append grow s.arr i src).2 fp' ∧
      Evolves h (h.append grow s.arr i src).1 (s.arr :: f) fp' := by
  have htake : (h.read s).take i = (h.blocks s.arr).take i := by
    simp [Heap.read, List.take_take, Nat.min_eq_left hi]
  have hlen : ((h.blocks s.arr).take i).length = i := by simp; omega
  have hnf : s.arr ∉ f := (List.nodup_cons.1 hn).1
  unfold Heap.append
  simp only
  split
  · rename_i hc
    obtain ⟨e1, e2⟩ := evolves_set (h := h) (a := s.arr) (f := f)
      ((h.blocks s.arr).take i ++ src ++ (h.blocks s.arr).drop (i + src.length)) hn hb
    refine ⟨s.arr :: f', ⟨f', rfl, ?_, ?_⟩, ?_⟩
    · simp [Heap.setBlock]; omega
    · have hr : (h.setBlock s.arr ((h.blocks s.arr).take i ++ src ++ (h.blocks s.arr).drop (i + src.length))).read
          ⟨s.arr, i + src.length⟩ = (h.read s).take i ++ src := by
        rw [htake]
        simp only [Heap.read, Heap.setBlock, if_true]
        rw [List.take_append_of_le_length (by simp only [List.length_append, hlen]; omega)]
        exact List.take_of_length_le (by simp only [List.length_append, hlen]; omega)
      rw [hr]
      exact frameList bs (e2.mono hsub) hh
    · refine ⟨Nat.le_refl _, List.nodup_cons.2 ⟨fun hm => hnf (hsub _ hm), hn'⟩, ?_, ?_, e1.keep⟩
      · intro a ha
        rcases List.mem_cons.1 ha with rfl | ha
        · exact hb _ (by simp)
        · exact hb _ (by simp [hsub _ ha])
      · intro a ha
        rcases List.mem_cons.1 ha with rfl | ha
        · exact .inl (by simp)
        · exact .inl (by simp [hsub _ ha])
  · rename_i hc
    have hne : ∀ x, x < h.next → x ≠ h.next := fun x hx => by omega
    refine ⟨h.next :: f', ⟨f', rfl, ?_, ?_⟩, ?_⟩
    · simp [Heap.setBlock]; omega
    · have hr : ({ h.setBlock h.next ((h.blocks s.arr).take i ++ src ++ List.replicate (grow (i + src.length)) .nil) with
          next := h.next + 1 } : Heap).read ⟨h.next, i + src.length⟩ = (h.read s).take i ++ src := by
        rw [htake]
        simp only [Heap.read, Heap.setBlock, if_true]
        rw [List.take_append_of_le_length (by simp only [List.length_append, hlen]; omega)]
        exact List.take_of_length_le (by simp only [List.length_append, hlen]; omega)
      rw [hr]
      refine frameList bs ?_ hh
      intro x hx
      have := hne x (hb x (by simp [hsub _ hx]))
      simp [Heap.setBlock, this]
    · refine ⟨Nat.le_succ _, List.nodup_cons.2 ⟨fun hm => ?_, hn'⟩, ?_, ?_, ?_⟩
      · have := hb _ (List.mem_cons_of_mem _ (hsub _ hm)); omega
      · intro a ha
        rcases List.mem_cons.1 ha with rfl | ha
        · exact Nat.lt_succ_self _
        · exact Nat.lt_succ_of_lt (hb _ (by simp [hsub _ ha]))
      · intro a ha
        rcases List.mem_cons.1 ha with rfl | ha
        · exact .inr (Nat.le_refl _)
        · exact .inl (by simp [hsub _ ha])
      · intro a ha hm
        have := hne a ha
        simp [Heap.setBlock, this]

theorem Evolves.perm {h h' : Heap} {f f' g g' : List Nat} (e : Evolves h h' f f') (p : f.Perm g) (p' : f'.Perm g') :
    Evolves h h' g g' :=
  ⟨e.next, p'.nodup_iff.1 e.nodup, fun a ha => e.bound a (p'.mem_iff.2 ha),
    fun a ha => (e.from_ a (p'.mem_iff.2 ha)).imp p.mem_iff.1 id, fun a ha hn => e.keep a ha (fun h => hn (p.mem_iff.1 h))⟩

/-- The element at an index. -/
theorem holdsList_at {h : Heap} {bs : List BOP} {xs : List HBOP} {f : List Nat} {i : Nat} (hh : HoldsList h bs xs f)
    (hi : i < bs.length) :
    ∃ b x f1 f2 f3, bs[i]? = some b ∧ xs[i]? = some x ∧ f = f1 ++ (f2 ++ f3) ∧ bs = bs.take i ++ b :: bs.drop (i + 1) ∧
      xs = xs.take i ++ x :: xs.drop (i + 1) ∧
      HoldsList h (bs.take i) (xs.take i) f1 ∧ HoldsOne h b x f2 ∧ HoldsList h (bs.drop (i + 1)) (xs.drop (i + 1)) f3 := by
  have hb : bs = bs.take i ++ bs[i] :: bs.drop (i + 1) := by
    rw [List.getElem_cons_drop, List.take_append_drop]
  have hlen := holdsList_length hh
  have hi' : i < xs.length := by omega
  have hx : xs = xs.take i ++ xs[i] :: xs.drop (i + 1) := by
    rw [List.getElem_cons_drop, List.take_append_drop]
  rw [hb] at hh
  obtain ⟨x1, x2, f1, f2, e1, rfl, h1, h2⟩ := holdsList_split hh
  have hl1 := holdsList_length h1
  rw [HoldsList] at h2
  obtain ⟨x, ys, g1, g2, rfl, rfl, h3, h4⟩ := h2
  have hle : x1.length = i := by rw [hl1]; simp; omega
  have e2 : xs.take i = x1 := by rw [e1, ← hle]; simp
  have e3 : xs.drop (i + 1) = ys := by rw [e1, ← hle, List.drop_append]; simp
  have e4 : xs[i] = x := by
    have : xs[i]? = some x := by rw [e1, ← hle]; simp
    rw [List.getElem?_eq_getElem hi'] at this
    exact Option.some.inj this
  exact ⟨bs[i], xs[i], f1, g1, g2, by simp [hi], by simp [hi'], rfl, hb, hx, by rw [e2]; exact h1, by rw [e4]; exact h3,
    by rw [e3]; exact h4⟩

theorem holdsList_take {h : Heap} {bs : List BOP} {xs : List HBOP} {f : List Nat} {i : Nat} (hh : HoldsList h bs xs f)
    (hi : i ≤ bs.length) :
    ∃ f1 f2, f = f1 ++ f2 ∧ HoldsList h (bs.take i) (xs.take i) f1 ∧ HoldsList h (bs.drop i) (xs.drop i) f2 := by
  rw [← List.take_append_drop i bs] at hh
  obtain ⟨x1, x2, f1, f2, e1, rfl, h1, h2⟩ := holdsList_split hh
  have hl1 := holdsList_length h1
  have hle : x1.length = i := by rw [hl1]; simp; omega
  exact ⟨f1, f2, rfl, by rw [e1, ← hle]; simpa [hle] using h1, by rw [e1, ← hle]; simpa [hle] using h2⟩

/-- How the result of an operation on the heap corresponds to that on the tree. -/
def OpRel (h : Heap) (fp : List Nat) (c : HCursor) (rep : Prop) : Option (Heap × HCursor) → Option Cursor → Prop
  | some (h', c'), some lc => c'.index = lc.index ∧ c'.step = lc.step ∧
      (∃ fp', Holds h' lc.parent c'.parent fp' ∧ Evolves h h' fp fp') ∧ (rep → c'.parent = c.parent)
  | none, none => True
  | _, _ => False

theorem run_ok (grow : Nat → Nat) {h : Heap} {c : HCursor} {bs : List BOP} {fp : List Nat} (op : HOp)
    (ho : Owns h bs c.parent fp) :
    OpRel h fp c (∃ l, op = .replace l) (c.run grow h op) ((⟨bs, c.index, c.step⟩ : Cursor).run op.cur) := by
  obtain ⟨⟨f, rfl, hl, hh⟩, hn, hb⟩ := ho
  have hlen : c.parent.len = bs.length := by rw [← holdsList_length hh, heap_read_length hl]
  have hnf := List.nodup_cons.1 hn
  unfold HCursor.run Cursor.run
  simp only
  split
  · exact trivial
  · cases op with
    | delete =>
      simp only [HOp.cur]
      rw [hlen]
      split
      · rename_i hi
        obtain ⟨b, x, f1, f2, f3, -, -, rfl, -, -, h1, h2, h3⟩ := holdsList_at hh (i := c.index.toNat) (by omega)
        obtain ⟨fp', h4, h5⟩ := append_ok grow c.index.toNat ((h.read c.parent).drop (c.index.toNat + 1)) (f' := f1 ++ f3)
          hn hb (by omega) hl (by simp; grind) (by grind) (holdsList_append h1 h3)
        exact ⟨rfl, rfl, ⟨fp', h4, h5⟩, by rintro ⟨l, hl⟩; cases hl⟩
      · trivial
    | replace p =>
      simp only [HOp.cur]
      rw [hlen]
      split
      · rename_i hi
        obtain ⟨b, x, f1, f2, f3, -, -, rfl, hbs, hxs, h1, h2, h3⟩ := holdsList_at hh (i := c.index.toNat) (by omega)
        have hhh := holdsList_append h1 (show HoldsList h (p.bop :: bs.drop (c.index.toNat + 1))
          (p.cell :: (h.read c.parent).drop (c.index.toNat + 1)) ([] ++ f3) from by
            rw [HoldsList]; exact ⟨_, _, [], f3, rfl, rfl, holds_leaf h p, h3⟩)
        obtain ⟨e1, e2⟩ := evolves_set (h := h) (a := c.parent.arr) ((h.blocks c.parent.arr).set c.index.toNat p.cell) hn hb
        have hset : bs.set c.index.toNat p.bop = bs.take c.index.toNat ++ p.bop :: bs.drop (c.index.toNat + 1) := by
          rw [List.set_eq_take_append_cons_drop, if_pos hi]
        have hr : (h.setBlock c.parent.arr ((h.blocks c.parent.arr).set c.index.toNat p.cell)).read c.parent =
            (h.read c.parent).take c.index.toNat ++ p.cell :: (h.read c.parent).drop (c.index.toNat + 1) := by
          have : c.index.toNat < (h.read c.parent).length := by rw [heap_read_length hl]; omega
          have h6 : (h.read c.parent).set c.index.toNat p.cell =
            (h.read c.parent).take c.index.toNat ++ p.cell :: (h.read c.parent).drop (c.index.toNat + 1) := by
            rw [List.set_eq_take_append_cons_drop, if_pos this]
          rw [← h6]
          simp only [Heap.read, Heap.setBlock, if_true]
          rw [List.take_set]
        refine ⟨rfl, rfl, ⟨c.parent.arr :: (f1 ++ ([] ++ f3)), ⟨_, rfl, ?_, ?_⟩, ?_⟩, fun _ => rfl⟩
        · simp [Heap.setBlock]; omega
        · rw [hr, hset]
          exact frameList _ (e2.mono (by simp; grind)) hhh
        · refine ⟨e1.next, by grind, ?_, ?_, e1.keep⟩
          · intro a ha; exact hb a (by simp at ha ⊢; grind)
          · intro a ha; exact .inl (by simp at ha ⊢; grind)
      · trivial
    | insertBefore p =>
      simp only [HOp.cur]
      rw [hlen]
      split
      · rename_i hi
        obtain ⟨f1, f2, rfl, h1, h2⟩ := holdsList_take hh (i := c.index.toNat) hi
        have hhh := holdsList_append h1 (show HoldsList h (p.bop :: bs.drop c.index.toNat)
          (p.cell :: (h.read c.parent).drop c.index.toNat) ([] ++ f2) from by
            rw [HoldsList]; exact ⟨_, _, [], f2, rfl, rfl, holds_leaf h p, h2⟩)
        obtain ⟨fp', h4, h5⟩ := append_ok grow c.index.toNat (p.cell :: (h.read c.parent).drop c.index.toNat)
          hn hb (by omega) hl (by simp) (by simpa using hnf.2) hhh
        exact ⟨rfl, rfl, ⟨fp', h4, h5⟩, by rintro ⟨l, hl⟩; cases hl⟩
      · trivial
    | insertAfter p =>
      simp only [HOp.cur]
      rw [hlen]
      split
      · rename_i hi
        obtain ⟨f1, f2, rfl, h1, h2⟩ := holdsList_take hh (i := c.index.toNat + 1) hi
        have hhh := holdsList_append h1 (show HoldsList h (p.bop :: bs.drop (c.index.toNat + 1))
          (p.cell :: (h.read c.parent).drop (c.index.toNat + 1)) ([] ++ f2) from by
            rw [HoldsList]; exact ⟨_, _, [], f2, rfl, rfl, holds_leaf h p, h2⟩)
        obtain ⟨fp', h4, h5⟩ := append_ok grow (c.index.toNat + 1) (p.cell :: (h.read c.parent).drop (c.index.toNat + 1))
          hn hb (by omega) hl (by simp) (by simpa using hnf.2) hhh
        exact ⟨rfl, rfl, ⟨fp', h4, h5⟩, by rintro ⟨l, hl⟩; cases hl⟩
      · trivial

theorem runAll_ok (grow : Nat → Nat) : ∀ (ops : List HOp) {h : Heap} {c : HCursor} {bs : List BOP} {fp : List Nat},
    Owns h bs c.parent fp →
    OpRel h fp c (∀ op ∈ ops, ∃ l, op = .replace l) (c.runAll grow h ops)
      ((⟨bs, c.index, c.step⟩ : Cursor).runAll (ops.map HOp.cur))
  | [], h, c, bs, fp, ho => ⟨rfl, rfl, ⟨fp, ho.1, .refl ho.2.1 ho.2.2⟩, fun _ => rfl⟩
  | op :: ops, h, c, bs, fp, ho => by
    have h1 := run_ok grow op ho
    simp only [List.map_cons, HCursor.runAll, Cursor.runAll]
    cases hx : c.run grow h op with
    | none =>
      cases hy : (⟨bs, c.index, c.step⟩ : Cursor).run op.cur with
      | none => trivial
      | some y => rw [hx, hy] at h1; exact h1.elim
    | some x =>
      cases hy : (⟨bs, c.index, c.step⟩ : Cursor).run op.cur with
      | none => rw [hx, hy] at h1; exact h1.elim
      | some y =>
        rw [hx, hy] at h1
        obtain ⟨h', c'⟩ := x
        obtain ⟨bs', ix, st⟩ := y
        obtain ⟨e1, e2, ⟨fp', h2, h3⟩, h4⟩ := h1
        simp only at e1 e2 h2 h4 ⊢
        have h5 := runAll_ok grow ops (h := h') (c := c') (bs := bs') (fp := fp') ⟨h2, h3.nodup, h3.bound⟩
        rw [e1, e2] at h5
        cases hx2 : c'.runAll grow h' ops with
        | none =>
          cases hy2 : (⟨bs', ix, st⟩ : Cursor).runAll (ops.map HOp.cur) with
          | none => trivial
          | some y => rw [hx2, hy2] at h5; exact h5.elim
        | some x =>
          cases hy2 : (⟨bs', ix, st⟩ : Cursor).runAll (ops.map HOp.cur) with
          | none => rw [hx2, hy2] at h5; exact h5.elim
          | some y =>
            rw [hx2, hy2] at h5
            obtain ⟨g1, g2, ⟨fp2, g3, g4⟩, g5⟩ := h5
            refine ⟨g1, g2, ⟨fp2, g3, h3.trans g4⟩, ?_⟩
            intro hr
            rw [g5 (fun o ho => hr o (by simp [ho])), h4 (hr op (by simp))]

/-! ### The loops -/

/-- How the result of the traversal of the heap corresponds to that of the tree. -/
def LoopRel {σ : Type} (h : Heap) (fp : List Nat) (s0 : Slice) (rep : Prop) : HRes σ → ApplyRes σ (List BOP) → Prop
  | .done s h' r, .done s' bs => s = s' ∧ (∃ fp', Holds h' bs r fp' ∧ Evolves h h' fp fp') ∧ (rep → r = s0)
  | .panic, .panic => True
  | .timeout, .timeout => True
  | _, _ => False

/-- The same for else-if blocks, from the index `k` on. -/
def ElifRel {σ : Type} (h : Heap) (f : List Nat) (es : Slice) (k : Nat) : HRes σ → ApplyRes σ (List Elif) → Prop
  | .done s h' r, .done s' lst => s = s' ∧ r = es ∧ ∃ f', es.len ≤ (h'.elifs es.arr).length ∧
      HoldsElifs h' lst (((h'.elifs es.arr).take es.len).drop k) f' ∧
      (h'.elifs es.arr).take k = (h.elifs es.arr).take k ∧ Evolves h h' (es.arr :: f) (es.arr :: f')
  | .panic, .panic => True
  | .timeout, .timeout => True
  | _, _ => False

theorem LoopRel.trans {σ : Type} {h h' : Heap} {fp fp' : List Nat} {s0 s1 : Slice} {rep : Prop} {r : HRes σ} {t : ApplyRes σ (List BOP)}
    (e : Evolves h h' fp fp') (hs : rep → s1 = s0) (hr : LoopRel h' fp' s1 rep r t) : LoopRel h fp s0 rep r t := by
  cases r <;> cases t <;> first | exact hr | skip
  obtain ⟨h1, ⟨f, h2, h3⟩, h4⟩ := hr
  exact ⟨h1, ⟨f, h2, e.trans h3⟩, fun hh => (h4 hh).trans (hs hh)⟩

/-- Writing an array of else-if blocks. -/
theorem evolves_setElif {h : Heap} {a : Nat} {f : List Nat} (l : List HElif) (hn : (a :: f).Nodup)
    (hb : ∀ x ∈ a :: f, x < h.next) : Evolves h (h.setElif a l) (a :: f) (a :: f) ∧ Same h (h.setElif a l) f := by
  refine ⟨⟨Nat.le_refl _, hn, hb, fun _ h => .inl h, ?_⟩, ?_⟩
  · intro x hx hm
    simp only [List.mem_cons, not_or] at hm
    simp [Heap.setElif, hm.1]
  · intro x hx
    have : x ≠ a := by rintro rfl; exact (List.nodup_cons.1 hn).1 hx
    simp [Heap.setElif, this]

section
variable {σ : Type} (grow : Nat → Nat) (g : HCallback σ)

theorem plugin_eq {h : Heap} {c : HCursor} {bs : List BOP} {f : List Nat} (hh : HoldsList h bs (h.read c.parent) f)
    (hi : c.index.toNat < bs.length) : c.plugin h = (⟨bs, c.index, c.step⟩ : Cursor).plugin := by
  obtain ⟨b, x, f1, f2, f3, h1, h2, -, -, -, -, h3, -⟩ := holdsList_at hh hi
  unfold HCursor.plugin Cursor.plugin
  rw [h2]
  simp only [h1]
  cases b with
  | branch st cond block cm ft elifs el =>
    obtain ⟨est, eb, ecm, eft⟩ := el
    rw [HoldsOne] at h3
    obtain ⟨_, _, _, _, _, _, rfl, -⟩ := h3
    rfl
  | _ => rw [HoldsOne] at h3; rw [h3.1]

/-- The step of the loop at an element that is not a branch. -/
theorem visit_ok {n : Nat} (ih : ∀ s h c bs fp, Owns h bs c.parent fp →
      LoopRel h fp c.parent (OnlyReplaces g) (heapLoop grow g n s h c) (applyLoop g.cur n s ⟨bs, c.index, c.step⟩))
    (s : σ) (h : Heap) (c : HCursor) (bs : List BOP) (fp : List Nat) (ho : Owns h bs c.parent fp)
    (hp : c.plugin h = (⟨bs, c.index, c.step⟩ : Cursor).plugin) :
    LoopRel h fp c.parent (OnlyReplaces g)
      (match g s (c.plugin h) c.index with
        | none => .panic
        | some (s', ops) =>
          match c.runAll grow h ops with
          | none => .panic
          | some (h', c') => heapLoop grow g n s' h' { c' with index := c'.index + c'.step })
      (match g.cur s ⟨bs, c.index, c.step⟩ with
        | none => .panic
        | some (s', ops) =>
          match (⟨bs, c.index, c.step⟩ : Cursor).runAll ops with
          | none => .panic
          | some c' => applyLoop g.cur n s' { c' with index := c'.index + c'.step }) := by
  unfold HCallback.cur
  simp only
  rw [hp]
  cases hg : g s (⟨bs, c.index, c.step⟩ : Cursor).plugin c.index with
  | none => trivial
  | some r =>
    obtain ⟨s', ops⟩ := r
    simp only
    have h1 := runAll_ok grow ops ho
    cases hx : c.runAll grow h ops with
    | none =>
      cases hy : (⟨bs, c.index, c.step⟩ : Cursor).runAll (ops.map HOp.cur) with
      | none => trivial
      | some y => rw [hx, hy] at h1; exact h1.elim
    | some x =>
      cases hy : (⟨bs, c.index, c.step⟩ : Cursor).runAll (ops.map HOp.cur) with
      | none => rw [hx, hy] at h1; exact h1.elim
      | some y =>
        rw [hx, hy] at h1
        obtain ⟨h', c'⟩ := x
        obtain ⟨bs', ix, st⟩ := y
        obtain ⟨e1, e2, ⟨fp', h2, h3⟩, h4⟩ := h1
        simp only at e1 e2 h2 h4 ⊢
        have h5 := ih s' h' { c' with index := c'.index + c'.step } bs' fp' ⟨h2, h3.nodup, h3.bound⟩
        rw [← e1, ← e2]
        simp only at h5
        refine LoopRel.trans h3 ?_ h5
        intro hr
        exact h4 (fun op hop => hr _ _ _ _ _ hg op hop)

theorem loops (n : Nat) :
    (∀ s h c bs fp, Owns h bs c.parent fp →
      LoopRel h fp c.parent (OnlyReplaces g) (heapLoop grow g n s h c) (applyLoop g.cur n s ⟨bs, c.index, c.step⟩)) ∧
    (∀ s h es k lst f, es.len ≤ (h.elifs es.arr).length → k ≤ es.len →
      HoldsElifs h lst (((h.elifs es.arr).take es.len).drop k) f → (es.arr :: f).Nodup →
      (∀ a ∈ es.arr :: f, a < h.next) →
      ElifRel h f es k (heapElifs grow g n s h es k) (applyElifs g.cur n s lst)) := by
  induction n with
  | zero => exact ⟨fun _ _ _ _ _ _ => trivial, fun _ _ _ _ _ _ _ _ _ _ _ => trivial⟩
  | succ n ih =>
    obtain ⟨ih1, ih2⟩ := ih
    constructor
    · intro s h c bs fp ho
      have ho' := ho
      obtain ⟨⟨f, rfl, hl, hh⟩, hn, hb⟩ := ho'
      have hlen : c.parent.len = bs.length := by rw [← holdsList_length hh, heap_read_length hl]
      rw [heapLoop, applyLoop]
      simp only
      rw [hlen]
      split
      · exact ⟨rfl, ⟨_, ho.1, .refl hn hb⟩, fun _ => rfl⟩
      · split
        · trivial
        · rename_i hge hneg
          have hi : c.index.toNat < bs.length := by omega
          obtain ⟨b, x, p, f0, q, hbi, hxi, rfl, hbs, hxs, hpre, hone, hpost⟩ := holdsList_at hh hi
          rw [hxi, hbi]
          have visit : LoopRel h (c.parent.arr :: (p ++ (f0 ++ q))) c.parent (OnlyReplaces g)
              (match g s (HCursor.plugin h { c with step := 1 }) c.index with
                | none => .panic
                | some (s', ops) =>
                  match HCursor.runAll grow h { c with step := 1 } ops with
                  | none => .panic
                  | some (h', c') => heapLoop grow g n s' h' { c' with index := c'.index + c'.step })
              (match g.cur s ⟨bs, c.index, 1⟩ with
                | none => .panic
                | some (s', ops) =>
                  match (⟨bs, c.index, 1⟩ : Cursor).runAll ops with
                  | none => .panic
                  | some c' => applyLoop g.cur n s' { c' with index := c'.index + c'.step }) :=
            visit_ok grow g ih1 s h { c with step := 1 } bs _ ho (plugin_eq hh hi)
          cases b with
          | nil => rw [HoldsOne] at hone; obtain ⟨rfl, rfl⟩ := hone; exact visit
          | plugin pl => rw [HoldsOne] at hone; obtain ⟨rfl, rfl⟩ := hone; exact visit
          | pluginPtr pl => rw [HoldsOne] at hone; obtain ⟨rfl, rfl⟩ := hone; trivial
          | branch st cond block cm ft elifs el =>
            obtain ⟨est, eblock, ecm, eft⟩ := el
            rw [HoldsOne] at hone
            obtain ⟨s1, s2, s3, f1, f2, f3, rfl, rfl, l1, k1, l2, k2, l3, k3⟩ := hone
            simp only
            -- the arrays in front of the part being worked on
            have hn1 : ((c.parent.arr :: p) ++ (s1.arr :: f1) ++ ((s2.arr :: f2) ++ ((s3.arr :: f3) ++ q))).Nodup := by
              simpa using hn
            have hb1 : ∀ a ∈ (c.parent.arr :: p) ++ (s1.arr :: f1) ++ ((s2.arr :: f2) ++ ((s3.arr :: f3) ++ q)), a < h.next := by
              intro a ha; exact hb a (by simpa using ha)
            have r1 := ih1 s h ⟨s1, 0, 1⟩ block (s1.arr :: f1) ⟨⟨f1, rfl, l1, k1⟩,
              (List.nodup_append.1 (List.nodup_append.1 hn1).1).2.1, fun a ha => hb1 a (by simp at ha ⊢; grind)⟩
            cases hr1 : heapLoop grow g n s h ⟨s1, 0, 1⟩ with
            | panic => cases ht1 : applyLoop g.cur n s ⟨block, 0, 1⟩ <;> rw [hr1, ht1] at r1 <;> first | trivial | exact r1.elim
            | timeout => cases ht1 : applyLoop g.cur n s ⟨block, 0, 1⟩ <;> rw [hr1, ht1] at r1 <;> first | trivial | exact r1.elim
            | done t1 h1 ib' =>
              cases ht1 : applyLoop g.cur n s ⟨block, 0, 1⟩ with
              | panic => rw [hr1, ht1] at r1; exact r1.elim
              | timeout => rw [hr1, ht1] at r1; exact r1.elim
              | done t1' block' =>
                rw [hr1, ht1] at r1
                obtain ⟨rfl, ⟨F1, m1, e1⟩, w1⟩ := r1
                obtain ⟨E1, A1, B1⟩ := e1.part hn1 hb1
                have hn2 : ((c.parent.arr :: p ++ F1) ++ (s2.arr :: f2) ++ ((s3.arr :: f3) ++ q)).Nodup := by
                  simpa using E1.nodup
                have hb2 : ∀ a ∈ (c.parent.arr :: p ++ F1) ++ (s2.arr :: f2) ++ ((s3.arr :: f3) ++ q), a < h1.next := by
                  intro a ha; exact E1.bound a (by simpa using ha)
                have B1' : h1.elifs s2.arr = h.elifs s2.arr := (B1 s2.arr (by simp)).2
                simp only
                have r2 := ih2 t1 h1 s2 0 elifs f2 (by rw [B1']; exact l2) (Nat.zero_le _)
                  (by rw [B1']; exact frameElifs elifs (B1.mono (by intro a ha; simp [ha])) k2)
                  (List.nodup_append.1 (List.nodup_append.1 hn2).1).2.1 (fun a ha => hb2 a (by simp at ha ⊢; grind))
                cases hr2 : heapElifs grow g n t1 h1 s2 0 with
                | panic => cases ht2 : applyElifs g.cur n t1 elifs <;> rw [hr2, ht2] at r2 <;> first | trivial | exact r2.elim
                | timeout => cases ht2 : applyElifs g.cur n t1 elifs <;> rw [hr2, ht2] at r2 <;> first | trivial | exact r2.elim
                | done t2 h2 es' =>
                  cases ht2 : applyElifs g.cur n t1 elifs with
                  | panic => rw [hr2, ht2] at r2; exact r2.elim
                  | timeout => rw [hr2, ht2] at r2; exact r2.elim
                  | done t2' elifs' =>
                    rw [hr2, ht2] at r2
                    obtain ⟨rfl, rfl, F2, l2', k2', -, e2⟩ := r2
                    obtain ⟨E2, A2, B2⟩ := e2.part hn2 hb2
                    have hn3 : ((c.parent.arr :: p ++ F1 ++ (es'.arr :: F2)) ++ (s3.arr :: f3) ++ q).Nodup := by
                      simpa using E2.nodup
                    have hb3 : ∀ a ∈ (c.parent.arr :: p ++ F1 ++ (es'.arr :: F2)) ++ (s3.arr :: f3) ++ q, a < h2.next := by
                      intro a ha; exact E2.bound a (by simpa using ha)
                    have B2' : h2.blocks s3.arr = h.blocks s3.arr :=
                      ((B2 s3.arr (by simp)).1).trans (B1 s3.arr (by simp)).1
                    simp only
                    have r3 := ih1 t2 h2 ⟨s3, 0, 1⟩ eblock (s3.arr :: f3) ⟨⟨f3, rfl, by rw [B2']; exact l3,
                        by
                          have : h2.read s3 = h.read s3 := by unfold Heap.read; rw [B2']
                          simp only
                          rw [this]
                          exact frameList eblock (B2.mono (by intro a ha; simp [ha]))
                            (frameList eblock (B1.mono (by intro a ha; simp [ha])) k3)⟩,
                      (List.nodup_append.1 (List.nodup_append.1 hn3).1).2.1, fun a ha => hb3 a (by simp at ha ⊢; grind)⟩
                    cases hr3 : heapLoop grow g n t2 h2 ⟨s3, 0, 1⟩ with
                    | panic => cases ht3 : applyLoop g.cur n t2 ⟨eblock, 0, 1⟩ <;> rw [hr3, ht3] at r3 <;> first | trivial | exact r3.elim
                    | timeout => cases ht3 : applyLoop g.cur n t2 ⟨eblock, 0, 1⟩ <;> rw [hr3, ht3] at r3 <;> first | trivial | exact r3.elim
                    | done t3 h3 eb' =>
                      cases ht3 : applyLoop g.cur n t2 ⟨eblock, 0, 1⟩ with
                      | panic => rw [hr3, ht3] at r3; exact r3.elim
                      | timeout => rw [hr3, ht3] at r3; exact r3.elim
                      | done t3' eblock' =>
                        rw [hr3, ht3] at r3
                        obtain ⟨rfl, ⟨F3, m3, e3⟩, w3⟩ := r3
                        obtain ⟨E3, A3, B3⟩ := e3.part hn3 hb3
                        simp only
                        -- assembling the tree in `h3`
                        obtain ⟨g1, rfl, o1, o2⟩ := m1
                        obtain ⟨g3, rfl, o5, o6⟩ := m3
                        have S1 : Same h1 h3 (ib'.arr :: g1) := fun a ha =>
                          ⟨((A3 a (by simp at ha ⊢; grind)).1).trans (A2 a (by simp at ha ⊢; grind)).1,
                           ((A3 a (by simp at ha ⊢; grind)).2).trans (A2 a (by simp at ha ⊢; grind)).2⟩
                        have S2 : Same h2 h3 (es'.arr :: F2) := A3.mono (by simp; grind)
                        have S0 : Same h h3 (c.parent.arr :: p) := fun a ha =>
                          ⟨((A3 a (by simp at ha ⊢; grind)).1).trans (((A2 a (by simp at ha ⊢; grind)).1).trans (A1 a ha).1),
                           ((A3 a (by simp at ha ⊢; grind)).2).trans (((A2 a (by simp at ha ⊢; grind)).2).trans (A1 a ha).2)⟩
                        have Sq : Same h h3 q := fun a ha =>
                          ⟨((B3 a ha).1).trans (((B2 a (by simp [ha])).1).trans (B1 a (by simp [ha])).1),
                           ((B3 a ha).2).trans (((B2 a (by simp [ha])).2).trans (B1 a (by simp [ha])).2)⟩
                        have hone3 : HoldsOne h3 (.branch st cond block' cm ft elifs' (.mk est eblock' ecm eft))
                            (.branch st cond cm ft est ecm eft ib' es' eb')
                            (ib'.arr :: g1 ++ (es'.arr :: F2 ++ (eb'.arr :: g3))) := by
                          rw [HoldsOne]
                          refine ⟨ib', es', eb', g1, F2, g3, rfl, rfl, ?_, ?_, ?_, ?_, o5, o6⟩
                          · rw [(S1 ib'.arr (by simp)).1]; exact o1
                          · rw [S1.read (by simp)]; exact frameList _ (S1.mono (by intro a ha; simp [ha])) o2
                          · rw [(S2 es'.arr (by simp)).2]; exact l2'
                          · rw [(S2 es'.arr (by simp)).2]; exact frameElifs _ (S2.mono (by intro a ha; simp [ha])) (by simpa using k2')
                        have ET : Evolves h h3 (c.parent.arr :: (p ++ ((s1.arr :: f1 ++ (es'.arr :: f2 ++ (s3.arr :: f3))) ++ q)))
                            (c.parent.arr :: (p ++ ((ib'.arr :: g1 ++ (es'.arr :: F2 ++ (eb'.arr :: g3))) ++ q))) := by
                          have := (E1.trans (by simpa using E2)).trans (by simpa using E3)
                          simpa using this
                        have hpar : h3.blocks c.parent.arr = h.blocks c.parent.arr := (S0 c.parent.arr (by simp)).1
                        obtain ⟨ES, SS⟩ := evolves_set (h := h3) (a := c.parent.arr)
                          ((h3.blocks c.parent.arr).set c.index.toNat (.branch st cond cm ft est ecm eft ib' es' eb'))
                          ET.nodup ET.bound
                        have hlist := holdsList_append (frameList _ (S0.mono (by simp; grind)) hpre)
                          (show HoldsList h3 (.branch st cond block' cm ft elifs' (.mk est eblock' ecm eft) :: bs.drop (c.index.toNat + 1))
                            (.branch st cond cm ft est ecm eft ib' es' eb' :: (h.read c.parent).drop (c.index.toNat + 1))
                            ((ib'.arr :: g1 ++ (es'.arr :: F2 ++ (eb'.arr :: g3))) ++ q) from by
                              rw [HoldsList]; exact ⟨_, _, _, _, rfl, rfl, hone3, frameList _ Sq hpost⟩)
                        have hset : bs.set c.index.toNat (.branch st cond block' cm ft elifs' (.mk est eblock' ecm eft)) =
                            bs.take c.index.toNat ++ .branch st cond block' cm ft elifs' (.mk est eblock' ecm eft) ::
                              bs.drop (c.index.toNat + 1) := by
                          rw [List.set_eq_take_append_cons_drop, if_pos hi]
                        have hrd : (h3.setBlock c.parent.arr
                            ((h3.blocks c.parent.arr).set c.index.toNat (.branch st cond cm ft est ecm eft ib' es' eb'))).read c.parent =
                            (h.read c.parent).take c.index.toNat ++ .branch st cond cm ft est ecm eft ib' es' eb' ::
                              (h.read c.parent).drop (c.index.toNat + 1) := by
                          have : c.index.toNat < (h.read c.parent).length := by rw [heap_read_length hl]; omega
                          have h6 : (h.read c.parent).set c.index.toNat (.branch st cond cm ft est ecm eft ib' es' eb') =
                            (h.read c.parent).take c.index.toNat ++ .branch st cond cm ft est ecm eft ib' es' eb' ::
                              (h.read c.parent).drop (c.index.toNat + 1) := by
                            rw [List.set_eq_take_append_cons_drop, if_pos this]
                          rw [← h6, hpar]
                          simp only [Heap.read, Heap.setBlock, if_true]
                          rw [List.take_set]
                        have r4 := ih1 t3 (h3.setBlock c.parent.arr
                            ((h3.blocks c.parent.arr).set c.index.toNat (.branch st cond cm ft est ecm eft ib' es' eb')))
                          { c with step := 1, index := c.index + 1 }
                          (bs.set c.index.toNat (.branch st cond block' cm ft elifs' (.mk est eblock' ecm eft)))
                          (c.parent.arr :: (p ++ ((ib'.arr :: g1 ++ (es'.arr :: F2 ++ (eb'.arr :: g3))) ++ q)))
                          ⟨⟨_, rfl, by simp [Heap.setBlock, hpar]; omega, by
                            simp only
                            rw [hrd, hset]
                            exact frameList _ SS hlist⟩, ES.nodup, ES.bound⟩
                        exact LoopRel.trans (ET.trans ES) (fun _ => rfl) r4
    · intro s h es k lst f hl hk hh hn hb
      have hlen := holdsElifs_length hh
      have hlen' : (((h.elifs es.arr).take es.len).drop k).length = es.len - k := by simp; omega
      rw [heapElifs]
      cases lst with
      | nil =>
        rw [applyElifs]
        simp only [List.length_nil] at hlen
        rw [if_pos (by omega)]
        exact ⟨rfl, rfl, f, hl, hh, rfl, .refl hn hb⟩
      | cons e lst =>
        obtain ⟨st, cond, block, cm, ft⟩ := e
        rw [applyElifs]
        simp only [List.length_cons] at hlen
        rw [if_neg (by omega)]
        rw [HoldsElifs] at hh
        obtain ⟨sl, ys, f1, f2, hcells, rfl, l1, k1, k2⟩ := hh
        have hk' : k < (h.elifs es.arr).length := by omega
        have hcell : (h.elifs es.arr)[k]? = some ⟨st, cond, cm, ft, sl⟩ := by
          have : (((h.elifs es.arr).take es.len).drop k)[0]? = some ⟨st, cond, cm, ft, sl⟩ := by rw [hcells]; rfl
          rw [List.getElem?_drop, List.getElem?_take] at this
          simpa [show k < es.len by omega] using this
        rw [hcell]
        simp only
        have hn1 : ([es.arr] ++ (sl.arr :: f1) ++ f2).Nodup := by simpa using hn
        have hb1 : ∀ a ∈ [es.arr] ++ (sl.arr :: f1) ++ f2, a < h.next := by intro a ha; exact hb a (by simpa using ha)
        have r1 := ih1 s h ⟨sl, 0, 1⟩ block (sl.arr :: f1) ⟨⟨f1, rfl, l1, k1⟩,
          (List.nodup_append.1 (List.nodup_append.1 hn1).1).2.1, fun a ha => hb1 a (by simp at ha ⊢; grind)⟩
        cases hr1 : heapLoop grow g n s h ⟨sl, 0, 1⟩ with
        | panic => cases ht1 : applyLoop g.cur n s ⟨block, 0, 1⟩ <;> rw [hr1, ht1] at r1 <;> first | trivial | exact r1.elim
        | timeout => cases ht1 : applyLoop g.cur n s ⟨block, 0, 1⟩ <;> rw [hr1, ht1] at r1 <;> first | trivial | exact r1.elim
        | done t1 h1 b' =>
          cases ht1 : applyLoop g.cur n s ⟨block, 0, 1⟩ with
          | panic => rw [hr1, ht1] at r1; exact r1.elim
          | timeout => rw [hr1, ht1] at r1; exact r1.elim
          | done t1' block' =>
            rw [hr1, ht1] at r1
            obtain ⟨rfl, ⟨F1, m1, e1⟩, -⟩ := r1
            obtain ⟨E1, A1, B1⟩ := e1.part hn1 hb1
            have hsame : h1.elifs es.arr = h.elifs es.arr := (A1 es.arr (by simp)).2
            simp only
            rw [hsame, hcell]
            simp only
            -- writing the new block
            generalize hh2 : h1.setElif es.arr ((h.elifs es.arr).set k ⟨st, cond, cm, ft, b'⟩) = h2
            have hn2 : (es.arr :: (F1 ++ f2)).Nodup := by simpa using E1.nodup
            have hb2 : ∀ a ∈ es.arr :: (F1 ++ f2), a < h1.next := by intro a ha; exact E1.bound a (by simpa using ha)
            obtain ⟨E2, S2⟩ := evolves_setElif (h := h1) (a := es.arr) ((h.elifs es.arr).set k ⟨st, cond, cm, ft, b'⟩) hn2 hb2
            rw [hh2] at E2 S2
            have harr : h2.elifs es.arr = (h.elifs es.arr).set k ⟨st, cond, cm, ft, b'⟩ := by
              rw [← hh2]; simp [Heap.setElif]
            have hrest : ((h2.elifs es.arr).take es.len).drop (k + 1) = ys := by
              rw [harr, List.take_set, List.drop_set_of_lt (by omega)]
              have : (((h.elifs es.arr).take es.len).drop k).drop 1 = ys := by rw [hcells]; rfl
              rwa [List.drop_drop] at this
            have k2' : HoldsElifs h2 lst (((h2.elifs es.arr).take es.len).drop (k + 1)) f2 := by
              rw [hrest]
              refine frameElifs _ ?_ k2
              intro a ha
              exact ⟨((S2 a (by simp [ha])).1).trans (B1 a ha).1, ((S2 a (by simp [ha])).2).trans (B1 a ha).2⟩
            have hn3 : ([] ++ (es.arr :: f2) ++ F1).Nodup := by
              have : (es.arr :: (F1 ++ f2)).Perm ([] ++ (es.arr :: f2) ++ F1) := by
                simpa using List.perm_append_comm
              exact this.nodup_iff.1 hn2
            have hb3 : ∀ a ∈ [] ++ (es.arr :: f2) ++ F1, a < h2.next := by
              intro a ha; exact E2.bound a (by simp at ha ⊢; grind)
            have r2 := ih2 t1 h2 es (k + 1) lst f2 (by rw [harr]; simpa using hl) (by omega) k2'
              (List.nodup_append.1 hn3).1 (fun a ha => hb3 a (by simp at ha ⊢; grind))
            cases hr2 : heapElifs grow g n t1 h2 es (k + 1) with
            | panic => cases ht2 : applyElifs g.cur n t1 lst <;> rw [hr2, ht2] at r2 <;> first | trivial | exact r2.elim
            | timeout => cases ht2 : applyElifs g.cur n t1 lst <;> rw [hr2, ht2] at r2 <;> first | trivial | exact r2.elim
            | done t2 h3 es' =>
              cases ht2 : applyElifs g.cur n t1 lst with
              | panic => rw [hr2, ht2] at r2; exact r2.elim
              | timeout => rw [hr2, ht2] at r2; exact r2.elim
              | done t2' lst' =>
                rw [hr2, ht2] at r2
                obtain ⟨rfl, rfl, F2, l4, k4, pre4, e4⟩ := r2
                obtain ⟨E4, A4, B4⟩ := e4.part (p := []) (q := F1) hn3 hb3
                obtain ⟨g1, rfl, o1, o2⟩ := m1
                have S3 : Same h1 h3 (b'.arr :: g1) := fun a ha =>
                  ⟨((B4 a ha).1).trans (S2 a (by simp at ha ⊢; grind)).1, ((B4 a ha).2).trans (S2 a (by simp at ha ⊢; grind)).2⟩
                have hk3 : (h3.elifs es'.arr).take (k + 1) = (h.elifs es'.arr).take k ++ [⟨st, cond, cm, ft, b'⟩] := by
                  rw [pre4, harr]
                  apply List.ext_getElem?
                  intro m
                  rcases Nat.lt_trichotomy m k with hm | hm | hm
                  · rw [List.getElem?_take_of_lt (by omega), List.getElem?_set_ne (by omega),
                      List.getElem?_append_left (by simp; omega), List.getElem?_take_of_lt hm]
                  · subst hm
                    rw [List.getElem?_take_of_lt (by omega), List.getElem?_append_right (by simp; omega)]
                    simp [Nat.min_eq_left (Nat.le_of_lt hk'), hk']
                  · rw [List.getElem?_eq_none (by simp; omega), List.getElem?_eq_none (by simp; omega)]
                refine ⟨rfl, rfl, (b'.arr :: g1) ++ F2, l4, ?_, ?_, ?_⟩
                · rw [HoldsElifs]
                  refine ⟨b', _, g1, F2, ?_, rfl, ?_, ?_, k4⟩
                  · have h7 : (h3.elifs es'.arr)[k]? = some ⟨st, cond, cm, ft, b'⟩ := by
                      have : ((h3.elifs es'.arr).take (k + 1))[k]? = some ⟨st, cond, cm, ft, b'⟩ := by
                        rw [hk3, List.getElem?_append_right (by simp; omega)]
                        simp [Nat.min_eq_left (Nat.le_of_lt hk')]
                      rwa [List.getElem?_take_of_lt (by omega)] at this
                    have h8 : ((h3.elifs es'.arr).take es'.len)[k]? = some ⟨st, cond, cm, ft, b'⟩ := by
                      rw [List.getElem?_take_of_lt (by omega)]; exact h7
                    obtain ⟨hlt, h9⟩ := List.getElem?_eq_some_iff.1 h8
                    rw [← h9, List.getElem_cons_drop]
                  · rw [(S3 b'.arr (by simp)).1]; exact o1
                  · rw [S3.read (by simp)]; exact frameList _ (S3.mono (by intro a ha; simp [ha])) o2
                · have := congrArg (List.take k) hk3
                  rw [List.take_take, Nat.min_eq_left (Nat.le_succ _)] at this
                  rw [this, List.take_append_of_le_length (by simp; omega), List.take_take, Nat.min_self]
                · have E5 : Evolves h2 h3 (es'.arr :: ((b'.arr :: g1) ++ f2)) (es'.arr :: ((b'.arr :: g1) ++ F2)) := by
                    refine E4.perm ?_ ?_
                    · simpa only [List.nil_append, List.cons_append] using
                        (List.perm_append_comm (l₁ := f2) (l₂ := b'.arr :: g1)).cons es'.arr
                    · simpa only [List.nil_append, List.cons_append] using
                        (List.perm_append_comm (l₁ := F2) (l₂ := b'.arr :: g1)).cons es'.arr
                  have E0 : Evolves h h1 (es'.arr :: (sl.arr :: f1 ++ f2)) (es'.arr :: ((b'.arr :: g1) ++ f2)) := by simpa using E1
                  exact (E0.trans E2).trans E5

end

/-! ### Every tree can be put on a heap -/

theorem Evolves.same {h h' : Heap} {f f' : List Nat} (e : Evolves h h' [] f') (hb : ∀ a ∈ f, a < h.next) : Same h h' f :=
  fun a ha => e.keep a (hb a ha) (by simp)

theorem Evolves.join {h1 h2 h3 : Heap} {f g : List Nat} (a : Evolves h1 h2 [] f) (b : Evolves h2 h3 [] g) :
    Evolves h1 h3 [] (f ++ g) := by
  refine ⟨Nat.le_trans a.next b.next, ?_, ?_, ?_, ?_⟩
  · rw [List.nodup_append]
    refine ⟨a.nodup, b.nodup, ?_⟩
    intro x hx y hy hxy
    subst hxy
    have h1 := a.bound x hx
    rcases b.from_ x hy with h | h
    · simp at h
    · omega
  · intro x hx
    rcases List.mem_append.1 hx with h | h
    · exact Nat.lt_of_lt_of_le (a.bound x h) b.next
    · exact b.bound x h
  · intro x hx
    rcases List.mem_append.1 hx with h | h
    · exact a.from_ x h
    · rcases b.from_ x h with h | h
      · simp at h
      · exact .inr (Nat.le_trans a.next h)
  · intro x hx _
    have h1 := a.keep x hx (by simp)
    have h2 := b.keep x (Nat.lt_of_lt_of_le hx a.next) (by simp)
    exact ⟨h2.1.trans h1.1, h2.2.trans h1.2⟩

/-- A new array with the given contents. -/
def Heap.alloc (h : Heap) (bs : List HBOP) (es : List HElif) : Heap :=
  { blocks := fun x => if x = h.next then bs else h.blocks x
    elifs := fun x => if x = h.next then es else h.elifs x
    next := h.next + 1 }

theorem evolves_alloc (h : Heap) (bs : List HBOP) (es : List HElif) : Evolves h (h.alloc bs es) [] [h.next] := by
  refine ⟨Nat.le_succ _, by simp, by simp [Heap.alloc], by simp, ?_⟩
  intro a ha _
  simp [Heap.alloc, show a ≠ h.next by omega]

/-- Putting a block with its elements into a new array. -/
theorem alloc_block {h h1 : Heap} {bs : List BOP} {xs : List HBOP} {f : List Nat} (hh : HoldsList h1 bs xs f)
    (e : Evolves h h1 [] f) : ∃ h' s f', Evolves h h' [] (s.arr :: f') ∧ s.len ≤ (h'.blocks s.arr).length ∧
      HoldsList h' bs (h'.read s) f' := by
  refine ⟨h1.alloc xs [], ⟨h1.next, xs.length⟩, f, ?_, by simp [Heap.alloc], ?_⟩
  · exact (e.join (evolves_alloc h1 xs [])).perm (.refl _) (by simpa using List.perm_append_comm)
  · have : (h1.alloc xs []).read ⟨h1.next, xs.length⟩ = xs := by simp [Heap.alloc, Heap.read]
    rw [this]
    exact frameList _ ((evolves_alloc h1 xs []).same e.bound) hh

mutual
theorem put_one : ∀ (b : BOP) (h : Heap), ∃ h' x f, HoldsOne h' b x f ∧ Evolves h h' [] f
  | .nil, h => ⟨h, .nil, [], by rw [HoldsOne]; exact ⟨rfl, rfl⟩, .refl (by simp) (by simp)⟩
  | .plugin p, h => ⟨h, .plugin p, [], by rw [HoldsOne]; exact ⟨rfl, rfl⟩, .refl (by simp) (by simp)⟩
  | .pluginPtr p, h => ⟨h, .pluginPtr p, [], by rw [HoldsOne]; exact ⟨rfl, rfl⟩, .refl (by simp) (by simp)⟩
  | .branch st cond block cm ft elifs (.mk est eblock ecm eft), h => by
    obtain ⟨h1, s1, f1, e1, l1, k1⟩ := put_block block h
    obtain ⟨h2, ys, f2, k2, e2⟩ := put_elifs elifs h1
    have e2' := (e2.join (evolves_alloc h2 [] ys)).perm (.refl _) (show (f2 ++ [h2.next]).Perm (h2.next :: f2) by simpa using List.perm_append_comm)
    have k2' : HoldsElifs (h2.alloc [] ys) elifs ys f2 := frameElifs _ ((evolves_alloc h2 [] ys).same e2.bound) k2
    obtain ⟨h3, s3, f3, e3, l3, k3⟩ := put_block eblock (h2.alloc [] ys)
    have S2 := e3.same e2'.bound
    have S1 := (e2'.same e1.bound)
    have S1' := e3.same (e1.join e2').bound
    refine ⟨h3, .branch st cond cm ft est ecm eft s1 ⟨h2.next, ys.length⟩ s3,
      s1.arr :: f1 ++ (h2.next :: f2 ++ (s3.arr :: f3)), ?_, ?_⟩
    · rw [HoldsOne]
      refine ⟨s1, ⟨h2.next, ys.length⟩, s3, f1, f2, f3, rfl, rfl, ?_, ?_, ?_, ?_, l3, k3⟩
      · rw [(S1' s1.arr (by simp)).1, (S1 s1.arr (by simp)).1]; exact l1
      · rw [S1'.read (by simp), S1.read (by simp)]
        exact frameList _ (S1'.mono (by intro a ha; simp [ha])) (frameList _ (S1.mono (by intro a ha; simp [ha])) k1)
      · rw [(S2 h2.next (by simp)).2]; simp [Heap.alloc]
      · rw [(S2 h2.next (by simp)).2]
        have : ((h2.alloc [] ys).elifs h2.next).take ys.length = ys := by simp [Heap.alloc]
        simp only [this]
        exact frameElifs _ (S2.mono (by intro a ha; simp [ha])) k2'
    · simpa using (e1.join e2').join e3
theorem put_list : ∀ (bs : List BOP) (h : Heap), ∃ h' xs f, HoldsList h' bs xs f ∧ Evolves h h' [] f
  | [], h => ⟨h, [], [], by rw [HoldsList]; exact ⟨rfl, rfl⟩, .refl (by simp) (by simp)⟩
  | b :: bs, h => by
    obtain ⟨h1, x, f1, k1, e1⟩ := put_one b h
    obtain ⟨h2, ys, f2, k2, e2⟩ := put_list bs h1
    exact ⟨h2, x :: ys, f1 ++ f2, by rw [HoldsList]; exact ⟨x, ys, f1, f2, rfl, rfl, frameOne _ (e2.same e1.bound) k1, k2⟩, e1.join e2⟩
theorem put_block : ∀ (bs : List BOP) (h : Heap), ∃ h' s f, Evolves h h' [] (s.arr :: f) ∧
    s.len ≤ (h'.blocks s.arr).length ∧ HoldsList h' bs (h'.read s) f
  | [], h => alloc_block (h1 := h) (xs := []) (f := []) (by rw [HoldsList]; exact ⟨rfl, rfl⟩) (.refl (by simp) (by simp))
  | b :: bs, h => by
    obtain ⟨h1, x, f1, k1, e1⟩ := put_one b h
    obtain ⟨h2, ys, f2, k2, e2⟩ := put_list bs h1
    exact alloc_block (xs := x :: ys) (by rw [HoldsList]; exact ⟨x, ys, f1, f2, rfl, rfl, frameOne _ (e2.same e1.bound) k1, k2⟩) (e1.join e2)
theorem put_elifs : ∀ (es : List Elif) (h : Heap), ∃ h' xs f, HoldsElifs h' es xs f ∧ Evolves h h' [] f
  | [], h => ⟨h, [], [], by rw [HoldsElifs]; exact ⟨rfl, rfl⟩, .refl (by simp) (by simp)⟩
  | .mk st cond block cm ft :: es, h => by
    obtain ⟨h1, s, f1, e1, l1, k1⟩ := put_block block h
    obtain ⟨h2, ys, f2, k2, e2⟩ := put_elifs es h1
    have S := e2.same e1.bound
    refine ⟨h2, ⟨st, cond, cm, ft, s⟩ :: ys, (s.arr :: f1) ++ f2, ?_, e1.join e2⟩
    rw [HoldsElifs]
    refine ⟨s, ys, f1, f2, rfl, rfl, ?_, ?_, k2⟩
    · rw [(S s.arr (by simp)).1]; exact l1
    · rw [S.read (by simp)]; exact frameList _ (S.mono (by intro a ha; simp [ha])) k1
end

end Verif
