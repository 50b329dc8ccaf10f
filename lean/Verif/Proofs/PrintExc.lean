import Verif.Spec.Positioned
import Verif.Proofs.PrintFile
/-
The exceptional gaps of printed text have no comments.
-/
namespace Verif
open Verif.Spec

/-- No gap of the list has a comment. -/
def Quiet (gs : Gaps) : Prop := ∀ g ∈ gs, g.2.lines = []

theorem quiet_nil : Quiet [] := by simp [Quiet]

theorem quiet_append {a b : Gaps} : Quiet (a ++ b) ↔ Quiet a ∧ Quiet b := by
  simp only [Quiet, List.mem_append]
  exact ⟨fun h => ⟨fun g hg => h g (.inl hg), fun g hg => h g (.inr hg)⟩, fun h g hg => hg.elim (h.1 g) (h.2 g)⟩

theorem quiet_cons {k : Nat} {g : Gap} {b : Gaps} : Quiet ((k, g) :: b) ↔ g.lines = [] ∧ Quiet b := by
  simp [Quiet]

theorem blank_lines : Gap.blank.lines = [] := rfl
theorem empty_lines : Gap.empty.lines = [] := rfl

theorem quiet_warnings {gs : Gaps} (on : Bool) (pos : Nat → Pos) (h : Quiet gs) : warningsOf on pos gs = [] := by
  unfold warningsOf
  split
  · rw [List.map_eq_nil_iff, List.filter_eq_nil_iff]
    intro g hg
    simp [h g hg]
  · rfl

mutual
theorem valC_quiet : ∀ (a : Attr) (n k : Nat), Quiet ((valC n a).exc k)
  | .nil, n, k => by simp only [valC, CVal.exc, quiet_nil]
  | .str a, n, k => by simp only [valC, CVal.exc, quiet_nil]
  | .num a, n, k => by simp only [valC, CVal.exc, quiet_nil]
  | .arr _ _ as _ f, n, k => by simp only [valC, CVal.exc]; exact elemsC_quiet as (n + 1) true _
  | .hash _ _ es _ f, n, k => by simp only [valC, CVal.exc]; exact entriesC_quiet es (n + 1) true true _
  | .plug _ _ p _, n, k => by simp only [valC, CVal.exc]; exact plugC_quiet p n _
theorem elemsC_quiet : ∀ (as : List Attr) (n : Nat) (b : Bool) (k : Nat), Quiet (elemsExc b k (elemsC n as))
  | [], n, b, k => by simp only [elemsC, elemsExc, quiet_nil]
  | a :: as, n, b, k => by
    simp only [elemsC, elemsExc]
    rw [quiet_append, quiet_append]
    refine ⟨⟨?_, valC_quiet a n _⟩, elemsC_quiet as n false _⟩
    cases b
    · exact quiet_cons.2 ⟨rfl, quiet_nil⟩
    · exact quiet_nil
theorem entriesC_quiet : ∀ (es : List HEntry) (n : Nat) (b b' : Bool) (k : Nat), Quiet (entriesExc b' k (entriesC b n es))
  | [], n, b, b', k => by simp only [entriesC, entriesExc, quiet_nil]
  | .mk _ key v c :: es, n, b, b', k => by
    simp only [entriesC, entriesExc]
    rw [quiet_append, quiet_append, quiet_cons, quiet_cons]
    exact ⟨⟨⟨rfl, rfl, quiet_nil⟩, valC_quiet v n _⟩, entriesC_quiet es n false false _⟩
theorem plugC_quiet : ∀ (p : Plugin) (n k : Nat), Quiet ((plugC n p).exc k)
  | .mk _ name as _ f, n, k => by
    simp only [plugC, CPlugin.exc]
    exact quiet_cons.2 ⟨rfl, attrsC_quiet as (n + 1) true true _⟩
theorem attrsC_quiet : ∀ (as : List Attr) (n : Nat) (b b' : Bool) (k : Nat), Quiet (attrsExc b' k (attrsC b n as))
  | [], n, b, b', k => by simp only [attrsC, attrsExc, quiet_nil]
  | a :: as, n, b, b', k => by
    simp only [attrsC, attrsExc]
    rw [quiet_append, quiet_append, quiet_cons, quiet_cons]
    exact ⟨⟨⟨rfl, rfl, quiet_nil⟩, valC_quiet a n _⟩, attrsC_quiet as n false false _⟩
end

theorem rvalC_quiet (r : Rvalue) (n k : Nat) : Quiet ((rvalC n r).exc k) := by
  cases r <;> simp only [rvalC, CRval.exc, quiet_nil]
  exact elemsC_quiet _ _ _ _

mutual
theorem exprC_quiet : ∀ (e : Expr) (n k : Nat), Quiet ((exprC n e).exc k)
  | .nil, n, k => by simp only [exprC, CExpr.exc, CRval.exc, quiet_nil]
  | .cond _ _ c, n, k => by
    simp only [exprC, CExpr.exc, quiet_append, quiet_cons, empty_lines, quiet_nil, condC_quiet c n, and_self]
  | .negCond _ _ c, n, k => by
    simp only [exprC, CExpr.exc, quiet_append, quiet_cons, empty_lines, quiet_nil, condC_quiet c n, and_self]
  | .negSel _ _ s, n, k => by simp only [exprC, CExpr.exc, quiet_cons, empty_lines, quiet_nil, and_self]
  | .inE _ _ l r, n, k => by
    simp only [exprC, CExpr.exc, quiet_append, quiet_cons, blank_lines, quiet_nil, rvalC_quiet, and_self]
  | .notIn _ _ l r, n, k => by
    simp only [exprC, CExpr.exc, quiet_append, quiet_cons, blank_lines, empty_lines, quiet_nil, rvalC_quiet, and_self]
  | .rval _ _ r, n, k => by simp only [exprC, CExpr.exc, rvalC_quiet]
  | .cmp _ _ l o r, n, k => by
    simp only [exprC, CExpr.exc, quiet_append, quiet_cons, blank_lines, quiet_nil, rvalC_quiet, and_self]
  | .re _ _ l o r, n, k => by
    simp only [exprC, CExpr.exc, quiet_append, quiet_cons, blank_lines, quiet_nil, rvalC_quiet, and_self]
theorem condC_quiet : ∀ (es : List Expr) (n k : Nat), Quiet ((condC n es).exc k)
  | [], n, k => by simp only [condC, CCond.exc, CExpr.exc, CRval.exc, moreExc, quiet_append, quiet_nil, and_self]
  | e :: es, n, k => by simp only [condC, CCond.exc, quiet_append, exprC_quiet e n, moreC_quiet es n, and_self]
theorem moreC_quiet : ∀ (es : List Expr) (n k : Nat), Quiet (moreExc k (moreC n es))
  | [], n, k => by simp only [moreC, moreExc, quiet_nil]
  | e :: es, n, k => by
    simp only [moreC, moreExc, quiet_append, quiet_cons, blank_lines, quiet_nil, exprC_quiet e n, moreC_quiet es n, and_self]
end

mutual
theorem itemC_quiet : ∀ (b : BOP) (pre : Bytes) (n k : Nat), Quiet ((itemC pre n b).exc k)
  | .nil, pre, n, k => by simp only [itemC, CItem.exc, CPlugin.exc, attrsExc, quiet_cons, empty_lines, quiet_nil, and_self]
  | .plugin p, pre, n, k => by simp only [itemC, CItem.exc, plugC_quiet]
  | .pluginPtr p, pre, n, k => by simp only [itemC, CItem.exc, plugC_quiet]
  | .branch _ c b cm f ei el, pre, n, k => by
    simp only [itemC, CItem.exc, quiet_append, quiet_cons, blank_lines, quiet_nil, condC_quiet c n, itemsC_quiet b,
      elifsC_quiet ei, elseC_quiet el, and_self]
theorem itemsC_quiet : ∀ (bs : List BOP) (pre : Bytes) (n k : Nat), Quiet (itemsExc k (itemsC pre n bs))
  | [], pre, n, k => by simp only [itemsC, itemsExc, quiet_nil]
  | b :: bs, pre, n, k => by simp only [itemsC, itemsExc, quiet_append, itemC_quiet b, itemsC_quiet bs, and_self]
theorem elifsC_quiet : ∀ (es : List Elif) (n k : Nat), Quiet (elifsExc k (elifsC n es))
  | [], n, k => by simp only [elifsC, elifsExc, quiet_nil]
  | .mk _ c b cm f :: es, n, k => by
    simp only [elifsC, elifsExc, quiet_append, quiet_cons, blank_lines, quiet_nil, condC_quiet c n, itemsC_quiet b,
      elifsC_quiet es, and_self]
theorem elseC_quiet : ∀ (e : ElseB) (n k : Nat), Quiet ((elseC n e).exc k)
  | .mk _ b cm f, n, k => by
    simp only [elseC]
    split
    · simp only [CElse.exc, quiet_nil]
    · simp only [CElse.exc, quiet_append, quiet_cons, blank_lines, quiet_nil, itemsC_quiet b, and_self]
end

theorem sectionsC_quiet : ∀ (L : List CSection) (k : Nat), (∀ s ∈ L, ∀ k, Quiet (s.exc k)) → Quiet (sectionsExc k L)
  | [], k, _ => quiet_nil
  | s :: L, k, h => by
    rw [sectionsExc, quiet_append]
    exact ⟨h s (by simp) k, sectionsC_quiet L _ fun s hs => h s (List.mem_cons_of_mem _ hs)⟩

theorem secC_quiet (pre : Bytes) (c0 : CommentBlock) (s : Section) (k : Nat) : Quiet ((secC pre c0 s).exc k) := by
  simp only [secC, CSection.exc, quiet_append, quiet_cons, blank_lines, quiet_nil, itemsC_quiet, and_self]

theorem secsC_quiet (pre : Bytes) (l : List Section) : ∀ s ∈ secsC pre l, ∀ k, Quiet (s.exc k) := by
  cases l with
  | nil => simp [secsC]
  | cons a l =>
    intro s hs k
    simp only [secsC, List.mem_cons, List.mem_map] at hs
    rcases hs with rfl | ⟨b, _, rfl⟩ <;> exact secC_quiet _ _ _ _

/-- The exceptional gaps of a printed configuration have no comments. -/
theorem fileC_quiet (c : Config) : Quiet (fileC c).exc := by
  have h : ∀ s ∈ allC c, ∀ k, Quiet (s.exc k) := by
    intro s hs
    simp only [allC, List.mem_append] at hs
    rcases hs with (hs | hs) | hs <;> exact secsC_quiet _ _ s hs
  unfold fileC
  split
  · exact quiet_nil
  · next heq => rw [heq] at h; exact sectionsC_quiet _ 0 h

end Verif
