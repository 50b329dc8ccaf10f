import Verif.Model.AstUtil
/-
Specification of a tree traversal with local edits, independent of the cursor
machinery of `ApplyPlugins`.
-/
namespace Verif.Spec
open Verif

/-- What becomes of one visited element: it is replaced by the elements inserted before
it, itself (kept, replaced or deleted), and the elements inserted after it. -/
structure Edit where
  before : List BOP
  self : List BOP
  after : List BOP

/-- All elements an edit leaves in place of the visited one. -/
def Edit.all (e : Edit) : List BOP := e.before ++ e.self ++ e.after

/-- A visitor: from its state, the already rewritten elements to the left, the visited
element and the untouched elements to the right it computes its new state and an edit;
`none` means that it panics. -/
abbrev Visitor (σ : Type) := σ → List BOP → BOP → List BOP → Option (σ × Edit)

mutual
/-- Rewrite one element: plugins and nil elements are visited, branches are entered. -/
def rewriteOne {σ : Type} (g : Visitor σ) (s : σ) (left : List BOP) (b : BOP) (right : List BOP) :
    Option (σ × List BOP) :=
  match b with
  | .branch st cond block cm ft elifs (.mk est eblock ecm eft) =>
    match rewriteList g s [] block with
    | none => none
    | some (s1, block') =>
      match rewriteElifs g s1 elifs with
      | none => none
      | some (s2, elifs') =>
        match rewriteList g s2 [] eblock with
        | none => none
        | some (s3, eblock') =>
          some (s3, [.branch st cond block' cm ft elifs' (.mk est eblock' ecm eft)])
  | .pluginPtr _ => none
  | .plugin p => (g s left (.plugin p) right).map fun r => (r.1, r.2.all)
  | .nil => (g s left .nil right).map fun r => (r.1, r.2.all)
/-- Rewrite a list of elements from left to right; `left` is what has been rewritten. -/
def rewriteList {σ : Type} (g : Visitor σ) (s : σ) (left : List BOP) (bs : List BOP) :
    Option (σ × List BOP) :=
  match bs with
  | [] => some (s, left)
  | b :: bs =>
    match rewriteOne g s left b bs with
    | none => none
    | some (s', l) => rewriteList g s' (left ++ l) bs
/-- Rewrite the blocks of else-if branches in order. -/
def rewriteElifs {σ : Type} (g : Visitor σ) (s : σ) (es : List Elif) : Option (σ × List Elif) :=
  match es with
  | [] => some (s, [])
  | .mk st cond block cm ft :: es =>
    match rewriteList g s [] block with
    | none => none
    | some (s', block') =>
      match rewriteElifs g s' es with
      | none => none
      | some (s'', es') => some (s'', .mk st cond block' cm ft :: es')
end

mutual
/-- The plugins (and nil elements) of a tree in source order. -/
def visitOne : BOP → List BOP
  | .branch _ _ block _ _ elifs (.mk _ eblock _ _) =>
    visitList block ++ visitElifs elifs ++ visitList eblock
  | .plugin p => [.plugin p]
  | .pluginPtr p => [.pluginPtr p]
  | .nil => [.nil]
/-- See `visitOne`. -/
def visitList : List BOP → List BOP
  | [] => []
  | b :: bs => visitOne b ++ visitList bs
/-- See `visitOne`. -/
def visitElifs : List Elif → List BOP
  | [] => []
  | .mk _ _ block _ _ :: es => visitList block ++ visitElifs es
end

/-- Is the operation a `Replace` or an `InsertAfter`? -/
def isReplaceOrAfter : CurOp → Bool
  | .replace _ => true
  | .insertAfter _ => true
  | _ => false

/-- Is the operation an `InsertBefore`? -/
def isBefore : CurOp → Bool
  | .insertBefore _ => true
  | _ => false

/-- Is the operation a `Delete`? -/
def isDelete : CurOp → Bool
  | .delete => true
  | _ => false

/-- The elements inserted after the current one, nearest first. -/
def aftersOf (ops : List CurOp) : List BOP :=
  (ops.filterMap fun o => match o with | .insertAfter p => some p | _ => none).reverse

/-- The elements inserted before the current one, leftmost first. -/
def beforesOf (ops : List CurOp) : List BOP :=
  (ops.filterMap fun o => match o with | .insertBefore p => some p | _ => none).reverse

/-- The current element after the replacements in `ops`. -/
def replacedBy (x : BOP) (ops : List CurOp) : BOP :=
  ops.foldl (fun y o => match o with | .replace p => p | _ => y) x

/-- A disciplined use of the cursor: first any number of `Replace` and `InsertAfter`, then
possibly one `Delete`, then any number of `InsertBefore`. -/
def Disciplined (ops : List CurOp) : Prop :=
  ∃ as bs, (∀ o ∈ as, isReplaceOrAfter o = true) ∧ (∀ o ∈ bs, isBefore o = true) ∧
    (ops = as ++ bs ∨ ops = as ++ [.delete] ++ bs)

/-- The edit described by the operations of one callback invocation. -/
def editOf (x : BOP) (ops : List CurOp) : Edit :=
  { before := beforesOf ops
    self := if ops.any isDelete then []
      else [replacedBy x ops]
    after := aftersOf ops }

/-- The visitor that corresponds to a callback: it sees the cursor positioned on the
visited element. -/
def visitorOf {σ : Type} (f : Callback σ) : Visitor σ := fun s left b right =>
  (f s ⟨left ++ b :: right, left.length, 1⟩).map fun r => (r.1, editOf b r.2)

end Verif.Spec
