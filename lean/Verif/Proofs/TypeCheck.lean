import Verif.Proofs.Typing
import Verif.Model.Grammar
/-
The type checker for grammar expressions, and the fact that the grammar is well typed.
-/
namespace Verif
open Spec

/-- The type of a rule. -/
def ruleTy : Rule → Ty
  | .init => ⟨[.config], []⟩
  | .config => ⟨[.config], []⟩
  | .pluginSection => ⟨[.sect], []⟩
  | .branchOrPlugin => ⟨[.plugin, .branch], []⟩
  | .plugin => ⟨[.plugin], []⟩
  | .attribute => ⟨attrKinds, []⟩
  | .value => ⟨[.aStr, .aNum, .aArr, .aHash, .plugin], []⟩
  | .array => ⟨[.aArr], []⟩
  | .hash => ⟨[.aHash], []⟩
  | .hashentries => ⟨[.hentries], []⟩
  | .hashentry => ⟨[.hentry], []⟩
  | .branch => ⟨[.branch], []⟩
  | .ifCond => ⟨[.ifBlock], []⟩
  | .elseIf => ⟨[.elif], []⟩
  | .elseCond => ⟨[.elseB], []⟩
  | .condition => ⟨[.cond], []⟩
  | .expression => ⟨[.expr], []⟩
  | .negativeExpression => ⟨[.expr], []⟩
  | .inExpression => ⟨[.expr], []⟩
  | .notInExpression => ⟨[.expr], []⟩
  | .rvalue => ⟨rvKinds, []⟩
  | .compareExpression => ⟨[.expr], []⟩
  | .regexpExpression => ⟨[.expr], []⟩

def codeOk (r : Rule) : Code → Bool
  | .initParser => true
  | .pushError m => expectations.contains m
  | .fatalError m => (closings r).contains m && expectations.contains m

mutual
/-- The type of an expression in rule `r` and frame `f`, and the frame it leaves. -/
def tyEx (r : Rule) : Ex → FTy → Option (Ty × FTy)
  | .action a e, f => match tyEx r e f with
    | none => none
    | some p => match actTy a p.2 with
      | none => none
      | some q => if q.2.all (fun m => (semantic r).contains m) then some (q.1, p.2) else none
  | .andCode c, f => if codeOk r c then some (⟨if c = .initParser then [.nil] else [], []⟩, f) else none
  | .any, f => some (⟨[.bytes], []⟩, f)
  | .cls .., f => some (⟨[.bytes], []⟩, f)
  | .choice es, f => match tyAlts r es with
    | none => none
    | some T => some (T, f)
  | .labeled l e, f => match tyEx r e [] with
    | none => none
    | some p => some (p.1, (l, p.1) :: f)
  | .lit _, f => some (⟨[.bytes], []⟩, f)
  | .not e, f => match tyEx r e [] with
    | none => none
    | some _ => some (⟨[.nil], []⟩, f)
  | .plus e, f => match tyEx r e [] with
    | none => none
    | some p => some (⟨[.list], p.1.ks⟩, f)
  | .ref r', f => some (ruleTy r', f)
  | .seq es, f => match tySeq r es f with
    | none => none
    | some p => some (⟨[.list], p.1⟩, p.2)
  | .state _, f => some (⟨[.nil], []⟩, f)
  | .star e, f => match tyEx r e [] with
    | none => none
    | some p => some (⟨[.list], p.1.ks⟩, f)
  | .opt e, f => match tyEx r e [] with
    | none => none
    | some p => some (⟨.nil :: p.1.ks, p.1.el⟩, f)

def tyAlts (r : Rule) : List Ex → Option Ty
  | [] => some ⟨[], []⟩
  | e :: es => match tyEx r e [], tyAlts r es with
    | some p, some T => some ⟨p.1.ks ++ T.ks, p.1.el ++ T.el⟩
    | _, _ => none

def tySeq (r : Rule) : List Ex → FTy → Option (List Kind × FTy)
  | [], f => some ([], f)
  | e :: es, f => match tyEx r e f with
    | none => none
    | some p => match tySeq r es p.2 with
      | none => none
      | some q => some (p.1.ks ++ q.1, q.2)
end

/-- A rule body has the type of the rule. -/
def ruleOk (r : Rule) : Bool :=
  match tyEx r (gram r) [] with
  | none => false
  | some p => sub p.1.ks (ruleTy r).ks && sub p.1.el (ruleTy r).el

theorem gram_typed (r : Rule) : ruleOk r = true := by
  cases r <;> decide +kernel

end Verif
