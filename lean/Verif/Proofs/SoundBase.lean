import Verif.Proofs.SoundCond
/-
Expressions and values of the rules for blocks, branches, sections and files.
-/
namespace Verif
open Spec

section
variable {o : Opts}

/-- The gap in front of a block element. -/
def _root_.Verif.Spec.CItem.com : CItem → Gap
  | .plugin com _ => com
  | .branch com .. => com

/-- The parser's value for a block element. -/
def bopVal : BOP → Val
  | .plugin p => .plugin p
  | .branch p c b cm f ei el => .branch p c b cm f ei el
  | _ => .nil

/-- The expression of a block element in a branch. -/
abbrev itemEx : Ex := .action (.branchOrPluginComment .bop .comment) (.seq [
    .labeled .comment G.gap, .labeled .bop (.ref .branchOrPlugin)])

/-- Replace the gap in front of a block element. -/
def _root_.Verif.Spec.CItem.setCom (g : Gap) : CItem → CItem
  | .plugin _ p => .plugin g p
  | .branch _ g1 c g2 items foot elifs els => .branch g g1 c g2 items foot elifs els

theorem collectBOPs_bop (ign : Bool) (is : List CItem) :
    collectBOPs ((itemsAst ign is).map bopVal) = some (itemsAst ign is) := by
  induction is with
  | nil => rfl
  | cons i is ih =>
    rw [itemsAst, List.map_cons, collectBOPs, ih]
    cases i <;> rfl

theorem branchOrPlugins_bop (ign : Bool) (is : List CItem) :
    branchOrPlugins (.list ((itemsAst ign is).map bopVal)) = itemsAst ign is := by
  unfold branchOrPlugins
  simp only [toIfaceSlice, collectBOPs_bop, Option.getD_some]

theorem block_eq : G.block = .labeled .bops (.star itemEx) := rfl

/-- The expression of an else-if block with its gap. -/
abbrev elifEx : Ex := .action (.elseIfComment .eib .eibComment) (.seq [
      .labeled .eibComment G.gap, .labeled .eib (.ref .elseIf)])

theorem elifsText_append (a : CElif) (as : List CElif) : elifsText (a :: as) = elifsText [a] ++ elifsText as := by
  cases a; simp [elifsText]

theorem elifsAst_append (ign : Bool) (a : CElif) (as : List CElif) :
    elifsAst ign (a :: as) = elifsAst ign [a] ++ elifsAst ign as := by
  cases a; simp [elifsAst]

theorem elifsOk_append (a : CElif) (as : List CElif) : elifsOk (a :: as) ↔ elifsOk [a] ∧ elifsOk as := by
  cases a; simp [elifsOk, and_assoc]

theorem collectElifs_elif (l : List Elif) : collectElifs (l.map Val.elif) = some l := by
  induction l with
  | nil => rfl
  | cons a l ih => simp [collectElifs, ih]

/-- The optional else block. -/
abbrev elseEx : Ex := .action (.elseComment .eb .ebComment) (.seq [
      .labeled .ebComment G.gap, .labeled .eb (.ref .elseCond)])

/-- A block element of a section. -/
abbrev secItemEx : Ex := .action (.ret .bop) (.labeled .bop (.ref .branchOrPlugin))

theorem ptypeText_ne {t : PluginType} (h : t ≠ .undefined) : ptypeText t ≠ [] := by
  cases t <;> simp_all [ptypeText]

/-- A further section with its gap. -/
abbrev secEx : Ex := .action (.configSection .ps .psComment)
      (.seq [.labeled .psComment G.gap, .labeled .ps (.ref .pluginSection)])

theorem configLoop_rest (cb : CommentBlock) (l : List Section) (c : Config) (h : ∀ s ∈ l, s.ptype ≠ .undefined) :
    configLoop cb false (l.map Val.sect) c = some { c with
      input := c.input ++ l.filter (·.ptype = .input)
      filter := c.filter ++ l.filter (·.ptype = .filter)
      output := c.output ++ l.filter (·.ptype = .output) } := by
  induction l generalizing c with
  | nil => simp [configLoop]
  | cons s l ih =>
    have h1 := h s (by simp)
    have h2 := fun c => ih c (fun s hs => h s (by simp [hs]))
    rw [List.map_cons, configLoop]
    simp only [Bool.false_eq_true, if_false]
    cases ht : s.ptype <;> simp only [h2] <;> simp_all

theorem configLoop_first (cb : CommentBlock) (s : Section) (l : List Section) (c : Config) (h : ∀ t ∈ s :: l, t.ptype ≠ .undefined) :
    configLoop cb true ((s :: l).map Val.sect) c = configLoop cb false (({ s with comment := cb } :: l).map Val.sect) c := by
  rw [List.map_cons, configLoop, List.map_cons, configLoop]
  simp

end
end Verif
