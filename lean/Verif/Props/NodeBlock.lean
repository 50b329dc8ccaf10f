import Verif.Props.NodeText
import Verif.Model.Construct
/-
Property C75 for the parts of a branch: the text of an if block, and the text of an else-if block or an else block after the
separator it begins with, is read back by the parser with the entry point for this kind of block.
-/
namespace Verif.Props
open Verif Spec

theorem marks_bops {a b : List BOP} (h : AMap.noPos.bops a = settleBlock b) : AMap.noMarks.bops a = AMap.noMarks.bops (derefBlock b) := by
  have h1 := comp_bops AMap.noMarks AMap.noPos a
  rw [h, keep_bops (m := AMap.noMarks) (fun _ => rfl) (by intro b cs; cases cs <;> rfl)] at h1
  exact h1.symm

theorem marks_com {a b : CommentBlock} {x : Bool} (h : a = markFirst x b) : AMap.noMarks.com a = AMap.noMarks.com b := by
  subst h; cases b <;> rfl

/-- The text of a branch is the text of its blocks, one after the other. -/
theorem branch_str (i : New.IfBlock) (e : ElseB) (elifs : List Elif) : (New.branch i e elifs).str = i.string ++ elifsStr elifs ++ e.str := by
  rw [New.branch, BOP.str]; rfl

/-- The text of the block of an if, else-if or else block. -/
theorem blockStr (b : List BOP) (f : CommentBlock) (hb : BlockOk true b) (hf : CommentsOk f) :
    prefixS (let ss := bopElems true b
      (if ss.isEmpty then ss else ss ++ b!"\n") ++ commentsStr f) true ++ b!"}" =
    itemsText (itemsC [10] 1 b) ++ (footGap 0 true b.isEmpty f).text ++ b!"}" := by
  have h1 := prefix_block (e := true) (close := b!"}") (itemsBody b 0 hb) hf (blockText b hb)
  rw [h1, block_text (itemsP_empty _ hb), (itemsC_ok b 1 hb).2.1]

variable (s : Settings) (k : Nat) (filename rest : Bytes) (ff : List FF)

/-- **C75** The text of an if block is read back with the entry point "ifCond", whatever follows it.  A comment in front of it
is a part of the branch, not of what this entry point reads. -/
theorem C75_ifBlock (i : New.IfBlock) (he : s.entrypoint = b!"ifCond") (hi : s.opts.ignoreComments = false) (hm : s.maxExprCnt = 0)
    (hv : ValidUTF8 (i.string ++ rest)) (hc : Spec.CondOk true true i.cond) (hb : BlockOk true i.block) (hf : CommentsOk i.footer)
    (hn : i.comment = []) :
    ∃ p c b f, (parseCall s k filename (i.string ++ rest) ff).1 = .returned (.done (.ifBlock p c b [] f) []) ∧
      AMap.noMarks.cond c = AMap.noMarks.cond i.cond ∧ AMap.noMarks.bops b = AMap.noMarks.bops (derefBlock i.block) ∧
      AMap.noMarks.com f = AMap.noMarks.com i.footer := by
  obtain ⟨p, c, b, cm, f⟩ := i
  obtain rfl : cm = [] := hn
  obtain ⟨c1, c2, c3⟩ := condC_ok c 0 hc
  obtain ⟨-, b2, b3, b4, b5⟩ := itemsC_ok b 1 hb
  obtain ⟨f1, f2⟩ := foot_ok (n := 0) (e := true) (empty := b.isEmpty) hf
  have ht : New.IfBlock.string ⟨p, c, b, [], f⟩ =
      b!"if" ++ Gap.blank.text ++ (condC 0 c).text ++ Gap.blank.text ++ b!"{" ++ itemsText (itemsC [10] 1 b) ++
        (footGap 0 true b.isEmpty f).text ++ b!"}" := by
    have h1 := blockStr b f hb hf
    rw [New.IfBlock.string, condStr_render c true hc, c1]
    simp only [List.append_assoc] at h1 ⊢
    rw [h1]
    simp [blank_text, commentsStr]
  rw [ht] at hv ⊢
  refine ⟨_, _, _, _, C63_value_complete s k filename _ rest ff _ hv hm
    (by rw [he]; exact .ifCond blank_ok c2 blank_ok (b3 _ rfl) (fun _ => b5 _ rfl) f1)
    (by rw [he]; exact ⟨fun h => absurd h (by decide), fun h => absurd h (by decide), fun h => absurd h (by decide)⟩), ?_, ?_, ?_⟩
  · apply marks_cond; rw [np_cond, hi, c3]
  · apply marks_bops; rw [np_items, hi, b4]
  · apply marks_com; rw [hi, f2]

/-- What an else-if block or an else block prints in front of `else`. -/
def separator (cm : CommentBlock) : Bytes := if cm = [] then b!" " else b!"\n" ++ commentsStr cm

/-- **C75** The text of an else-if block, after the separator and the comment it begins with, is read back with the entry point
"elseIf", whatever follows it. -/
theorem C75_elseIf (p : Pos) (c : Condition) (b : List BOP) (cm f : CommentBlock) (he : s.entrypoint = b!"elseIf")
    (hi : s.opts.ignoreComments = false) (hm : s.maxExprCnt = 0) (hc : Spec.CondOk true true c) (hb : BlockOk true b) (hf : CommentsOk f) :
    ∃ t, (Elif.mk p c b cm f).str = separator cm ++ t ∧ (ValidUTF8 (t ++ rest) →
      ∃ e, (parseCall s k filename (t ++ rest) ff).1 = .returned (.done (.elif e) []) ∧
        AMap.noMarks.elif e = AMap.noMarks.elif (.mk p c (derefBlock b) [] f)) := by
  obtain ⟨c1, c2, c3⟩ := condC_ok c 0 hc
  obtain ⟨-, b2, b3, b4, b5⟩ := itemsC_ok b 1 hb
  obtain ⟨f1, f2⟩ := foot_ok (n := 0) (e := true) (empty := b.isEmpty) hf
  refine ⟨b!"else" ++ Gap.blank.text ++ b!"if" ++ Gap.blank.text ++ (condC 0 c).text ++ Gap.blank.text ++ b!"{" ++
    itemsText (itemsC [10] 1 b) ++ (footGap 0 true b.isEmpty f).text ++ b!"}", ?_, fun hv => ?_⟩
  · have h1 := blockStr b f hb hf
    rw [Elif.str, condStr_render c true hc, c1]
    simp only [List.append_assoc] at h1 ⊢
    rw [h1]
    simp [blank_text, separator]
  refine ⟨_, C63_value_complete s k filename _ rest ff _ hv hm
    (by rw [he]; exact .elseIf blank_ok blank_ok c2 blank_ok (b3 _ rfl) (fun _ => b5 _ rfl) f1)
    (by rw [he]; exact ⟨fun h => absurd h (by decide), fun h => absurd h (by decide), fun h => absurd h (by decide)⟩), ?_⟩
  rw [AMap.elif, AMap.elif]
  congr 1
  · apply marks_cond; rw [np_cond, hi, c3]
  · apply marks_bops; rw [np_items, hi, b4]
  · apply marks_com; rw [hi, f2]

/-- **C75** The text of an else block that is not empty, after the separator and the comment it begins with, is read back with
the entry point "elseCond", whatever follows it. -/
theorem C75_else (p : Pos) (b : List BOP) (cm f : CommentBlock) (he : s.entrypoint = b!"elseCond")
    (hi : s.opts.ignoreComments = false) (hm : s.maxExprCnt = 0) (hb : BlockOk true b) (hf : CommentsOk f)
    (hne : ¬ (b = [] ∧ cm = [] ∧ f = [])) :
    ∃ t, (ElseB.mk p b cm f).str = separator cm ++ t ∧ (ValidUTF8 (t ++ rest) →
      ∃ e, (parseCall s k filename (t ++ rest) ff).1 = .returned (.done (.elseB e) []) ∧
        AMap.noMarks.elseB e = AMap.noMarks.elseB (.mk p (derefBlock b) [] f)) := by
  obtain ⟨-, b2, b3, b4, b5⟩ := itemsC_ok b 1 hb
  obtain ⟨f1, f2⟩ := foot_ok (n := 0) (e := true) (empty := b.isEmpty) hf
  refine ⟨b!"else" ++ Gap.blank.text ++ b!"{" ++ itemsText (itemsC [10] 1 b) ++ (footGap 0 true b.isEmpty f).text ++ b!"}", ?_, fun hv => ?_⟩
  · have h1 := blockStr b f hb hf
    rw [ElseB.str, if_neg (by simpa [List.isEmpty_iff, and_assoc] using hne)]
    simp only [List.append_assoc] at h1 ⊢
    rw [h1]
    simp [blank_text, separator]
  refine ⟨_, C63_value_complete s k filename _ rest ff _ hv hm
    (by rw [he]; exact .elseCond blank_ok (b3 _ rfl) (fun _ => b5 _ rfl) f1)
    (by rw [he]; exact ⟨fun h => absurd h (by decide), fun h => absurd h (by decide), fun h => absurd h (by decide)⟩), ?_⟩
  rw [AMap.elseB, AMap.elseB]
  congr 1
  · apply marks_bops; rw [np_items, hi, b4]
  · apply marks_com; rw [hi, f2]

/-- The example of C16 meets the hypotheses: its branch, without the comment, as an if block, as an else-if block and as an else block. -/
example : ∃ p c m as mc mf cm f ei el, (formatSample.filter.flatMap (·.bops)) = [.branch p c [.plugin (.mk m b!"mutate" as mc mf)] cm f ei el] ∧
    Spec.CondOk true true c ∧ BlockOk true [.plugin (.mk m b!"mutate" as mc mf)] ∧ CommentsOk f ∧ c.length = 2 ∧ as.length = 3 ∧
    ValidUTF8 (New.IfBlock.string ⟨p, c, [.plugin (.mk m b!"mutate" as mc mf)], [], f⟩) ∧
    ValidUTF8 (Elif.mk p c [.plugin (.mk m b!"mutate" as mc mf)] cm f).str ∧ ValidUTF8 (ElseB.mk p [.plugin (.mk m b!"mutate" as mc mf)] cm f).str := by
  have h := (formatSample_printable.2.1 _ (by simp [formatSample]; rfl)).2.1
  simp only [BlockOk] at h
  have hb := h.1
  simp only [BopOk] at hb
  exact ⟨_, _, _, _, _, _, _, _, _, _, rfl, hb.1, hb.2.1, hb.2.2.2.1, rfl, rfl, validUTF8_ascii (by decide +kernel),
    validUTF8_ascii (by decide +kernel), validUTF8_ascii (by decide +kernel)⟩

/-- An else block with a comment: its text, and what the entry point makes of the text after the separator. -/
example : let e : ElseB := .mk Pos.zero [.plugin (.mk Pos.zero b!"drop" [] [] [])] [⟨b!"rest", false, false⟩] []
    let s : Settings := { Settings.default with entrypoint := b!"elseCond" }
    e.str = separator [⟨b!"rest", false, false⟩] ++ b!"else {\n  drop {}\n}" ∧ separator [⟨b!"rest", false, false⟩] = b!"\n# rest\n" ∧
    (match (parseCall s 0 [] b!"else {\n  drop {}\n}" []).1 with | .returned (.done (.elseB e) es) => (e.str, es.length) | _ => ([], 1)) =
      (b!" else {\n  drop {}\n}", 0) := by decide +kernel

end Verif.Props
