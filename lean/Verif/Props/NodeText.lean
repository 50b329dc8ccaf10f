import Verif.Props.Entry
import Verif.Props.Format
import Verif.Proofs.NodePos
import Verif.Proofs.PrintTrBlock
import Verif.Proofs.PrintCstBlock
import Verif.Proofs.Settle
import Verif.Proofs.AMapComp
import Verif.Proofs.Strip
/-
Property C75: the text of a part of a configuration, as its `String` method returns it, is read back by the parser with the
entry point for this kind of part.
-/
namespace Verif.Props
open Verif Spec

/-! ### Positions and marks -/

theorem marks_attr {a b : Attr} (h : AMap.noPos.attr a = settleVal b) : AMap.noMarks.attr a = AMap.noMarks.attr b := by
  have h1 := comp_attr AMap.noMarks AMap.noPos a
  rw [h, keep_attr (m := AMap.noMarks) (fun _ => rfl) (by intro b cs; cases cs <;> rfl)] at h1
  exact h1.symm

theorem marks_plugin {a b : Plugin} (h : AMap.noPos.plugin a = settlePlugin b) : AMap.noMarks.plugin a = AMap.noMarks.plugin b := by
  have h1 := comp_plugin AMap.noMarks AMap.noPos a
  rw [h, keep_plugin (m := AMap.noMarks) (fun _ => rfl) (by intro b cs; cases cs <;> rfl)] at h1
  exact h1.symm

theorem marks_rvalue {a b : Rvalue} (h : AMap.noPos.rvalue a = settleRvalue b) : AMap.noMarks.rvalue a = AMap.noMarks.rvalue b := by
  have h1 := comp_rvalue AMap.noMarks AMap.noPos a
  rw [h, keep_rvalue (m := AMap.noMarks) (fun _ => rfl) (by intro b cs; cases cs <;> rfl)] at h1
  exact h1.symm

theorem marks_expr {a b : Expr} (h : AMap.noPos.expr a = settleExpr b) : AMap.noMarks.expr a = AMap.noMarks.expr b := by
  have h1 := comp_expr AMap.noMarks AMap.noPos a
  rw [h, keep_expr (m := AMap.noMarks) (fun _ => rfl) (by intro b cs; cases cs <;> rfl)] at h1
  exact h1.symm

theorem marks_cond {a b : List Expr} (h : AMap.noPos.cond a = settleCond b) : AMap.noMarks.cond a = AMap.noMarks.cond b := by
  have h1 := comp_cond AMap.noMarks AMap.noPos a
  rw [h, keep_cond (m := AMap.noMarks) (fun _ => rfl) (by intro b cs; cases cs <;> rfl)] at h1
  exact h1.symm

theorem marks_bop {a b : BOP} (h : AMap.noPos.bop a = settleBop b) : AMap.noMarks.bop a = AMap.noMarks.bop (derefBop b) := by
  have h1 := comp_bop AMap.noMarks AMap.noPos a
  rw [h, keep_bop (m := AMap.noMarks) (fun _ => rfl) (by intro b cs; cases cs <;> rfl)] at h1
  exact h1.symm

variable (s : Settings) (k : Nat) (filename rest : Bytes) (ff : List FF)

/-! ### C75 -/

/-- **C75** The text of a plugin is read back with the entry point "plugin", whatever follows it. -/
theorem C75_plugin (p : Plugin) (he : s.entrypoint = b!"plugin") (hi : s.opts.ignoreComments = false) (hm : s.maxExprCnt = 0)
    (hv : ValidUTF8 (p.str ++ rest)) (hp : PluginOk true p) :
    ∃ p', (parseCall s k filename (p.str ++ rest) ff).1 = .returned (.done (.plugin p') []) ∧
      AMap.noMarks.plugin p' = AMap.noMarks.plugin p := by
  obtain ⟨t1, t2, t3⟩ := plugC_ok p 0 hp
  have hc := plugin_comment hp
  have ht : p.str = (mkGap [] 0 p.comment (indB 0)).text ++ (plugC 0 p).text := by
    rw [plugStr p hp, t1, mkGap_text, commentsStr_render]; simp [indB]
  have hg : (mkGap [] 0 p.comment (indB 0)).Ok := mkGap_ok rfl (indB_ws 0) fun c h => (hc c h).1
  rw [ht] at hv ⊢
  refine ⟨_, C63_value_complete s k filename _ rest ff _ hv hm (by rw [he]; exact .plugin hg t2) (by rw [he]; exact ⟨fun h => absurd h (by decide), fun h => absurd h (by decide), fun h => absurd h (by decide)⟩), ?_⟩
  apply marks_plugin
  rw [np_plugin, hi, t3, mkGap_block _ rfl hc, pluginComment_settle]

/-- **C75** The text of a plugin or a branch is read back with the entry point "branchOrPlugin", at the end of the text or of a
block. -/
theorem C75_branchOrPlugin (b : BOP) (he : s.entrypoint = b!"branchOrPlugin") (hi : s.opts.ignoreComments = false) (hm : s.maxExprCnt = 0)
    (hv : ValidUTF8 (b.str ++ rest)) (hb : BopOk true b) (hr : rest = [] ∨ ∃ r, rest = b!"}" ++ r) :
    ∃ b', (parseCall s k filename (b.str ++ rest) ff).1 = .returned (.done (itemVal b') []) ∧
      AMap.noMarks.bop b' = AMap.noMarks.bop (derefBop b) := by
  obtain ⟨t1, t2, t3, t4, -⟩ := itemC_ok b 0 [] rfl hb
  have ht : b.str = (itemC [] 0 b).text := by rw [bopStr b hb, t1]; rfl
  rw [ht] at hv ⊢
  refine ⟨_, C63_value_complete s k filename _ rest ff _ hv hm (by rw [he]; exact .branchOrPlugin t2 fun _ => t4) (by rw [he]; exact ⟨fun _ => hr, fun h => absurd h (by decide), fun h => absurd h (by decide)⟩), ?_⟩
  apply marks_bop
  rw [np_item, hi, t3]

/-- **C75** The text of a branch is read back with the entry point "branch", at the end of the text or of a block. -/
theorem C75_branch (p : Pos) (c : Condition) (b : List BOP) (cm f : CommentBlock) (ei : List Elif) (el : ElseB)
    (he : s.entrypoint = b!"branch") (hi : s.opts.ignoreComments = false) (hm : s.maxExprCnt = 0)
    (hv : ValidUTF8 ((BOP.branch p c b cm f ei el).str ++ rest)) (hb : BopOk true (.branch p c b cm f ei el))
    (hr : rest = [] ∨ ∃ r, rest = b!"}" ++ r) :
    ∃ b', (parseCall s k filename ((BOP.branch p c b cm f ei el).str ++ rest) ff).1 = .returned (.done (itemVal b') []) ∧
      AMap.noMarks.bop b' = AMap.noMarks.bop (derefBop (.branch p c b cm f ei el)) := by
  obtain ⟨t1, t2, t3, t4, -⟩ := itemC_ok _ 0 [] rfl hb
  have ht : (BOP.branch p c b cm f ei el).str = (itemC [] 0 (.branch p c b cm f ei el)).text := by rw [bopStr _ hb, t1]; rfl
  rw [ht] at hv ⊢
  rw [itemC] at t2 t3 t4 hv ⊢
  refine ⟨_, C63_value_complete s k filename _ rest ff _ hv hm (by rw [he]; exact .branch t2 fun _ => t4) (by rw [he]; exact ⟨fun _ => hr, fun h => absurd h (by decide), fun h => absurd h (by decide)⟩), ?_⟩
  apply marks_bop
  rw [np_item, hi, t3]

/-- **C75** The text of a value that is not a plugin — without the name and the comment of the attribute — is read back with the
entry point "value", at the end of the text or of a hash or plugin. -/
theorem C75_value (a : Attr) (he : s.entrypoint = b!"value") (hi : s.opts.ignoreComments = false) (hm : s.maxExprCnt = 0)
    (hv : ValidUTF8 (a.valueStr ++ rest)) (ha : ValueOk true a) (hp : a.isPlug = false) (hr : rest = [] ∨ ∃ r, rest = b!"}" ++ r) :
    ∃ a', (parseCall s k filename (a.valueStr ++ rest) ff).1 = .returned (.done (.attr a') []) ∧
      AMap.noMarks.attr a' = AMap.noMarks.attr (withComment [] (withName [] a)) := by
  obtain ⟨t1, t2, t3, t4⟩ := valC_ok a 0 ha
  have ht : a.valueStr = (valC 0 a).text := by rw [valStr a ha, t1]
  rw [ht] at hv ⊢
  refine ⟨_, C63_value_complete s k filename _ rest ff _ hv hm (by rw [he]; exact .value t2 (by rw [t3, hp])) (by rw [he]; exact ⟨fun _ => hr, fun h => absurd h (by decide), fun h => absurd h (by decide)⟩), ?_⟩
  apply marks_attr
  rw [np_val, hi, t4]
  cases a <;> rfl

/-- **C75** The text of an attribute, without its comment, is read back with the entry point "attribute". -/
theorem C75_attribute (a : Attr) (he : s.entrypoint = b!"attribute") (hi : s.opts.ignoreComments = false) (hm : s.maxExprCnt = 0)
    (hv : ValidUTF8 (a.string ++ rest)) (ha : ValueOk true a) (hn : NameOk a.name) (hr : rest = [] ∨ ∃ r, rest = b!"}" ++ r) :
    ∃ a', (parseCall s k filename (a.string ++ rest) ff).1 = .returned (.done (.attr a') []) ∧
      AMap.noMarks.attr a' = AMap.noMarks.attr (withComment [] a) := by
  obtain ⟨t1, t2, t3, t4⟩ := valC_ok a 0 ha
  obtain ⟨l1, l2⟩ := litOf_ok hn
  have ht : a.string = (litOf a.name).text ++ Gap.blank.text ++ b!"=>" ++ Gap.blank.text ++ (valC 0 a).text := by
    rw [Attr.string, valStr a ha, t1, l2]; simp [blank_text]
  rw [ht] at hv ⊢
  refine ⟨_, C63_value_complete s k filename _ rest ff _ hv hm (by rw [he]; exact .attr l1 blank_ok blank_ok t2) (by rw [he]; exact ⟨fun _ => hr, fun h => absurd h (by decide), fun h => absurd h (by decide)⟩), ?_⟩
  apply marks_attr
  rw [np_name, np_val, hi, t4, l2]
  cases a <;> rfl

/-- **C75** The text of an entry of a hash, with its comment, is read back with the entry point "hashentry". -/
theorem C75_hashentry (e : HEntry) (he : s.entrypoint = b!"hashentry") (hi : s.opts.ignoreComments = false) (hm : s.maxExprCnt = 0)
    (hv : ValidUTF8 (e.string ++ rest)) (h : EntriesOk true [e]) (hr : rest = [] ∨ ∃ r, rest = b!"}" ++ r) :
    ∃ e', (parseCall s k filename (e.string ++ rest) ff).1 = .returned (.done (.hentry e') []) ∧
      AMap.noMarks.hentry e' = AMap.noMarks.hentry e := by
  obtain ⟨p, key, v, c⟩ := e
  rw [EntriesOk] at h
  obtain ⟨h1, h2, h3, h4, h5, h6, -⟩ := h
  obtain ⟨k1, k2, k3⟩ := key_ok h1
  obtain ⟨t1, t2, t3, t4⟩ := valC_ok v 0 h2
  have hg : (mkGap [] 0 c (indB 0)).Ok := mkGap_ok rfl (indB_ws 0) fun x hx => (h6 x hx).1
  have ht : (HEntry.mk p key v c).string =
      (mkGap [] 0 c (indB 0)).text ++ (keyC key).text ++ Gap.blank.text ++ b!"=>" ++ Gap.blank.text ++ (valC 0 v).text := by
    rw [HEntry.string, valStr v h2, t1, k1, mkGap_text, commentsStr_render]; simp [blank_text, indB]
  rw [ht] at hv ⊢
  refine ⟨_, C63_value_complete s k filename _ rest ff _ hv hm (by rw [he]; exact .hashentry hg k2 blank_ok blank_ok t2 (by rw [t3, h3])) (by rw [he]; exact ⟨fun _ => hr, fun h => absurd h (by decide), fun h => absurd h (by decide)⟩), ?_⟩
  have hs : ∀ b cs, AMap.noMarks.com (markFirst b cs) = AMap.noMarks.com cs := by intro b cs; cases cs <;> rfl
  have hv2 : withComment [] (withName [] (settleVal v)) = settleVal v :=
    bare_self ((settleVal_name v).1.trans h4) ((settleVal_name v).2.trans h5)
  rw [AMap.hentry, AMap.hentry, hi]
  congr 1
  · rw [← keepMap_hkey (m := AMap.noMarks) (fun _ => rfl) key, ← k3, ← np_key (posAt ((mkGap [] 0 c (indB 0)).text ++ (keyC key).text ++ Gap.blank.text ++ b!"=>" ++ Gap.blank.text ++ (valC 0 v).text ++ rest))]
    exact (comp_hkey AMap.noMarks AMap.noPos _).symm
  · apply marks_attr
    rw [np_val, t4, hv2]
  · rw [mkGap_block true rfl h6, hs]

/-- **C75** The text of an array is read back with the entry point "array", whatever follows it. -/
theorem C75_array (p : Pos) (n : Bytes) (as : List Attr) (c f : CommentBlock) (he : s.entrypoint = b!"array") (hi : s.opts.ignoreComments = false)
    (hm : s.maxExprCnt = 0) (hv : ValidUTF8 ((Attr.arr p n as c f).valueStr ++ rest)) (ha : ValueOk true (.arr p n as c f)) :
    ∃ a', (parseCall s k filename ((Attr.arr p n as c f).valueStr ++ rest) ff).1 = .returned (.done (.attr a') []) ∧
      AMap.noMarks.attr a' = AMap.noMarks.attr (.arr p [] as [] f) := by
  obtain ⟨t1, t2, t3, t4⟩ := valC_ok _ 0 ha
  have ht : (Attr.arr p n as c f).valueStr = (valC 0 (.arr p n as c f)).text := by rw [valStr _ ha, t1]
  rw [ht] at hv ⊢
  rw [valC] at t2 t4 hv ⊢
  refine ⟨_, C63_value_complete s k filename _ rest ff _ hv hm (by rw [he]; exact .array t2) (by rw [he]; exact ⟨fun h => absurd h (by decide), fun h => absurd h (by decide), fun h => absurd h (by decide)⟩), ?_⟩
  apply marks_attr
  rw [np_val, hi, t4]; rfl

/-- **C75** The text of a hash is read back with the entry point "hash", whatever follows it. -/
theorem C75_hash (p : Pos) (n : Bytes) (es : List HEntry) (c f : CommentBlock) (he : s.entrypoint = b!"hash") (hi : s.opts.ignoreComments = false)
    (hm : s.maxExprCnt = 0) (hv : ValidUTF8 ((Attr.hash p n es c f).valueStr ++ rest)) (ha : ValueOk true (.hash p n es c f)) :
    ∃ a', (parseCall s k filename ((Attr.hash p n es c f).valueStr ++ rest) ff).1 = .returned (.done (.attr a') []) ∧
      AMap.noMarks.attr a' = AMap.noMarks.attr (.hash p [] es [] f) := by
  obtain ⟨t1, t2, t3, t4⟩ := valC_ok _ 0 ha
  have ht : (Attr.hash p n es c f).valueStr = (valC 0 (.hash p n es c f)).text := by rw [valStr _ ha, t1]
  rw [ht] at hv ⊢
  rw [valC] at t2 t4 hv ⊢
  refine ⟨_, C63_value_complete s k filename _ rest ff _ hv hm (by rw [he]; exact .hash t2) (by rw [he]; exact ⟨fun h => absurd h (by decide), fun h => absurd h (by decide), fun h => absurd h (by decide)⟩), ?_⟩
  apply marks_attr
  rw [np_val, hi, t4]; rfl

/-- **C75** The text of an operand of a condition is read back with the entry point "rvalue". -/
theorem C75_rvalue (r : Rvalue) (he : s.entrypoint = b!"rvalue") (hi : s.opts.ignoreComments = false) (hm : s.maxExprCnt = 0)
    (hv : ValidUTF8 (r.valueStr ++ rest)) (h : RvalueOk true r) (hr : rest = [] ∨ ∃ t, rest = b!"{" ++ t ∨ rest = b!")" ++ t) :
    ∃ r', (parseCall s k filename (r.valueStr ++ rest) ff).1 = .returned (.done (rvalVal r') []) ∧
      AMap.noMarks.rvalue r' = AMap.noMarks.rvalue r := by
  obtain ⟨t1, t2, t3, -⟩ := rvalC_ok 0 h
  have ht : r.valueStr = (rvalC 0 r).text := by rw [(rvalStr h).1, t1]
  rw [ht] at hv ⊢
  refine ⟨_, C63_value_complete s k filename _ rest ff _ hv hm (by rw [he]; exact .rvalue t2) (by rw [he]; exact ⟨fun h => absurd h (by decide), fun _ => hr, fun h => absurd h (by decide)⟩), ?_⟩
  apply marks_rvalue
  rw [np_rval, hi, t3]

/-- **C75** The text of a condition is read back with the entry point "condition". -/
theorem C75_condition (c : Condition) (he : s.entrypoint = b!"condition") (hi : s.opts.ignoreComments = false) (hm : s.maxExprCnt = 0)
    (hv : ValidUTF8 (condStr c ++ rest)) (h : Spec.CondOk true true c) (hr : rest = [] ∨ ∃ t, rest = b!"{" ++ t ∨ rest = b!")" ++ t) :
    ∃ c', (parseCall s k filename (condStr c ++ rest) ff).1 = .returned (.done (.cond c') []) ∧
      AMap.noMarks.cond c' = AMap.noMarks.cond c := by
  obtain ⟨t1, t2, t3⟩ := condC_ok c 0 h
  have ht : condStr c = (condC 0 c).text := by rw [condStr_render c true h, t1]
  rw [ht] at hv ⊢
  refine ⟨_, C63_value_complete s k filename _ rest ff _ hv hm (by rw [he]; exact .condition t2) (by rw [he]; exact ⟨fun h => absurd h (by decide), fun _ => hr, fun h => absurd h (by decide)⟩), ?_⟩
  apply marks_cond
  rw [np_cond, hi, t3]

/-- The entry points for an expression. -/
def exprEntries : Expr → List Bytes
  | .negCond _ _ _ => [b!"expression", b!"negativeExpression"]
  | .negSel _ _ _ => [b!"expression", b!"negativeExpression"]
  | .inE _ _ _ _ => [b!"expression", b!"inExpression"]
  | .notIn _ _ _ _ => [b!"expression", b!"notInExpression"]
  | .cmp _ _ _ _ _ => [b!"expression", b!"compareExpression"]
  | .re _ _ _ _ _ => [b!"expression", b!"regexpExpression"]
  | _ => [b!"expression"]

/-- **C75** The text of an expression that no boolean operator joins to another is read back with the entry point "expression" and
with that for its kind. -/
theorem C75_expression (e : Expr) (he : s.entrypoint ∈ exprEntries e) (hi : s.opts.ignoreComments = false) (hm : s.maxExprCnt = 0)
    (hv : ValidUTF8 (e.str ++ rest)) (h : ExprOk true true e) (hr : rest = [] ∨ ∃ t, rest = b!"{" ++ t ∨ rest = b!")" ++ t) :
    ∃ e', (parseCall s k filename (e.str ++ rest) ff).1 = .returned (.done (.expr e') []) ∧
      AMap.noMarks.expr e' = AMap.noMarks.expr e := by
  obtain ⟨t1, t2, t3, t4⟩ := exprC_ok e 0 true h
  have hop : (exprBool e).op.op = .noOp := by simpa [JoinOk] using t4
  have ht : e.str = (exprC 0 e).text := by rw [exprStr e true h, t1]; simp [opP, hop, render_empty]
  rw [ht] at hv ⊢
  have hy : Yields true s.opts.ignoreComments (posAt ((exprC 0 e).text ++ rest)) s.entrypoint (exprC 0 e).text
      (.expr ((exprC 0 e).astAt s.opts.ignoreComments (posAt ((exprC 0 e).text ++ rest)) 0 unjoined)) := by
    generalize posAt ((exprC 0 e).text ++ rest) = pos
    revert t2 he
    generalize s.entrypoint = nm
    intro he t2
    have h0 : nm = b!"expression" → Yields true s.opts.ignoreComments pos nm (exprC 0 e).text
      (.expr ((exprC 0 e).astAt s.opts.ignoreComments pos 0 unjoined)) := by rintro rfl; exact .expression t2
    cases e with
    | nil => exact h0 (by simpa [exprEntries] using he)
    | cond => exact h0 (by simpa [exprEntries] using he)
    | rval => exact h0 (by simpa [exprEntries] using he)
    | negCond =>
      simp only [exprEntries, List.mem_cons, List.not_mem_nil, or_false] at he
      rcases he with he | rfl
      · exact h0 he
      · rw [exprC] at t2 ⊢; exact .notParen t2
    | negSel =>
      simp only [exprEntries, List.mem_cons, List.not_mem_nil, or_false] at he
      rcases he with he | rfl
      · exact h0 he
      · rw [exprC] at t2 ⊢; exact .notSel t2
    | inE =>
      simp only [exprEntries, List.mem_cons, List.not_mem_nil, or_false] at he
      rcases he with he | rfl
      · exact h0 he
      · rw [exprC] at t2 ⊢; exact .inE t2
    | notIn =>
      simp only [exprEntries, List.mem_cons, List.not_mem_nil, or_false] at he
      rcases he with he | rfl
      · exact h0 he
      · rw [exprC] at t2 ⊢; exact .notIn t2
    | cmp =>
      simp only [exprEntries, List.mem_cons, List.not_mem_nil, or_false] at he
      rcases he with he | rfl
      · exact h0 he
      · rw [exprC] at t2 ⊢; exact .cmp t2
    | re =>
      simp only [exprEntries, List.mem_cons, List.not_mem_nil, or_false] at he
      rcases he with he | rfl
      · exact h0 he
      · rw [exprC] at t2 ⊢; exact .re t2
  refine ⟨_, C63_value_complete s k filename _ rest ff _ hv hm hy ⟨fun h => ?_, fun _ => hr, fun h => ?_⟩, ?_⟩
  · revert he h
    generalize s.entrypoint = nm
    intro he h
    cases e <;> simp only [exprEntries, List.mem_cons, List.not_mem_nil, or_false] at he <;>
      first
      | (subst he; exact absurd h (by decide))
      | (rcases he with rfl | rfl <;> exact absurd h (by decide))
  · revert he h
    generalize s.entrypoint = nm
    intro he h
    subst h
    cases e <;> exact absurd he (by simp [exprEntries])
  apply marks_expr
  rw [np_expr, hi, ← t3, hop]
  rfl

/-- **C75** fails for else-if and else blocks: their text begins with the blank or the line break that separates them from the
block before, which the entry points "elseIf" and "elseCond" do not accept. -/
theorem C75_violated_else (data : Bytes) (v : Val) (he : s.entrypoint = b!"elseIf" ∨ s.entrypoint = b!"elseCond")
    (hd : (∃ e : Elif, data = e.str) ∨ ∃ e : ElseB, data = e.str) (hv : ValidUTF8 data) :
    (parseCall s k filename data ff).1 ≠ .returned (.done v []) := by
  intro h
  have h0 : data.head? ≠ some 101 := by
    rcases hd with ⟨⟨p, c, b, cm, f⟩, rfl⟩ | ⟨⟨p, b, cm, f⟩, rfl⟩
    · rw [Elif.str]; split <;> simp
    · rw [ElseB.str]
      split
      · simp
      · split <;> simp
  obtain ⟨t, rest, rfl, h2⟩ := C63_value s k filename data ff v hv (by rcases he with he | he <;> rw [he] <;> decide)
    (by rcases he with he | he <;> rw [he] <;> decide) h
  apply h0
  revert h2 he
  generalize s.entrypoint = nm
  rintro (rfl | rfl) h2
  · cases h2; simp
  · cases h2; simp

/-! ### Whatever the option for comments

With comments ignored, a part of a configuration is read back without its comments; so whatever the option, the result is the part up
to positions and comments. -/

theorem skel_attr {ign : Bool} {a b : Attr} {v : CVal} (h : AMap.noPos.attr a = v.ast ign) (t : v.ast false = settleVal b) :
    AMap.skeleton.attr a = AMap.skeleton.attr b := by
  have h1 := comp_attr AMap.skeleton AMap.noPos a
  have h2 := val_skel false v
  rw [t, keep_attr (m := AMap.skeleton) (fun _ => rfl) (by intro b cs; cases cs <;> rfl)] at h2
  rw [h, val_skel] at h1
  rw [h2, h1]; rfl

theorem skel_plugin {ign : Bool} {a b : Plugin} {v : CPlugin} {c d : CommentBlock} (h : AMap.noPos.plugin a = v.ast ign c)
    (t : v.ast false d = settlePlugin b) : AMap.skeleton.plugin a = AMap.skeleton.plugin b := by
  have h1 := comp_plugin AMap.skeleton AMap.noPos a
  have h2 := plugin_skel false d v
  rw [t, keep_plugin (m := AMap.skeleton) (fun _ => rfl) (by intro b cs; cases cs <;> rfl)] at h2
  rw [h, plugin_skel] at h1
  rw [h2, h1]; rfl

theorem skel_bop {ign : Bool} {a b : BOP} {v : CItem} (h : AMap.noPos.bop a = v.ast ign) (t : v.ast false = settleBop b) :
    AMap.skeleton.bop a = AMap.skeleton.bop (derefBop b) := by
  have h1 := comp_bop AMap.skeleton AMap.noPos a
  have h2 := item_skel false v
  rw [t, keep_bop (m := AMap.skeleton) (fun _ => rfl) (by intro b cs; cases cs <;> rfl)] at h2
  rw [h, item_skel] at h1
  rw [h2, h1]; rfl

theorem skel_rvalue {ign : Bool} {a b : Rvalue} {v : CRval} (h : AMap.noPos.rvalue a = v.ast ign) (t : v.ast false = settleRvalue b) :
    AMap.skeleton.rvalue a = AMap.skeleton.rvalue b := by
  have h1 := comp_rvalue AMap.skeleton AMap.noPos a
  have h2 := rval_skel false v
  rw [t, keep_rvalue (m := AMap.skeleton) (fun _ => rfl) (by intro b cs; cases cs <;> rfl)] at h2
  rw [h, rval_skel] at h1
  rw [h2, h1]; rfl

theorem skel_cond {ign : Bool} {a b : List Expr} {v : CCond} (h : AMap.noPos.cond a = v.ast ign) (t : v.ast false = settleCond b) :
    AMap.skeleton.cond a = AMap.skeleton.cond b := by
  have h1 := comp_cond AMap.skeleton AMap.noPos a
  have h2 := cond_skel false v
  rw [t, keep_cond (m := AMap.skeleton) (fun _ => rfl) (by intro b cs; cases cs <;> rfl)] at h2
  rw [h, cond_skel] at h1
  rw [h2, h1]; rfl

/-- **C75** A plugin, whatever the option for comments. -/
theorem C75_plugin_any (p : Plugin) (he : s.entrypoint = b!"plugin") (hm : s.maxExprCnt = 0)
    (hv : ValidUTF8 (p.str ++ rest)) (hp : PluginOk true p) :
    ∃ p', (parseCall s k filename (p.str ++ rest) ff).1 = .returned (.done (.plugin p') []) ∧
      AMap.skeleton.plugin p' = AMap.skeleton.plugin p := by
  obtain ⟨t1, t2, t3⟩ := plugC_ok p 0 hp
  have hc := plugin_comment hp
  have ht : p.str = (mkGap [] 0 p.comment (indB 0)).text ++ (plugC 0 p).text := by
    rw [plugStr p hp, t1, mkGap_text, commentsStr_render]; simp [indB]
  have hg : (mkGap [] 0 p.comment (indB 0)).Ok := mkGap_ok rfl (indB_ws 0) fun c h => (hc c h).1
  rw [ht] at hv ⊢
  refine ⟨_, C63_value_complete s k filename _ rest ff _ hv hm (by rw [he]; exact .plugin hg t2) (by rw [he]; exact ⟨fun h => absurd h (by decide), fun h => absurd h (by decide), fun h => absurd h (by decide)⟩), ?_⟩
  exact skel_plugin (np_plugin ..) ((t3 _).trans (pluginComment_settle _))

/-- **C75** A plugin or a branch, whatever the option for comments. -/
theorem C75_branchOrPlugin_any (b : BOP) (he : s.entrypoint = b!"branchOrPlugin") (hm : s.maxExprCnt = 0)
    (hv : ValidUTF8 (b.str ++ rest)) (hb : BopOk true b) (hr : rest = [] ∨ ∃ r, rest = b!"}" ++ r) :
    ∃ b', (parseCall s k filename (b.str ++ rest) ff).1 = .returned (.done (itemVal b') []) ∧
      AMap.skeleton.bop b' = AMap.skeleton.bop (derefBop b) := by
  obtain ⟨t1, t2, t3, t4, -⟩ := itemC_ok b 0 [] rfl hb
  have ht : b.str = (itemC [] 0 b).text := by rw [bopStr b hb, t1]; rfl
  rw [ht] at hv ⊢
  refine ⟨_, C63_value_complete s k filename _ rest ff _ hv hm (by rw [he]; exact .branchOrPlugin t2 fun _ => t4) (by rw [he]; exact ⟨fun _ => hr, fun h => absurd h (by decide), fun h => absurd h (by decide)⟩), ?_⟩
  exact skel_bop (np_item ..) t3

/-- **C75** A value, whatever the option for comments. -/
theorem C75_value_any (a : Attr) (he : s.entrypoint = b!"value") (hm : s.maxExprCnt = 0)
    (hv : ValidUTF8 (a.valueStr ++ rest)) (ha : ValueOk true a) (hp : a.isPlug = false) (hr : rest = [] ∨ ∃ r, rest = b!"}" ++ r) :
    ∃ a', (parseCall s k filename (a.valueStr ++ rest) ff).1 = .returned (.done (.attr a') []) ∧
      AMap.skeleton.attr a' = AMap.skeleton.attr (withComment [] (withName [] a)) := by
  obtain ⟨t1, t2, t3, t4⟩ := valC_ok a 0 ha
  have ht : a.valueStr = (valC 0 a).text := by rw [valStr a ha, t1]
  rw [ht] at hv ⊢
  refine ⟨_, C63_value_complete s k filename _ rest ff _ hv hm (by rw [he]; exact .value t2 (by rw [t3, hp])) (by rw [he]; exact ⟨fun _ => hr, fun h => absurd h (by decide), fun h => absurd h (by decide)⟩), ?_⟩
  exact skel_attr (np_val ..) (t4.trans (by cases a <;> rfl))

/-- **C75** An operand of a condition, whatever the option for comments. -/
theorem C75_rvalue_any (r : Rvalue) (he : s.entrypoint = b!"rvalue") (hm : s.maxExprCnt = 0)
    (hv : ValidUTF8 (r.valueStr ++ rest)) (h : RvalueOk true r) (hr : rest = [] ∨ ∃ t, rest = b!"{" ++ t ∨ rest = b!")" ++ t) :
    ∃ r', (parseCall s k filename (r.valueStr ++ rest) ff).1 = .returned (.done (rvalVal r') []) ∧
      AMap.skeleton.rvalue r' = AMap.skeleton.rvalue r := by
  obtain ⟨t1, t2, t3, -⟩ := rvalC_ok 0 h
  have ht : r.valueStr = (rvalC 0 r).text := by rw [(rvalStr h).1, t1]
  rw [ht] at hv ⊢
  refine ⟨_, C63_value_complete s k filename _ rest ff _ hv hm (by rw [he]; exact .rvalue t2) (by rw [he]; exact ⟨fun h => absurd h (by decide), fun _ => hr, fun h => absurd h (by decide)⟩), ?_⟩
  exact skel_rvalue (np_rval ..) t3

/-- **C75** A condition, whatever the option for comments. -/
theorem C75_condition_any (c : Condition) (he : s.entrypoint = b!"condition") (hm : s.maxExprCnt = 0)
    (hv : ValidUTF8 (condStr c ++ rest)) (h : Spec.CondOk true true c) (hr : rest = [] ∨ ∃ t, rest = b!"{" ++ t ∨ rest = b!")" ++ t) :
    ∃ c', (parseCall s k filename (condStr c ++ rest) ff).1 = .returned (.done (.cond c') []) ∧
      AMap.skeleton.cond c' = AMap.skeleton.cond c := by
  obtain ⟨t1, t2, t3⟩ := condC_ok c 0 h
  have ht : condStr c = (condC 0 c).text := by rw [condStr_render c true h, t1]
  rw [ht] at hv ⊢
  refine ⟨_, C63_value_complete s k filename _ rest ff _ hv hm (by rw [he]; exact .condition t2) (by rw [he]; exact ⟨fun h => absurd h (by decide), fun _ => hr, fun h => absurd h (by decide)⟩), ?_⟩
  exact skel_cond (np_cond ..) t3

theorem skel_expr {ign : Bool} {a b : Expr} {v : CExpr} {op : BoolOpKind} (h : AMap.noPos.expr a = v.ast ign op) (t : v.ast false op = settleExpr b) :
    AMap.skeleton.expr a = AMap.skeleton.expr b := by
  have h1 := comp_expr AMap.skeleton AMap.noPos a
  have h2 := expr_skel false op v
  rw [t, keep_expr (m := AMap.skeleton) (fun _ => rfl) (by intro b cs; cases cs <;> rfl)] at h2
  rw [h, expr_skel] at h1
  rw [h2, h1]; rfl

/-- **C75** A branch, whatever the option for comments. -/
theorem C75_branch_any (p : Pos) (c : Condition) (b : List BOP) (cm f : CommentBlock) (ei : List Elif) (el : ElseB)
    (he : s.entrypoint = b!"branch") (hm : s.maxExprCnt = 0)
    (hv : ValidUTF8 ((BOP.branch p c b cm f ei el).str ++ rest)) (hb : BopOk true (.branch p c b cm f ei el))
    (hr : rest = [] ∨ ∃ r, rest = b!"}" ++ r) :
    ∃ b', (parseCall s k filename ((BOP.branch p c b cm f ei el).str ++ rest) ff).1 = .returned (.done (itemVal b') []) ∧
      AMap.skeleton.bop b' = AMap.skeleton.bop (derefBop (.branch p c b cm f ei el)) := by
  obtain ⟨t1, t2, t3, t4, -⟩ := itemC_ok _ 0 [] rfl hb
  have ht : (BOP.branch p c b cm f ei el).str = (itemC [] 0 (.branch p c b cm f ei el)).text := by rw [bopStr _ hb, t1]; rfl
  rw [ht] at hv ⊢
  rw [itemC] at t2 t3 t4 hv ⊢
  refine ⟨_, C63_value_complete s k filename _ rest ff _ hv hm (by rw [he]; exact .branch t2 fun _ => t4) (by rw [he]; exact ⟨fun _ => hr, fun h => absurd h (by decide), fun h => absurd h (by decide)⟩), ?_⟩
  exact skel_bop (np_item ..) t3

/-- **C75** An attribute, whatever the option for comments. -/
theorem C75_attribute_any (a : Attr) (he : s.entrypoint = b!"attribute") (hm : s.maxExprCnt = 0)
    (hv : ValidUTF8 (a.string ++ rest)) (ha : ValueOk true a) (hn : NameOk a.name) (hr : rest = [] ∨ ∃ r, rest = b!"}" ++ r) :
    ∃ a', (parseCall s k filename (a.string ++ rest) ff).1 = .returned (.done (.attr a') []) ∧
      AMap.skeleton.attr a' = AMap.skeleton.attr (withComment [] a) := by
  obtain ⟨t1, t2, t3, t4⟩ := valC_ok a 0 ha
  obtain ⟨l1, l2⟩ := litOf_ok hn
  have ht : a.string = (litOf a.name).text ++ Gap.blank.text ++ b!"=>" ++ Gap.blank.text ++ (valC 0 a).text := by
    rw [Attr.string, valStr a ha, t1, l2]; simp [blank_text]
  rw [ht] at hv ⊢
  refine ⟨_, C63_value_complete s k filename _ rest ff _ hv hm (by rw [he]; exact .attr l1 blank_ok blank_ok t2) (by rw [he]; exact ⟨fun _ => hr, fun h => absurd h (by decide), fun h => absurd h (by decide)⟩), ?_⟩
  refine (comp_attr AMap.skeleton AMap.noPos _).symm.trans ?_
  rw [np_name, np_val, l2, skel_withName, val_skel, ← val_skel false, t4, ← skel_withName,
    show withName a.name (withComment [] (withName [] (settleVal a))) = settleVal (withComment [] a) from by cases a <;> rfl,
    keep_attr (m := AMap.skeleton) (fun _ => rfl) (by intro b cs; cases cs <;> rfl)]

/-- **C75** An entry of a hash, whatever the option for comments. -/
theorem C75_hashentry_any (e : HEntry) (he : s.entrypoint = b!"hashentry") (hm : s.maxExprCnt = 0)
    (hv : ValidUTF8 (e.string ++ rest)) (h : EntriesOk true [e]) (hr : rest = [] ∨ ∃ r, rest = b!"}" ++ r) :
    ∃ e', (parseCall s k filename (e.string ++ rest) ff).1 = .returned (.done (.hentry e') []) ∧
      AMap.skeleton.hentry e' = AMap.skeleton.hentry e := by
  obtain ⟨p, key, v, c⟩ := e
  rw [EntriesOk] at h
  obtain ⟨h1, h2, h3, h4, h5, h6, -⟩ := h
  obtain ⟨k1, k2, k3⟩ := key_ok h1
  obtain ⟨t1, t2, t3, t4⟩ := valC_ok v 0 h2
  have hg : (mkGap [] 0 c (indB 0)).Ok := mkGap_ok rfl (indB_ws 0) fun x hx => (h6 x hx).1
  have ht : (HEntry.mk p key v c).string =
      (mkGap [] 0 c (indB 0)).text ++ (keyC key).text ++ Gap.blank.text ++ b!"=>" ++ Gap.blank.text ++ (valC 0 v).text := by
    rw [HEntry.string, valStr v h2, t1, k1, mkGap_text, commentsStr_render]; simp [blank_text, indB]
  rw [ht] at hv ⊢
  refine ⟨_, C63_value_complete s k filename _ rest ff _ hv hm (by rw [he]; exact .hashentry hg k2 blank_ok blank_ok t2 (by rw [t3, h3])) (by rw [he]; exact ⟨fun _ => hr, fun h => absurd h (by decide), fun h => absurd h (by decide)⟩), ?_⟩
  have hv2 : withComment [] (withName [] (settleVal v)) = settleVal v :=
    bare_self ((settleVal_name v).1.trans h4) ((settleVal_name v).2.trans h5)
  rw [AMap.hentry, AMap.hentry]
  congr 1
  · rw [← keepMap_hkey (m := AMap.skeleton) (fun _ => rfl) key, ← k3, ← np_key (posAt ((mkGap [] 0 c (indB 0)).text ++ (keyC key).text ++ Gap.blank.text ++ b!"=>" ++ Gap.blank.text ++ (valC 0 v).text ++ rest))]
    exact (comp_hkey AMap.skeleton AMap.noPos _).symm
  · exact skel_attr (np_val ..) (t4.trans hv2)

/-- **C75** An array, whatever the option for comments. -/
theorem C75_array_any (p : Pos) (n : Bytes) (as : List Attr) (c f : CommentBlock) (he : s.entrypoint = b!"array")
    (hm : s.maxExprCnt = 0) (hv : ValidUTF8 ((Attr.arr p n as c f).valueStr ++ rest)) (ha : ValueOk true (.arr p n as c f)) :
    ∃ a', (parseCall s k filename ((Attr.arr p n as c f).valueStr ++ rest) ff).1 = .returned (.done (.attr a') []) ∧
      AMap.skeleton.attr a' = AMap.skeleton.attr (.arr p [] as [] f) := by
  obtain ⟨t1, t2, t3, t4⟩ := valC_ok _ 0 ha
  have ht : (Attr.arr p n as c f).valueStr = (valC 0 (.arr p n as c f)).text := by rw [valStr _ ha, t1]
  rw [ht] at hv ⊢
  rw [valC] at t2 t4 hv ⊢
  refine ⟨_, C63_value_complete s k filename _ rest ff _ hv hm (by rw [he]; exact .array t2) (by rw [he]; exact ⟨fun h => absurd h (by decide), fun h => absurd h (by decide), fun h => absurd h (by decide)⟩), ?_⟩
  exact skel_attr (np_val ..) t4

/-- **C75** A hash, whatever the option for comments. -/
theorem C75_hash_any (p : Pos) (n : Bytes) (es : List HEntry) (c f : CommentBlock) (he : s.entrypoint = b!"hash")
    (hm : s.maxExprCnt = 0) (hv : ValidUTF8 ((Attr.hash p n es c f).valueStr ++ rest)) (ha : ValueOk true (.hash p n es c f)) :
    ∃ a', (parseCall s k filename ((Attr.hash p n es c f).valueStr ++ rest) ff).1 = .returned (.done (.attr a') []) ∧
      AMap.skeleton.attr a' = AMap.skeleton.attr (.hash p [] es [] f) := by
  obtain ⟨t1, t2, t3, t4⟩ := valC_ok _ 0 ha
  have ht : (Attr.hash p n es c f).valueStr = (valC 0 (.hash p n es c f)).text := by rw [valStr _ ha, t1]
  rw [ht] at hv ⊢
  rw [valC] at t2 t4 hv ⊢
  refine ⟨_, C63_value_complete s k filename _ rest ff _ hv hm (by rw [he]; exact .hash t2) (by rw [he]; exact ⟨fun h => absurd h (by decide), fun h => absurd h (by decide), fun h => absurd h (by decide)⟩), ?_⟩
  exact skel_attr (np_val ..) t4

/-- **C75** An expression that no boolean operator joins to another, whatever the option for comments. -/
theorem C75_expression_any (e : Expr) (he : s.entrypoint ∈ exprEntries e) (hm : s.maxExprCnt = 0)
    (hv : ValidUTF8 (e.str ++ rest)) (h : ExprOk true true e) (hr : rest = [] ∨ ∃ t, rest = b!"{" ++ t ∨ rest = b!")" ++ t) :
    ∃ e', (parseCall s k filename (e.str ++ rest) ff).1 = .returned (.done (.expr e') []) ∧
      AMap.skeleton.expr e' = AMap.skeleton.expr e := by
  obtain ⟨t1, t2, t3, t4⟩ := exprC_ok e 0 true h
  have hop : (exprBool e).op.op = .noOp := by simpa [JoinOk] using t4
  have ht : e.str = (exprC 0 e).text := by rw [exprStr e true h, t1]; simp [opP, hop, render_empty]
  rw [ht] at hv ⊢
  have hy : Yields true s.opts.ignoreComments (posAt ((exprC 0 e).text ++ rest)) s.entrypoint (exprC 0 e).text
      (.expr ((exprC 0 e).astAt s.opts.ignoreComments (posAt ((exprC 0 e).text ++ rest)) 0 unjoined)) := by
    generalize posAt ((exprC 0 e).text ++ rest) = pos
    revert t2 he
    generalize s.entrypoint = nm
    intro he t2
    have h0 : nm = b!"expression" → Yields true s.opts.ignoreComments pos nm (exprC 0 e).text
      (.expr ((exprC 0 e).astAt s.opts.ignoreComments pos 0 unjoined)) := by rintro rfl; exact .expression t2
    cases e with
    | nil => exact h0 (by simpa [exprEntries] using he)
    | cond => exact h0 (by simpa [exprEntries] using he)
    | rval => exact h0 (by simpa [exprEntries] using he)
    | negCond =>
      simp only [exprEntries, List.mem_cons, List.not_mem_nil, or_false] at he
      rcases he with he | rfl
      · exact h0 he
      · rw [exprC] at t2 ⊢; exact .notParen t2
    | negSel =>
      simp only [exprEntries, List.mem_cons, List.not_mem_nil, or_false] at he
      rcases he with he | rfl
      · exact h0 he
      · rw [exprC] at t2 ⊢; exact .notSel t2
    | inE =>
      simp only [exprEntries, List.mem_cons, List.not_mem_nil, or_false] at he
      rcases he with he | rfl
      · exact h0 he
      · rw [exprC] at t2 ⊢; exact .inE t2
    | notIn =>
      simp only [exprEntries, List.mem_cons, List.not_mem_nil, or_false] at he
      rcases he with he | rfl
      · exact h0 he
      · rw [exprC] at t2 ⊢; exact .notIn t2
    | cmp =>
      simp only [exprEntries, List.mem_cons, List.not_mem_nil, or_false] at he
      rcases he with he | rfl
      · exact h0 he
      · rw [exprC] at t2 ⊢; exact .cmp t2
    | re =>
      simp only [exprEntries, List.mem_cons, List.not_mem_nil, or_false] at he
      rcases he with he | rfl
      · exact h0 he
      · rw [exprC] at t2 ⊢; exact .re t2
  refine ⟨_, C63_value_complete s k filename _ rest ff _ hv hm hy ⟨fun h => ?_, fun _ => hr, fun h => ?_⟩, ?_⟩
  · revert he h
    generalize s.entrypoint = nm
    intro he h
    cases e <;> simp only [exprEntries, List.mem_cons, List.not_mem_nil, or_false] at he <;>
      first
      | (subst he; exact absurd h (by decide))
      | (rcases he with rfl | rfl <;> exact absurd h (by decide))
  · revert he h
    generalize s.entrypoint = nm
    intro he h
    subst h
    cases e <;> exact absurd he (by simp [exprEntries])
  apply skel_expr (op := .noOp) (np_expr ..)
  rw [← t3, hop]

/-- The parts of the example of C16 meet the hypotheses: the branch, its condition, the plugin in it, and its attributes. -/
example : ∃ p c m as mc mf cm f ei el, (formatSample.filter.flatMap (·.bops)) = [.branch p c [.plugin (.mk m b!"mutate" as mc mf)] cm f ei el] ∧
    BopOk true (.branch p c [.plugin (.mk m b!"mutate" as mc mf)] cm f ei el) ∧ Spec.CondOk true true c ∧ c.length = 2 ∧
    PluginOk true (.mk m b!"mutate" as mc mf) ∧ as.length = 3 ∧ (∀ a ∈ as, ValueOk true a ∧ NameOk a.name ∧ a.isPlug = false) ∧
    ValidUTF8 (BOP.branch p c [.plugin (.mk m b!"mutate" as mc mf)] cm f ei el).str := by
  have h := (formatSample_printable.2.1 _ (by simp [formatSample]; rfl)).2.1
  simp only [BlockOk] at h
  have hb := h.1
  have h := hb
  simp only [BopOk, BlockOk] at h
  have hp := h.2.1.1.1
  refine ⟨_, _, _, _, _, _, _, _, _, _, rfl, hb, h.1, rfl, hp, rfl, ?_, validUTF8_ascii (by decide +kernel)⟩
  simp only [PluginOk, AttrsOk] at hp
  simp only [List.forall_mem_cons]
  exact ⟨⟨hp.2.1.1, hp.2.1.2.1, rfl⟩, ⟨hp.2.1.2.2.2.1, hp.2.1.2.2.2.2.1, rfl⟩, ⟨hp.2.1.2.2.2.2.2.2.1, hp.2.1.2.2.2.2.2.2.2.1, rfl⟩, nofun⟩

/-- An expression, its text, and what two entry points make of it. -/
example : let e : Expr := .inE Pos.zero unjoined (.str ⟨Pos.zero, [], b!"a b", .doubleQuoted, []⟩) (.sel ⟨Pos.zero, [⟨Pos.zero, b!"t"⟩]⟩)
    let s : Settings := { Settings.default with entrypoint := b!"inExpression" }
    e.str = b!"\"a b\" in [t]" ∧
    (match (parseCall s 0 [] b!"\"a b\" in [t]" []).1 with | .returned (.done (.expr e) es) => (e.str, es.length) | _ => ([], 1)) =
      (b!"\"a b\" in [t]", 0) := by decide +kernel

/-- The hypotheses of `C75_array_any`, which does not ask for the option for comments: an array with a comment at its end. -/
example : let a : Attr := .arr Pos.zero [] [.str ⟨Pos.zero, [], b!"a", .bareword, []⟩] [] [⟨b!"# d", false, false⟩]
    ({ Settings.default with entrypoint := b!"array" } : Settings).maxExprCnt = 0 ∧
    AMap.skeleton.attr a = .arr Pos.zero [] [.str ⟨Pos.zero, [], b!"a", .bareword, []⟩] [] [] := ⟨rfl, rfl⟩

end Verif.Props
