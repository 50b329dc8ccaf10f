import Verif.Proofs.PrintCst
/-
The same for conditions, blocks, sections and files.
-/
namespace Verif
open Spec

/-! ### An array in a condition does not look like a field reference at any depth -/

theorem selLike_iff (t : Bytes) : SelLike (91 :: t) ↔ t.find? (fun c => !isSelChar c) = some 93 ∧ t.head? ≠ some 93 := by
  constructor
  · rintro ⟨n, r, h1, h2, h3⟩
    have h1 : t = n ++ 93 :: r := by simpa using h1
    subst h1
    rw [List.all_eq_true] at h3
    refine ⟨?_, ?_⟩
    · rw [List.find?_append, List.find?_eq_none.2 (by intro c hc; simp [h3 c hc])]
      simp [isSelChar]
    · cases n with
      | nil => exact absurd rfl h2
      | cons c n =>
        intro h
        simp at h
        have := h3 c (List.mem_cons_self ..)
        rw [h] at this
        exact absurd this (by decide)
  · rintro ⟨h1, h2⟩
    obtain ⟨_, as, bs, rfl, h4⟩ := List.find?_eq_some_iff_append.1 h1
    refine ⟨as, bs, by simp, ?_, ?_⟩
    · rintro rfl; exact h2 rfl
    · rw [List.all_eq_true]; intro c hc; simpa using h4 c hc

theorem find_indent (X : List Piece) (s : Bool) :
    (render (indent s X)).find? (fun c => !isSelChar c) = (render X).find? (fun c => !isSelChar c) := by
  induction X generalizing s with
  | nil => cases s <;> rfl
  | cons p X ih =>
    have : ∀ (a b : Bytes), a.find? (fun c => !isSelChar c) = b.find? (fun c => !isSelChar c) → ∀ q : Bytes,
        (q ++ a).find? (fun c => !isSelChar c) = (q ++ b).find? (fun c => !isSelChar c) := by
      intro a b h q; rw [List.find?_append, List.find?_append, h]
    cases p with
    | nl => rw [indent, render_cons, render_cons]; exact this _ _ (ih _) _
    | _ =>
      cases s
      · rw [indent, render_cons, render_cons]
        · exact this _ _ (ih _) _
        · exact (fun h => nomatch h)
      · rw [indent, render_cons, render_cons, render_cons]
        · rw [show ∀ q : Bytes, Piece.sp.text ++ q = 32 :: 32 :: q from fun _ => rfl, List.find?_cons_of_neg (by decide), List.find?_cons_of_neg (by decide)]
          exact this _ _ (ih _) _
        · exact (fun h => nomatch h)

theorem block_head (n m : Nat) (e : Bool) (close : Bytes) {X Y : List Piece} (f : CommentBlock) (h : X.isEmpty = Y.isEmpty) (hc : close ≠ []) :
    (render (blockP n e close X f)).head? = (render (blockP m e close Y f)).head? := by
  unfold blockP
  rw [h]
  cases close with
  | nil => exact absurd rfl hc
  | cons c close =>
    cases Y.isEmpty <;> cases f.isEmpty <;> cases e <;> simp [render_append, render_cons, Piece.text]

theorem selLike_depth {p : Pos} {m : Bytes} {as : List Attr} {c f : CommentBlock} (h : ElemsOk true as) (hf : CommentsOk f) (n : Nat) :
    SelLike (render (valP n (.arr p m as c f))) → SelLike (render (valP 0 (.arr p m as c f))) := by
  induction n with
  | zero => exact id
  | succ n ih =>
    intro hs
    apply ih
    have hT := (valTr (.arr p m as c f) n (by rw [ValueOk]; exact ⟨h, hf⟩)).2.1 []
    have hf' := find_indent (valP n (.arr p m as c f)) false
    rw [List.append_nil, show indent false [] = [] from rfl, List.append_nil] at hT
    rw [hT] at hf'
    rw [valP, render_code] at hs hf' ⊢
    rw [valP, render_code] at hf'
    rw [show ∀ q : Bytes, b!"[" ++ q = 91 :: q from fun _ => rfl] at hs hf' ⊢
    rw [show ∀ q : Bytes, b!"[" ++ q = 91 :: q from fun _ => rfl] at hf'
    rw [selLike_iff] at hs ⊢
    refine ⟨?_, ?_⟩
    · have hB := Tr.block (n := n) (e := false) close_arr (elemsBody as (n + 1) h) hf
      have h1 := hB.2.1 []
      rw [List.append_nil, show indent false [] = [] from rfl, List.append_nil] at h1
      rw [← find_indent _ false, h1]
      exact hs.1
    · rw [block_head n (n + 1) false b!"]" f (Y := elemsP true (n + 1 + 1) as) (by rw [elemsP_empty _ h, elemsP_empty _ h]) (by decide)]
      exact hs.2

/-! ### Conditions -/

/-- The syntax tree of a value in a condition. -/
def rvalC (n : Nat) : Rvalue → CRval
  | .nil => .num []
  | .str a => .str ⟨a.sat, a.value⟩
  | .num a => .num a.valueStr
  | .sel s => .sel (s.elems.map (·.name))
  | .arr _ _ as _ f => .arr (elemsC (n + 1) as) (footGap n false as.isEmpty f)
  | .re r => .re r.re

theorem sel_text (s : Selector) : selText (s.elems.map (·.name)) = s.str := by
  unfold selText Selector.str SelElem.str
  rw [List.flatMap_map]
theorem sel_ast (s : Selector) : selAst (s.elems.map (·.name)) = AMap.noPos.selector s := by
  unfold selAst AMap.selector
  rw [List.map_map]; rfl

theorem rvalC_ok {r : Rvalue} (n : Nat) (h : RvalueOk true r) :
    (rvalC n r).text = render (rvalP n r) ∧ (rvalC n r).Ok ∧ (rvalC n r).ast false = settleRvalue r ∧ (IsPattern r → (rvalC n r).IsPattern) := by
  cases r with
  | nil => exact absurd h (by simp [RvalueOk])
  | str a =>
    obtain ⟨h1, h2, h3⟩ := h
    refine ⟨?_, h1, ?_, fun _ => trivial⟩
    · rw [rvalP, render_code, strAttr_text a (.inr h1)]; simp [render, rvalC, CRval.text]
    · obtain ⟨p, nm, v, s, c⟩ := a
      simp only at h2 h3
      subst h2 h3; rfl
  | num a =>
    obtain ⟨h1, h2, h3⟩ := h
    have hx := numString_exact (h1 rfl).1 (h1 rfl).2
    refine ⟨?_, ⟨hx.1, by rw [NumAttr.valueStr, hx.2]; rfl⟩, ?_, fun h => h⟩
    · rw [rvalP, render_code]; simp [render, rvalC, CRval.text]
    · obtain ⟨p, nm, v, c⟩ := a
      simp only at h2 h3
      subst h2 h3
      simp only [rvalC, CRval.ast, numAst, NumAttr.valueStr]; rw [hx.2]; rfl
  | sel s =>
    refine ⟨?_, h.1, ?_, fun h => h⟩
    · rw [rvalP, render_code]; simp [render, rvalC, CRval.text, sel_text]
    · simp only [rvalC, CRval.ast, sel_ast]; rfl
  | arr p m as c f =>
    obtain ⟨h1, h2, h3, h4, h5⟩ := h
    subst h3 h4
    have hv : ValueOk true (.arr p [] as [] f) := by rw [ValueOk]; exact ⟨h1, h2⟩
    obtain ⟨v1, v2, -, v4⟩ := valC_ok (.arr p [] as [] f) n hv
    rw [valC] at v1 v2 v4
    refine ⟨v1, ⟨v2, ?_⟩, ?_, fun h => h⟩
    · intro hs
      apply h5 rfl
      have := selLike_depth h1 h2 n (by rw [← v1]; exact hs)
      rw [Rvalue.valueStr, valStr _ hv]
      exact this
    · rw [CVal.ast, settleVal] at v4
      simp only [withName, withComment] at v4
      injection v4 with _ _ e1 _ e2
      simp only [rvalC, CRval.ast, settleRvalue, e1, e2]
  | re r =>
    refine ⟨?_, h.1, rfl, fun _ => trivial⟩
    rw [rvalP, render_code]; simp [render, rvalC, CRval.text, RegexpLit.str]

/-- The boolean operator of an expression. -/
def exprBool : Expr → BoolExpr
  | .nil => default
  | .cond _ b _ => b
  | .negCond _ b _ => b
  | .negSel _ b _ => b
  | .inE _ b _ _ => b
  | .notIn _ b _ _ => b
  | .rval _ b _ => b
  | .cmp _ b _ _ _ => b
  | .re _ b _ _ _ => b

mutual
/-- The syntax tree of an expression. -/
def exprC (n : Nat) : Expr → CExpr
  | .nil => .rval (.num [])
  | .cond _ _ c => .paren Gap.empty (condC n c) Gap.empty
  | .negCond _ _ c => .notParen Gap.empty Gap.empty (condC n c) Gap.empty
  | .negSel _ _ s => .notSel Gap.empty (s.elems.map (·.name))
  | .inE _ _ l r => .inE (rvalC n l) Gap.blank Gap.blank (rvalC n r)
  | .notIn _ _ l r => .notIn (rvalC n l) Gap.blank Gap.empty Gap.blank (rvalC n r)
  | .rval _ _ r => .rval (rvalC n r)
  | .cmp _ _ l o r => .cmp (rvalC n l) Gap.blank o.op Gap.blank (rvalC n r)
  | .re _ _ l o r => .re (rvalC n l) Gap.blank o.op Gap.blank (rvalC n r)
/-- The syntax tree of a condition. -/
def condC (n : Nat) : List Expr → CCond
  | [] => .mk (.rval (.num [])) []
  | e :: es => .mk (exprC n e) (moreC n es)
/-- Further expressions. -/
def moreC (n : Nat) : List Expr → List CMore
  | [] => []
  | e :: es => .mk Gap.blank (exprBool e).op.op Gap.blank (exprC n e) :: moreC n es
end

theorem cmpStr_text {k : CmpKind} (h : k ≠ .undefined) : k.str = cmpText k := by cases k <;> first | rfl | exact absurd rfl h
theorem reStr_text {k : ReKind} (h : k ≠ .undefined) : k.str = reText k := by cases k <;> first | rfl | exact absurd rfl h
theorem boolStr_text {k : BoolOpKind} (h : k ≠ .undefined) (h' : k ≠ .noOp) : k.str = b!" " ++ boolText k ++ b!" " := by
  cases k <;> first | rfl | exact absurd rfl h | exact absurd rfl h'

theorem render_empty : render ([] : List Piece) = [] := rfl
theorem blank_text : Gap.blank.text = [32] := rfl
theorem empty_text : Gap.empty.text = [] := rfl

mutual
theorem exprC_ok : ∀ (e : Expr) (n : Nat) (first : Bool), ExprOk true first e →
    render (exprP n e) = render (opP (exprBool e)) ++ (exprC n e).text ∧ (exprC n e).Ok ∧
      (exprC n e).ast false (exprBool e).op.op = settleExpr e ∧ JoinOk first (exprBool e)
  | .nil, n, first, h => absurd h (by simp [ExprOk])
  | .cond p b c, n, first, h => by
    rw [ExprOk] at h
    obtain ⟨t1, t2, t3⟩ := condC_ok c n h.2
    rw [exprP, exprC, settleExpr, CExpr.text, CExpr.Ok, CExpr.ast, t3, t1]
    exact ⟨by simp [render_append, render_code, exprBool, render_empty, empty_text], ⟨empty_ok, t2, empty_ok⟩, rfl, h.1⟩
  | .negCond p b c, n, first, h => by
    rw [ExprOk] at h
    obtain ⟨t1, t2, t3⟩ := condC_ok c n h.2
    rw [exprP, exprC, settleExpr, CExpr.text, CExpr.Ok, CExpr.ast, t3, t1]
    exact ⟨by simp [render_append, render_code, exprBool, render_empty, empty_text], ⟨empty_ok, empty_ok, t2, empty_ok⟩, rfl, h.1⟩
  | .negSel p b s, n, first, h => by
    rw [ExprOk] at h
    rw [exprP, exprC, settleExpr, CExpr.text, CExpr.Ok, CExpr.ast, sel_text, sel_ast]
    exact ⟨by simp [render_append, render_code, exprBool, render_empty, empty_text], ⟨empty_ok, h.2.1⟩, rfl, h.1⟩
  | .inE p b l r, n, first, h => by
    rw [ExprOk] at h
    obtain ⟨l1, l2, l3, -⟩ := rvalC_ok n h.2.1
    obtain ⟨r1, r2, r3, -⟩ := rvalC_ok n h.2.2
    rw [exprP, exprC, settleExpr, CExpr.text, CExpr.Ok, CExpr.ast, l1, r1, l3, r3]
    exact ⟨by simp [render_append, render_code, exprBool, blank_text], ⟨l2, blank_ok, blank_ok, r2⟩, rfl, h.1⟩
  | .notIn p b l r, n, first, h => by
    rw [ExprOk] at h
    obtain ⟨l1, l2, l3, -⟩ := rvalC_ok n h.2.1
    obtain ⟨r1, r2, r3, -⟩ := rvalC_ok n h.2.2
    rw [exprP, exprC, settleExpr, CExpr.text, CExpr.Ok, CExpr.ast, l1, r1, l3, r3]
    exact ⟨by simp [render_append, render_code, exprBool, blank_text, empty_text], ⟨l2, blank_ok, empty_ok, blank_ok, r2⟩, rfl, h.1⟩
  | .rval p b r, n, first, h => by
    rw [ExprOk] at h
    obtain ⟨r1, r2, r3, -⟩ := rvalC_ok n h.2
    rw [exprP, exprC, settleExpr, CExpr.text, CExpr.Ok, CExpr.ast, r1, r3]
    exact ⟨by simp [render_append, exprBool], r2, rfl, h.1⟩
  | .cmp p b l o r, n, first, h => by
    rw [ExprOk] at h
    obtain ⟨l1, l2, l3, -⟩ := rvalC_ok n h.2.1
    obtain ⟨r1, r2, r3, -⟩ := rvalC_ok n h.2.2.2
    rw [exprP, exprC, settleExpr, CExpr.text, CExpr.Ok, CExpr.ast, l1, r1, l3, r3, cmpStr_text h.2.2.1]
    exact ⟨by simp [render_append, render_code, exprBool, blank_text], ⟨l2, blank_ok, h.2.2.1, blank_ok, r2⟩, rfl, h.1⟩
  | .re p b l o r, n, first, h => by
    rw [ExprOk] at h
    obtain ⟨l1, l2, l3, -⟩ := rvalC_ok n h.2.1
    obtain ⟨r1, r2, r3, r4⟩ := rvalC_ok n h.2.2.2.1
    rw [exprP, exprC, settleExpr, CExpr.text, CExpr.Ok, CExpr.ast, l1, r1, l3, r3, reStr_text h.2.2.1]
    exact ⟨by simp [render_append, render_code, exprBool, blank_text], ⟨l2, blank_ok, h.2.2.1, blank_ok, r2, r4 h.2.2.2.2⟩, rfl, h.1⟩
theorem condC_ok : ∀ (es : List Expr) (n : Nat), CondOk true true es →
    (condC n es).text = render (condP n es) ∧ (condC n es).Ok ∧ (condC n es).ast false = settleCond es
  | [], n, h => absurd h (by simp [CondOk])
  | e :: es, n, h => by
    rw [CondOk] at h
    obtain ⟨e1, e2, e3, e4⟩ := exprC_ok e n true h.1
    obtain ⟨m1, m2, m3⟩ := moreC_ok es n h.2
    have hop : (exprBool e).op.op = .noOp := by simpa [JoinOk] using e4
    rw [condC, condP, settleCond, CCond.text, CCond.Ok, CCond.ast, m1, m3, ← e3, hop, render_append, e1]
    exact ⟨by simp [opP, hop, render_empty], ⟨e2, m2⟩, rfl⟩
theorem moreC_ok : ∀ (es : List Expr) (n : Nat), CondOk true false es →
    moreText (moreC n es) = render (condP n es) ∧ moreOk (moreC n es) ∧ moreAst false (moreC n es) = settleCond es
  | [], n, h => by
    rw [moreC, condP, settleCond, moreText, moreOk, moreAst]; exact ⟨rfl, trivial, rfl⟩
  | e :: es, n, h => by
    rw [CondOk] at h
    obtain ⟨e1, e2, e3, e4⟩ := exprC_ok e n false h.1
    obtain ⟨m1, m2, m3⟩ := moreC_ok es n h.2
    have hop : (exprBool e).op.op ≠ .noOp ∧ (exprBool e).op.op ≠ .undefined := by simpa [JoinOk] using e4
    rw [moreC, condP, settleCond, moreText, moreOk, moreAst, m1, m3, ← e3, render_append, e1]
    refine ⟨?_, ⟨blank_ok, ⟨hop.2, hop.1⟩, blank_ok, e2, m2⟩, rfl⟩
    simp [opP, hop.1, render_code, render_empty, boolStr_text hop.2 hop.1, blank_text]
end

/-! ### Blocks -/

/-- The gap in front of `else`. -/
def leadGap (n : Nat) (cm : CommentBlock) : Gap := if cm.isEmpty then Gap.blank else mkGap [10] n cm (indB n)

theorem leadGap_ok {n : Nat} {cm : CommentBlock} (h : CommentsOk cm) :
    (leadGap n cm).text = render (leadP n cm) ∧ (leadGap n cm).Ok ∧ (leadGap n cm).block false false false = markFirst false cm := by
  unfold leadGap leadP
  split
  · next hc =>
    have : cm = [] := by simpa using hc
    subst this
    exact ⟨rfl, blank_ok, rfl⟩
  · refine ⟨?_, mkGap_ok rfl (indB_ws n) fun c hc => (h c hc).1, mkGap_block false rfl h⟩
    rw [mkGap_text, render_cons, render_append, render_ind]; simp [Piece.text]

mutual
/-- The syntax tree of a block element after the white space `pre`. -/
def itemC : Bytes → Nat → BOP → CItem
  | _, _, .nil => .plugin Gap.empty (.mk ⟨.bareword, []⟩ Gap.empty [] Gap.empty)
  | pre, n, .plugin p => .plugin (mkGap pre n p.comment (indB n)) (plugC n p)
  | pre, n, .pluginPtr p => .plugin (mkGap pre n p.comment (indB n)) (plugC n p)
  | pre, n, .branch _ c b cm f ei el =>
    .branch (mkGap pre n cm (indB n)) Gap.blank (condC n c) Gap.blank (itemsC [10] (n + 1) b) (footGap n true b.isEmpty f)
      (elifsC n ei) (elseC n el)
/-- The syntax tree of a block. -/
def itemsC : Bytes → Nat → List BOP → List CItem
  | _, _, [] => []
  | pre, n, b :: bs => itemC pre n b :: itemsC [10, 10] n bs
/-- The syntax tree of else-if blocks. -/
def elifsC : Nat → List Elif → List CElif
  | _, [] => []
  | n, .mk _ c b cm f :: es =>
    .mk (leadGap n cm) Gap.blank Gap.blank (condC n c) Gap.blank (itemsC [10] (n + 1) b) (footGap n true b.isEmpty f) :: elifsC n es
/-- The syntax tree of an else block. -/
def elseC : Nat → ElseB → CElse
  | n, .mk _ b cm f =>
    if b.isEmpty && cm.isEmpty && f.isEmpty then .none
    else .mk (leadGap n cm) Gap.blank (itemsC [10] (n + 1) b) (footGap n true b.isEmpty f)
end

theorem itemsP_empty {bs : List BOP} (n : Nat) (h : BlockOk true bs) : (itemsP true n bs).isEmpty = bs.isEmpty := by
  cases bs with
  | nil => rfl
  | cons b bs =>
    rw [BlockOk] at h
    have := (ne_of_tr (bopTr b n h.1)).1
    rw [itemsP]; simp [this]

theorem plugin_comment {p : Plugin} (h : PluginOk true p) : CommentsOk p.comment := by
  obtain ⟨p', name, as, c, f⟩ := p
  rw [PluginOk] at h; exact h.2.2.1

theorem pluginComment_settle (p : Plugin) : pluginComment (markFirst false p.comment) (settlePlugin p) = settlePlugin p := by
  obtain ⟨p', name, as, c, f⟩ := p
  rw [settlePlugin]; rfl

theorem plugC_name {p : Plugin} (n : Nat) (h : PluginOk true p) : (plugC n p).name = p.name := by
  obtain ⟨p', name, as, c, f⟩ := p
  rw [PluginOk] at h
  rw [plugC]
  exact (litOf_ok h.1).2

mutual
theorem itemC_ok : ∀ (b : BOP) (n : Nat) (pre : Bytes), pre.all (· == 10) = true → BopOk true b →
    (itemC pre n b).text = pre ++ render (bopP n b) ∧ (itemC pre n b).Ok ∧ (itemC pre n b).ast false = settleBop b ∧
      (itemC pre n b).Clear ∧ (itemC pre n b).isOpen = b.isOpen
  | .nil, n, pre, hp, h => absurd h (by simp [BopOk])
  | .plugin p, n, pre, hp, h => by
    rw [BopOk] at h
    have hw : pre.all isWs = true := by
      rw [List.all_eq_true] at *; intro c hc; have := hp c hc; simp at this; rw [this]; rfl
    obtain ⟨t1, t2, t3⟩ := plugC_ok p n h.1
    have hc := plugin_comment h.1
    rw [itemC, bopP, settleBop, CItem.text, CItem.Ok, CItem.ast, CItem.Clear, t1, t3, mkGap_text, mkGap_block _ hp hc, pluginComment_settle, plugC_name n h.1]
    exact ⟨by simp [render_append, render_ind], ⟨mkGap_ok hw (indB_ws n) fun c h => (hc c h).1, t2⟩, rfl, h.2 rfl, rfl⟩
  | .pluginPtr p, n, pre, hp, h => by
    rw [BopOk] at h
    have hw : pre.all isWs = true := by
      rw [List.all_eq_true] at *; intro c hc; have := hp c hc; simp at this; rw [this]; rfl
    obtain ⟨t1, t2, t3⟩ := plugC_ok p n h.1
    have hc := plugin_comment h.1
    rw [itemC, bopP, settleBop, CItem.text, CItem.Ok, CItem.ast, CItem.Clear, t1, t3, mkGap_text, mkGap_block _ hp hc, pluginComment_settle, plugC_name n h.1]
    exact ⟨by simp [render_append, render_ind], ⟨mkGap_ok hw (indB_ws n) fun c h => (hc c h).1, t2⟩, rfl, h.2 rfl, rfl⟩
  | .branch p c b cm f ei el, n, pre, hp, h => by
    rw [BopOk] at h
    have hw : pre.all isWs = true := by
      rw [List.all_eq_true] at *; intro c hc; have := hp c hc; simp at this; rw [this]; rfl
    obtain ⟨h1, h2, h3, h4, h5, h6⟩ := h
    obtain ⟨c1, c2, c3⟩ := condC_ok c n h1
    obtain ⟨-, b2, b3, b4, b5⟩ := itemsC_ok b (n + 1) h2
    obtain ⟨f1, f2⟩ := foot_ok (n := n) (e := true) (empty := b.isEmpty) h4
    obtain ⟨i1, i2, i3, i4⟩ := elifsC_ok ei n h5
    obtain ⟨l1, l2, l3, l4, l5⟩ := elseC_ok el n h6
    rw [itemC, bopP, settleBop, CItem.text, CItem.Ok, CItem.ast, CItem.Clear, mkGap_text, mkGap_block _ hp h3, c1, c3, b2, i1, i3, l1, l3,
      b4, f2]
    refine ⟨?_, ⟨mkGap_ok hw (indB_ws n) fun c h => (h3 c h).1, blank_ok, c2, blank_ok, b3 _ rfl, f1, i2, l2⟩, rfl, ⟨b5 _ rfl, i4, l4⟩, ?_⟩
    · simp only [render_append, render_code, block_text (itemsP_empty _ h2), render_ind]
      simp [blank_text]
    · unfold CItem.isOpen BOP.isOpen
      obtain ⟨lp, lb, lc, lf⟩ := el
      rw [elseC]
      cases lb <;> cases lc <;> cases lf <;> simp
theorem itemsC_ok : ∀ (bs : List BOP) (n : Nat), BlockOk true bs →
    itemsText (itemsC [10, 10] n bs) = render (itemsP false n bs) ∧
    itemsText (itemsC [10] n bs) = (if bs.isEmpty then [] else 10 :: render (itemsP true n bs)) ∧
    (∀ pre, pre.all (· == 10) = true → itemsOk (itemsC pre n bs)) ∧ itemsAst false (itemsC [10] n bs) = settleBlock bs ∧
    (∀ pre, pre.all (· == 10) = true → itemsClear (itemsC pre n bs))
  | [], n, h => by
    rw [itemsC, itemsC, itemsText, itemsP, itemsP, settleBlock, itemsAst]
    exact ⟨rfl, rfl, fun _ _ => by rw [itemsC, itemsOk]; trivial, rfl, fun _ _ => by rw [itemsC, itemsClear]; trivial⟩
  | b :: bs, n, h => by
    rw [BlockOk] at h
    obtain ⟨h1, h2, h3⟩ := h
    obtain ⟨t1, -, t3, t4, t5⟩ := itemsC_ok bs n h3
    have a1 := itemC_ok b n [10] rfl h1
    have a2 := itemC_ok b n [10, 10] rfl h1
    have hast : itemsAst false (itemsC [10, 10] n bs) = itemsAst false (itemsC [10] n bs) := by
      cases bs with
      | nil => rfl
      | cons x xs =>
        rw [BlockOk] at h3
        rw [itemsC, itemsC, itemsAst, itemsAst, (itemC_ok x n [10] rfl h3.1).2.2.1, (itemC_ok x n [10, 10] rfl h3.1).2.2.1]
    rw [itemsC, itemsC, itemsText, itemsText, itemsP, itemsP, settleBlock, itemsAst, a1.1, a2.1, t1, a1.2.2.1, hast, t4]
    refine ⟨?_, ?_, fun pre hp => ?_, rfl, fun pre hp => ?_⟩
    · simp [render_append, render_cons, Piece.text, render_empty]
    · simp [render_append]
    · have a := itemC_ok b n pre hp h1
      rw [itemsC, itemsOk]; exact ⟨a.2.1, t3 _ rfl⟩
    · have a := itemC_ok b n pre hp h1
      rw [itemsC, itemsClear]
      refine ⟨a.2.2.2.1, fun ho => ?_, t5 _ rfl⟩
      have hn := h2 rfl (a.2.2.2.2.symm.trans ho)
      have key : ∀ {p : Plugin}, PluginOk true p → ¬ ElseName p.name →
          (plugC n p).name ≠ b!"else" ∧ ∀ t, IfLike t → (plugC n p).name ≠ b!"else" ++ t := by
        intro p hp hn
        rw [plugC_name n hp]
        exact ⟨fun e => hn (.inl e), fun t ht e => hn (.inr ⟨t, ht, e⟩)⟩
      cases bs with
      | nil => rw [itemsC]; trivial
      | cons x xs =>
        rw [BlockOk] at h3
        rw [itemsC]
        cases x with
        | nil => exact absurd h3.1 (by simp [BopOk])
        | plugin p =>
          have h4 := h3.1
          rw [BopOk] at h4
          rw [itemC]; exact key h4.1 hn
        | pluginPtr p =>
          have h4 := h3.1
          rw [BopOk] at h4
          rw [itemC]; exact key h4.1 hn
        | branch => rw [itemC]; trivial
theorem elifsC_ok : ∀ (es : List Elif) (n : Nat), ElifsOk true es →
    elifsText (elifsC n es) = render (elifsP n es) ∧ elifsOk (elifsC n es) ∧ elifsAst false (elifsC n es) = settleElifs es ∧ elifsClear (elifsC n es)
  | [], n, h => by
    rw [elifsC, elifsP, settleElifs, elifsText, elifsOk, elifsAst, elifsClear]; exact ⟨rfl, trivial, rfl, trivial⟩
  | .mk p c b cm f :: es, n, h => by
    rw [ElifsOk] at h
    obtain ⟨h1, h2, h3, h4, h5⟩ := h
    obtain ⟨c1, c2, c3⟩ := condC_ok c n h1
    obtain ⟨-, b2, b3, b4, b5⟩ := itemsC_ok b (n + 1) h2
    obtain ⟨f1, f2⟩ := foot_ok (n := n) (e := true) (empty := b.isEmpty) h4
    obtain ⟨i1, i2, i3, i4⟩ := elifsC_ok es n h5
    obtain ⟨l1, l2, l3⟩ := leadGap_ok (n := n) h3
    rw [elifsC, elifsP, settleElifs, elifsText, elifsOk, elifsAst, elifsClear, c1, c3, b2, b4, f2, i1, i3, l1, l3]
    refine ⟨?_, ⟨l2, blank_ok, blank_ok, c2, blank_ok, b3 _ rfl, f1, i2⟩, rfl, b5 _ rfl, i4⟩
    simp only [render_append, render_code, block_text (itemsP_empty _ h2)]
    simp [blank_text]
theorem elseC_ok : ∀ (e : ElseB) (n : Nat), ElseOk true e →
    (elseC n e).text = render (elseP n e) ∧ (elseC n e).Ok ∧ (elseC n e).ast false = settleElse e ∧ (elseC n e).Clear ∧ True
  | .mk p b cm f, n, h => by
    rw [ElseOk] at h
    obtain ⟨h2, h3, h4⟩ := h
    obtain ⟨-, b2, b3, b4, b5⟩ := itemsC_ok b (n + 1) h2
    obtain ⟨f1, f2⟩ := foot_ok (n := n) (e := true) (empty := b.isEmpty) h4
    obtain ⟨l1, l2, l3⟩ := leadGap_ok (n := n) h3
    rw [elseC, elseP, settleElse]
    split
    · next hc =>
      simp only [Bool.and_eq_true, List.isEmpty_iff] at hc
      obtain ⟨⟨rfl, rfl⟩, rfl⟩ := hc
      rw [CElse.text, CElse.Ok, CElse.ast, CElse.Clear, settleBlock]
      exact ⟨rfl, trivial, rfl, trivial, trivial⟩
    · rw [CElse.text, CElse.Ok, CElse.ast, CElse.Clear, b2, b4, f2, l1, l3]
      refine ⟨?_, ⟨l2, blank_ok, b3 _ rfl, f1⟩, rfl, b5 _ rfl, trivial⟩
      simp only [render_append, render_code, block_text (itemsP_empty _ h2)]
      simp [blank_text]
end

end Verif
