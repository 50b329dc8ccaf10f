import Verif.Proofs.PrintTr
/-
The printed text of conditions, blocks and sections, as pieces.
-/
namespace Verif
open Spec

/-! ### Conditions -/

/-- The pieces of a value in a condition. -/
def rvalP (n : Nat) : Rvalue → List Piece
  | .nil => []
  | .str a => [.code a.valueStr]
  | .num a => [.code a.valueStr]
  | .sel s => [.code s.str]
  | .arr p m as c f => valP n (.arr p m as c f)
  | .re r => [.code r.str]

/-- The pieces of a boolean operator. -/
def opP (b : BoolExpr) : List Piece := if b.op.op = .noOp then [] else [.code b.op.op.str]

mutual
/-- The pieces of an expression. -/
def exprP (n : Nat) : Expr → List Piece
  | .nil => []
  | .cond _ b c => opP b ++ .code b!"(" :: (condP n c ++ [.code b!")"])
  | .negCond _ b c => opP b ++ .code b!"!(" :: (condP n c ++ [.code b!")"])
  | .negSel _ b s => opP b ++ [.code (b!"!" ++ s.str)]
  | .inE _ b l r => opP b ++ (rvalP n l ++ .code b!" in " :: rvalP n r)
  | .notIn _ b l r => opP b ++ (rvalP n l ++ .code b!" not in " :: rvalP n r)
  | .rval _ b r => opP b ++ rvalP n r
  | .cmp _ b l o r => opP b ++ (rvalP n l ++ .code (b!" " ++ o.op.str ++ b!" ") :: rvalP n r)
  | .re _ b l o r => opP b ++ (rvalP n l ++ .code (b!" " ++ o.op.str ++ b!" ") :: rvalP n r)
/-- The pieces of a condition. -/
def condP (n : Nat) : List Expr → List Piece
  | [] => []
  | e :: es => exprP n e ++ condP n es
end

theorem sel_balanced {s : Selector} (h : ∀ e ∈ s.elems, Balanced e.name) : Balanced s.str := by
  unfold Selector.str
  generalize s.elems = l at h
  induction l with
  | nil => exact .nil
  | cons e l ih =>
    rw [List.flatMap_cons]
    refine balanced_append ?_ (ih fun e' h' => h e' (List.mem_cons_of_mem _ h'))
    exact balanced_append (balanced_append (bal_lit _) (h e (List.mem_cons_self ..))) (bal_lit _)

theorem sel_ne {s : Selector} (h : SelOk (s.elems.map (·.name))) : s.str ≠ [] := by
  unfold Selector.str
  have := h.1
  cases hs : s.elems with
  | nil => rw [hs] at this; exact absurd rfl this
  | cons e l => simp [SelElem.str]

theorem re_balanced {r : RegexpLit} (h : Balanced r.re) : Balanced r.str :=
  balanced_append (balanced_append (bal_lit _) h) (bal_lit _)

theorem rvalTr {r : Rvalue} (n : Nat) (h : RvalueOk true r) : Tr false false (rvalP n r) (rvalP (n + 1) r) := by
  cases r with
  | nil => exact absurd h (by simp [RvalueOk])
  | str a => exact (strAttr_code (.inr h.1)).tr
  | num a => exact (numAttr_code (h.1 rfl)).tr
  | sel s => exact Tr.code (sel_ne h.1) (sel_balanced (h.2 rfl))
  | arr p m as c f => exact valTr _ n (by rw [ValueOk]; exact ⟨h.1, h.2.1⟩)
  | re r => exact Tr.code (by simp [RegexpLit.str]) (re_balanced (h.2 rfl))

theorem bool_plain (k : BoolOpKind) : k.str.all plainByte = true := by cases k <;> decide
theorem cmp_plain (k : CmpKind) : k.str.all plainByte = true := by cases k <;> decide
theorem re_plain (k : ReKind) : k.str.all plainByte = true := by cases k <;> decide

theorem opTr (b : BoolExpr) : Tr false false (opP b) (opP b) := by
  unfold opP
  split
  · exact Tr.nil false
  · next h => exact Tr.code (by revert h; cases b.op.op <;> decide) (balanced_of_plain (bool_plain _))

theorem Tr.mid {b : Bytes} {X X' Y Y' : List Piece} (hX : Tr false false X X') (hne : b ≠ []) (hb : Balanced b) (hY : Tr false false Y Y') :
    Tr false false (X ++ .code b :: Y) (X' ++ .code b :: Y') :=
  Tr.app hX (Tr.app (Tr.code hne hb) hY)

mutual
theorem exprTr : ∀ (e : Expr) (n : Nat) (first : Bool), ExprOk true first e → Tr false false (exprP n e) (exprP (n + 1) e)
  | .nil, n, first, h => absurd h (by simp [ExprOk])
  | .cond p b c, n, first, h => by
    rw [ExprOk] at h
    rw [exprP, exprP]
    exact Tr.mid (opTr b) (by decide) (bal_lit _) (Tr.app (condTr c n true h.2) (Tr.code (by decide) (bal_lit _)))
  | .negCond p b c, n, first, h => by
    rw [ExprOk] at h
    rw [exprP, exprP]
    exact Tr.mid (opTr b) (by decide) (bal_lit _) (Tr.app (condTr c n true h.2) (Tr.code (by decide) (bal_lit _)))
  | .negSel p b s, n, first, h => by
    rw [ExprOk] at h
    rw [exprP, exprP]
    exact Tr.app (opTr b) (Tr.code (by simp) (balanced_append (bal_lit _) (sel_balanced (h.2.2 rfl))))
  | .inE p b l r, n, first, h => by
    rw [ExprOk] at h
    rw [exprP, exprP]
    exact Tr.app (opTr b) (Tr.mid (rvalTr n h.2.1) (by decide) (bal_lit _) (rvalTr n h.2.2))
  | .notIn p b l r, n, first, h => by
    rw [ExprOk] at h
    rw [exprP, exprP]
    exact Tr.app (opTr b) (Tr.mid (rvalTr n h.2.1) (by decide) (bal_lit _) (rvalTr n h.2.2))
  | .rval p b r, n, first, h => by
    rw [ExprOk] at h
    rw [exprP, exprP]
    exact Tr.app (opTr b) (rvalTr n h.2)
  | .cmp p b l o r, n, first, h => by
    rw [ExprOk] at h
    rw [exprP, exprP]
    exact Tr.app (opTr b) (Tr.mid (rvalTr n h.2.1) (by simp) (balanced_append (balanced_append (bal_lit _) (balanced_of_plain (cmp_plain _))) (bal_lit _)) (rvalTr n h.2.2.2))
  | .re p b l o r, n, first, h => by
    rw [ExprOk] at h
    rw [exprP, exprP]
    exact Tr.app (opTr b) (Tr.mid (rvalTr n h.2.1) (by simp) (balanced_append (balanced_append (bal_lit _) (balanced_of_plain (re_plain _))) (bal_lit _)) (rvalTr n h.2.2.2.1))
theorem condTr : ∀ (es : List Expr) (n : Nat) (first : Bool), CondOk true first es → Tr false false (condP n es) (condP (n + 1) es)
  | [], n, first, h => by rw [condP, condP]; exact Tr.nil false
  | e :: es, n, first, h => by
    rw [CondOk] at h
    rw [condP, condP]
    exact Tr.app (exprTr e n first h.1) (condTr es n false h.2)
end

theorem rvalStr {r : Rvalue} (h : RvalueOk true r) : r.valueStr = render (rvalP 0 r) ∧ r.isNil = false := by
  cases r with
  | nil => exact absurd h (by simp [RvalueOk])
  | str a => exact ⟨by simp [Rvalue.valueStr, rvalP, render, Piece.text], rfl⟩
  | num a => exact ⟨by simp [Rvalue.valueStr, rvalP, render, Piece.text], rfl⟩
  | sel s => exact ⟨by simp [Rvalue.valueStr, rvalP, render, Piece.text], rfl⟩
  | arr p m as c f => exact ⟨valStr _ (by rw [ValueOk]; exact ⟨h.1, h.2.1⟩), rfl⟩
  | re r => exact ⟨by simp [Rvalue.valueStr, rvalP, render, Piece.text], rfl⟩

theorem opStr (b : BoolExpr) : b.op.op.str = render (opP b) := by
  unfold opP
  split
  · next h => rw [h]; rfl
  · simp [render, Piece.text]

mutual
theorem exprStr : ∀ (e : Expr) (first : Bool), ExprOk true first e → e.str = render (exprP 0 e)
  | .nil, first, h => absurd h (by simp [ExprOk])
  | .cond p b c, first, h => by
    rw [ExprOk] at h
    rw [exprP, Expr.str, opStr, condStr_render c true h.2]
    simp [render_append, render_code, show render ([] : List Piece) = [] from rfl]
  | .negCond p b c, first, h => by
    rw [ExprOk] at h
    rw [exprP, Expr.str, opStr, condStr_render c true h.2]
    simp [render_append, render_code, show render ([] : List Piece) = [] from rfl]
  | .negSel p b s, first, h => by
    rw [exprP, Expr.str, opStr]
    simp [render_append, render_code, show render ([] : List Piece) = [] from rfl]
  | .inE p b l r, first, h => by
    rw [ExprOk] at h
    rw [exprP, Expr.str, opStr, (rvalStr h.2.1).1, (rvalStr h.2.2).1, (rvalStr h.2.1).2, (rvalStr h.2.2).2]
    simp [render_append, render_code]
  | .notIn p b l r, first, h => by
    rw [ExprOk] at h
    rw [exprP, Expr.str, opStr, (rvalStr h.2.1).1, (rvalStr h.2.2).1]
    simp [render_append, render_code]
  | .rval p b r, first, h => by
    rw [ExprOk] at h
    rw [exprP, Expr.str, opStr, (rvalStr h.2).1, render_append]
  | .cmp p b l o r, first, h => by
    rw [ExprOk] at h
    rw [exprP, Expr.str, opStr, (rvalStr h.2.1).1, (rvalStr h.2.2.2).1]
    simp [render_append, render_code]
  | .re p b l o r, first, h => by
    rw [ExprOk] at h
    rw [exprP, Expr.str, opStr, (rvalStr h.2.1).1, (rvalStr h.2.2.2.1).1]
    simp [render_append, render_code]
theorem condStr_render : ∀ (es : List Expr) (first : Bool), CondOk true first es → condStr es = render (condP 0 es)
  | [], first, h => rfl
  | e :: es, first, h => by
    rw [CondOk] at h
    rw [condP, condStr, exprStr e first h.1, condStr_render es false h.2, render_append]
end

/-! ### Blocks -/

/-- What stands between a closing bracket and `else`: a blank, or the comments. -/
def leadP (n : Nat) (cm : CommentBlock) : List Piece :=
  if cm.isEmpty then [.code b!" "] else .nl :: (comsP n cm ++ ind n)

mutual
/-- The pieces of a block element, with its comments. -/
def bopP : Nat → BOP → List Piece
  | _, .nil => []
  | n, .plugin p => comsP n p.comment ++ (ind n ++ plugP n p)
  | n, .pluginPtr p => comsP n p.comment ++ (ind n ++ plugP n p)
  | n, .branch _ c b cm f ei el =>
    comsP n cm ++ (ind n ++ .code b!"if " :: (condP n c ++ .code b!" {" :: (blockP n true b!"}" (itemsP true (n + 1) b) f ++
      (elifsP n ei ++ elseP n el))))
/-- The pieces of the elements of a block. -/
def itemsP : Bool → Nat → List BOP → List Piece
  | _, _, [] => []
  | first, n, b :: bs => (if first then [] else [.nl, .nl]) ++ bopP n b ++ itemsP false n bs
/-- The pieces of else-if blocks. -/
def elifsP : Nat → List Elif → List Piece
  | _, [] => []
  | n, .mk _ c b cm f :: es =>
    leadP n cm ++ .code b!"else if " :: (condP n c ++ .code b!" {" :: (blockP n true b!"}" (itemsP true (n + 1) b) f ++ elifsP n es))
/-- The pieces of an else block. -/
def elseP : Nat → ElseB → List Piece
  | n, .mk _ b cm f =>
    if b.isEmpty && cm.isEmpty && f.isEmpty then []
    else leadP n cm ++ .code b!"else {" :: blockP n true b!"}" (itemsP true (n + 1) b) f
end

theorem Tr.leadp {n : Nat} {cm : CommentBlock} {b : Bytes} {X X' : List Piece} (hc : CommentsOk cm) (hb : CodeFrag b) (h : Tr false false X X') :
    Tr false false (leadP n cm ++ .code b :: X) (leadP (n + 1) cm ++ .code b :: X') := by
  unfold leadP
  split
  · exact Tr.app (Tr.code (by decide) (bal_lit _)) (Tr.cons hb h)
  · have := Tr.app (Tr.nl false) (Tr.line (n := n) (fun c h => (hc c h).1) hb (Tr.cons hb h))
    simpa using this

theorem plugP_head {p : Plugin} (h : PluginOk true p) : ∃ c, CodeFrag c ∧ ∀ n, ∃ X, plugP n p = .code c :: X := by
  obtain ⟨p', name, as, c', f⟩ := p
  rw [PluginOk] at h
  exact ⟨name ++ b!" {", (name_code h.1).app (bal_lit _), fun n => ⟨_, by rw [plugP]⟩⟩

theorem pluginTr {p : Plugin} (n : Nat) (h : PluginOk true p) :
    Tr true false (comsP n p.comment ++ (ind n ++ plugP n p)) (comsP (n + 1) p.comment ++ (ind (n + 1) ++ plugP (n + 1) p)) := by
  obtain ⟨c, h1, h2⟩ := plugP_head h
  obtain ⟨X, hX⟩ := h2 n
  obtain ⟨X', hX'⟩ := h2 (n + 1)
  have := plugTr p n h
  rw [hX, hX'] at this ⊢
  refine Tr.line (fun c hc => ?_) h1 this
  obtain ⟨p', name, as, c', f⟩ := p
  rw [PluginOk] at h
  exact (h.2.2.1 c hc).1

theorem code_if : CodeFrag b!"if " := ⟨by decide, bal_lit _, by decide⟩
theorem code_elseif : CodeFrag b!"else if " := ⟨by decide, bal_lit _, by decide⟩
theorem code_else : CodeFrag b!"else {" := ⟨by decide, bal_lit _, by decide⟩

mutual
theorem bopTr : ∀ (b : BOP) (n : Nat), BopOk true b → Tr true false (bopP n b) (bopP (n + 1) b)
  | .nil, n, h => absurd h (by simp [BopOk])
  | .plugin p, n, h => by rw [BopOk] at h; rw [bopP, bopP]; exact pluginTr n h.1
  | .pluginPtr p, n, h => by rw [BopOk] at h; rw [bopP, bopP]; exact pluginTr n h.1
  | .branch p c b cm f ei el, n, h => by
    rw [BopOk] at h
    obtain ⟨h1, h2, h3, h4, h5, h6⟩ := h
    rw [bopP, bopP]
    exact Tr.line (fun c hc => (h3 c hc).1) code_if (Tr.cons code_if (Tr.mid (condTr c n true h1) (by decide) (bal_lit _)
      (Tr.app (Tr.block close_brace (itemsBody b (n + 1) h2) h4) (Tr.app (elifsTr ei n h5) (elseTr el n h6)))))
theorem itemsTr : ∀ (bs : List BOP) (n : Nat), BlockOk true bs → Tr false false (itemsP false n bs) (itemsP false (n + 1) bs)
  | [], n, h => by rw [itemsP, itemsP]; exact Tr.nil false
  | b :: bs, n, h => by
    rw [BlockOk] at h
    rw [itemsP, itemsP]
    exact Tr.app (Tr.app (Tr.app (Tr.nl false) (Tr.nl true)) (bopTr b n h.1)) (itemsTr bs n h.2.2)
theorem itemsBody : ∀ (bs : List BOP) (n : Nat), BlockOk true bs → Body (itemsP true n bs) (itemsP true (n + 1) bs)
  | [], n, h => by rw [itemsP, itemsP]; exact .inl ⟨rfl, rfl⟩
  | b :: bs, n, h => by
    rw [BlockOk] at h
    rw [itemsP, itemsP]
    exact Body.of (Tr.app (Tr.app (Tr.nil true) (bopTr b n h.1)) (itemsTr bs n h.2.2))
theorem elifsTr : ∀ (es : List Elif) (n : Nat), ElifsOk true es → Tr false false (elifsP n es) (elifsP (n + 1) es)
  | [], n, h => by rw [elifsP, elifsP]; exact Tr.nil false
  | .mk p c b cm f :: es, n, h => by
    rw [ElifsOk] at h
    obtain ⟨h1, h2, h3, h4, h5⟩ := h
    rw [elifsP, elifsP]
    exact Tr.leadp h3 code_elseif (Tr.mid (condTr c n true h1) (by decide) (bal_lit _)
      (Tr.app (Tr.block close_brace (itemsBody b (n + 1) h2) h4) (elifsTr es n h5)))
theorem elseTr : ∀ (e : ElseB) (n : Nat), ElseOk true e → Tr false false (elseP n e) (elseP (n + 1) e)
  | .mk p b cm f, n, h => by
    rw [ElseOk] at h
    rw [elseP, elseP]
    have := Tr.leadp (n := n) h.2.1 code_else (Tr.block (n := n) (e := true) close_brace (itemsBody b (n + 1) h.1) h.2.2)
    split
    · exact Tr.nil false
    · exact this
end

theorem leadStr (cm : CommentBlock) : (if cm.isEmpty then b!" " else b!"\n" ++ commentsStr cm) = render (leadP 0 cm) := by
  unfold leadP
  split
  · rfl
  · rw [commentsStr_render, render_cons, render_append]; simp [ind, render, Piece.text]

theorem bopElems_ne {b : BOP} {bs : List BOP} (h : BopOk true b) : (bopElems true (b :: bs)).isEmpty = false ∧ b.isNil = false := by
  have hn : b.isNil = false := by
    cases b with
    | nil => exact absurd h (by simp [BopOk])
    | _ => rfl
  refine ⟨?_, hn⟩
  rw [bopElems, hn]
  simp only [Bool.false_eq_true, if_false, if_true, List.nil_append]
  cases hb : b.str ++ b!"\n" ++ bopElems false bs with
  | nil =>
    have := congrArg List.length hb
    simp at this
  | cons => rfl

mutual
theorem bopStr : ∀ (b : BOP), BopOk true b → b.str = render (bopP 0 b)
  | .nil, h => absurd h (by simp [BopOk])
  | .plugin p, h => by
    rw [BopOk] at h; rw [bopP, BOP.str, plugStr p h.1, commentsStr_render, render_append, render_append]; rfl
  | .pluginPtr p, h => by
    rw [BopOk] at h; rw [bopP, BOP.str, plugStr p h.1, commentsStr_render, render_append, render_append]; rfl
  | .branch p c b cm f ei el, h => by
    rw [BopOk] at h
    obtain ⟨h1, h2, h3, h4, h5, h6⟩ := h
    have hb := prefix_block (e := true) (close := b!"}") (itemsBody b 0 h2) h4 (blockText b h2)
    rw [bopP, BOP.str, elifsStr_render ei h5, elseStr el h6, commentsStr_render, condStr_render c true h1]
    simp only [render_append, render_code, ← hb, render_ind0, List.nil_append, List.append_assoc]
theorem blockText : ∀ (bs : List BOP), BlockOk true bs →
    (let ss := bopElems true bs; if ss.isEmpty then ss else ss ++ b!"\n") =
      render (itemsP true 0 bs) ++ (if (itemsP true 0 bs).isEmpty then [] else [10, 10])
  | [], h => by rw [itemsP, bopElems]; rfl
  | b :: bs, h => by
    have hB := itemsBody (b :: bs) 0 h
    rw [BlockOk] at h
    obtain ⟨e1, e2⟩ := bopElems_ne (bs := bs) h.1
    have := itemsStr bs h.2.2
    have hne : (itemsP true 0 (b :: bs)).isEmpty = false := by
      rcases hB with ⟨_, h2⟩ | ⟨h1, _⟩
      · rw [itemsP] at h2
        have := (ne_of_tr (bopTr b 1 h.1)).1
        simp at h2
        exact absurd h2.1 this
      · simp [h1]
    simp only [e1, Bool.false_eq_true, if_false, hne]
    rw [bopElems, e2, bopStr b h.1, itemsP]
    simp only [Bool.false_eq_true, if_false, if_true, List.nil_append, List.append_assoc, render_append]
    rw [show ([10, 10] : Bytes) = [10] ++ [10] from rfl, ← List.append_assoc (render (itemsP false 0 bs)), ← this]
    simp
theorem itemsStr : ∀ (bs : List BOP), BlockOk true bs → 10 :: bopElems false bs = render (itemsP false 0 bs) ++ [10]
  | [], h => by rw [bopElems, itemsP]; rfl
  | b :: bs, h => by
    rw [BlockOk] at h
    obtain ⟨e1, e2⟩ := bopElems_ne (bs := bs) h.1
    have := itemsStr bs h.2.2
    rw [bopElems, itemsP, e2, bopStr b h.1]
    simp only [Bool.false_eq_true, if_false, render_append, List.append_assoc]
    rw [← this]
    simp [render, Piece.text]
theorem elifsStr_render : ∀ (es : List Elif), ElifsOk true es → elifsStr es = render (elifsP 0 es)
  | [], h => by rw [elifsP, elifsStr]; rfl
  | .mk p c b cm f :: es, h => by
    rw [ElifsOk] at h
    obtain ⟨h1, h2, h3, h4, h5⟩ := h
    have hb := prefix_block (e := true) (close := b!"}") (itemsBody b 0 h2) h4 (blockText b h2)
    rw [elifsP, elifsStr, Elif.str, elifsStr_render es h5, leadStr, condStr_render c true h1]
    simp only [render_append, render_code, ← hb, List.append_assoc]
theorem elseStr : ∀ (e : ElseB), ElseOk true e → e.str = render (elseP 0 e)
  | .mk p b cm f, h => by
    rw [ElseOk] at h
    have hb := prefix_block (e := true) (close := b!"}") (itemsBody b 0 h.1) h.2.2 (blockText b h.1)
    rw [elseP, ElseB.str, leadStr]
    split
    · rfl
    · simp only [render_append, render_code, ← hb, List.append_assoc]
end

end Verif
