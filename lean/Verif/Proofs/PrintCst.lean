import Verif.Proofs.PrintTrBlock
import Verif.Spec.Clear
/-
The printed text of a printable configuration is the text of a concrete syntax tree, which denotes
the settled configuration.
-/
namespace Verif
open Spec

/-! ### Gaps as the printer writes them -/

/-- Blanks for `d` levels of indentation. -/
def indB (d : Nat) : Bytes := List.replicate (2 * d) 32

theorem render_ind (d : Nat) : render (ind d) = indB d := by
  induction d with
  | zero => rfl
  | succ d ih =>
    rw [ind, List.replicate_succ, render_cons, show List.replicate d Piece.sp = ind d from rfl, ih, indB, indB]
    rw [show 2 * (d + 1) = 2 * d + 1 + 1 from rfl, List.replicate_succ, List.replicate_succ]; rfl

/-- Comments at indentation `d` after the white space `pre`, followed by the white space `tail`. -/
def mkGap (pre : Bytes) (d : Nat) : CommentBlock → Bytes → Gap
  | [], tail => ⟨[], pre ++ tail⟩
  | c :: cs, tail =>
    let g := mkGap (if c.spaceAfter then [10] else []) d cs tail
    ⟨⟨pre ++ (if c.spaceBefore then [10] else []) ++ indB d, 32 :: c.text, false, true⟩ :: g.lines, g.tail⟩

theorem mkGap_text (pre : Bytes) (d : Nat) (cs : CommentBlock) (tail : Bytes) :
    (mkGap pre d cs tail).text = pre ++ render (comsP d cs) ++ tail := by
  induction cs generalizing pre with
  | nil => simp [mkGap, Gap.text, comsP, render]
  | cons c cs ih =>
    have := ih (if c.spaceAfter then [10] else [])
    unfold Gap.text at this ⊢
    rw [mkGap]
    simp only [List.flatMap_cons, List.append_assoc, this, comsP, render_append, CommentLine.text]
    cases c.spaceBefore <;> cases c.spaceAfter <;> simp [render_ind, render_cons, Piece.text, show render ([] : List Piece) = [] from rfl]

theorem indB_ws (d : Nat) : (indB d).all isWs = true := by
  rw [List.all_eq_true]; intro c hc; rw [(List.mem_replicate.1 hc).2]; rfl

theorem mkGap_ok {pre : Bytes} {d : Nat} {cs : CommentBlock} {tail : Bytes} (hp : pre.all isWs = true) (ht : tail.all isWs = true)
    (hc : ∀ c ∈ cs, CommentText c.text) : (mkGap pre d cs tail).Ok := by
  induction cs generalizing pre with
  | nil => exact ⟨by simp [mkGap], by simp only [mkGap, List.all_append, hp, ht]; rfl⟩
  | cons c cs ih =>
    have h := ih (pre := if c.spaceAfter then [10] else []) (by cases c.spaceAfter <;> rfl) fun c' h' => hc c' (List.mem_cons_of_mem _ h')
    have hc' := hc c (List.mem_cons_self ..)
    refine ⟨fun l hl => ?_, h.2⟩
    rcases List.mem_cons.1 hl with rfl | hl
    · refine ⟨⟨?_, ?_⟩, rfl⟩
      · simp only [List.all_append, hp, indB_ws, Bool.true_and, Bool.and_true]
        cases c.spaceBefore <;> rfl
      · simp only [List.all_cons, List.all_eq_true, Bool.and_eq_true]
        exact ⟨by decide, fun b hb => by have := hc'.1 b hb; simp [this.1, this.2]⟩
    · exact h.1 l hl

theorem trim_sp {b : Bytes} (h : trim 32 b = b) : trim 32 (32 :: b) = b := by
  rw [show trim 32 (32 :: b) = trim 32 b from rfl, h]

/-- Without the mark for a blank line after the comment. -/
def noAfter (c : Comment) : Comment := { c with spaceAfter := false }

theorem mkGap_rest {d : Nat} {cs : CommentBlock} {tail : Bytes} (h : SectionCommentsOk cs) :
    (mkGap [] d cs tail).lines.map (fun l => l.comment (l.ws.contains 10)) = cs.map noAfter := by
  induction cs with
  | nil => rfl
  | cons c cs ih =>
    have hc := h.1 c (List.mem_cons_self ..)
    have hind : (indB d).contains 10 = false := by
      rw [List.contains_eq_mem]; simp [indB]
    rw [mkGap]
    simp only [List.map_cons, List.nil_append]
    congr 1
    · unfold CommentLine.comment noAfter
      simp only [trim_sp hc.2]
      cases hs : c.spaceBefore
      · simp [indB]
      · simp [indB]
    · cases cs with
      | nil => rfl
      | cons c' cs' =>
        have : c.spaceAfter = false := h.2 c (by simp)
        rw [this]
        exact ih ⟨fun x hx => h.1 x (List.mem_cons_of_mem _ hx), fun x hx => h.2 x (by simp at hx ⊢; right; exact hx)⟩

theorem bbf_false {pre : Bytes} {d : Nat} (hp : pre.all (· == 10) = true) : blankBeforeFirst (pre ++ indB d) = false := by
  unfold blankBeforeFirst
  have h1 : (pre ++ indB d).filter (· != 13) = pre ++ indB d := by
    rw [List.filter_eq_self]
    intro c hc
    rcases List.mem_append.1 hc with hc | hc
    · rw [List.all_eq_true] at hp
      have := hp c hc
      simp at this; subst this; rfl
    · rw [(List.mem_replicate.1 hc).2]; rfl
  have h2 : (pre ++ indB d).dropWhile (· == 10) = indB d := by
    clear h1
    induction pre with
    | nil =>
      cases d with
      | zero => rfl
      | succ d => simp [indB, show 2 * (d + 1) = 2 * d + 1 + 1 from rfl, List.replicate_succ]
    | cons c p ih =>
      rw [List.all_cons, Bool.and_eq_true] at hp
      rw [List.cons_append, List.dropWhile_cons, if_pos hp.1, ih hp.2]
  rw [h1, h2]
  simp [indB, List.count_replicate]

theorem markFirst_map {b : Bool} (cs : CommentBlock) : markFirst b (cs.map noAfter) = (markFirst b cs).map noAfter := by
  cases cs <;> rfl

theorem mkGap_comments {pre : Bytes} {d : Nat} {cs : CommentBlock} {tail : Bytes} (hp : pre.all (· == 10) = true) (h : SectionCommentsOk cs) :
    (mkGap pre d cs tail).comments = markFirst false (cs.map noAfter) := by
  cases cs with
  | nil => rfl
  | cons c cs =>
    have hc := h.1 c (List.mem_cons_self ..)
    rw [mkGap]
    unfold Gap.comments
    simp only [List.map_cons, markFirst]
    congr 1
    · unfold CommentLine.comment noAfter
      simp only [trim_sp hc.2]
      rw [bbf_false (by rw [List.all_append, hp]; cases c.spaceBefore <;> rfl)]
    · cases cs with
      | nil => rfl
      | cons c' cs' =>
        have : c.spaceAfter = false := h.2 c (by simp)
        rw [this]
        exact mkGap_rest ⟨fun x hx => h.1 x (List.mem_cons_of_mem _ hx), fun x hx => h.2 x (by simp at hx ⊢; right; exact hx)⟩

theorem sec_of_ok {cs : CommentBlock} (h : CommentsOk cs) : SectionCommentsOk cs :=
  ⟨fun c hc => (h c hc).1, fun c hc => (h c (List.dropLast_subset _ hc)).2⟩

theorem noAfter_of_ok {cs : CommentBlock} (h : CommentsOk cs) : cs.map noAfter = cs := by
  conv_rhs => rw [← List.map_id cs]
  refine List.map_congr_left fun c hc => ?_
  have := (h c hc).2
  cases c; simp only at this; subst this; rfl

theorem markFirst_twice (a b : Bool) (cs : CommentBlock) : markFirst a (markFirst b cs) = markFirst a cs := by cases cs <;> rfl

theorem mkGap_block {pre : Bytes} {d : Nat} {cs : CommentBlock} {tail : Bytes} (b : Bool) (hp : pre.all (· == 10) = true) (h : CommentsOk cs) :
    (mkGap pre d cs tail).block false b false = markFirst b cs := by
  unfold Gap.block
  rw [mkGap_comments hp (sec_of_ok h), noAfter_of_ok h]
  cases b
  · rfl
  · exact markFirst_twice _ _ _

/-! ### Gaps in front of attributes and hash entries other than the first -/

/-- The separating white space. -/
def sepOf (d : Nat) : CommentBlock → Bytes
  | [] => 10 :: indB d
  | c :: _ => 10 :: (if c.spaceBefore then [10] else []) ++ indB d

/-- The rest of the gap. -/
def comOf (d : Nat) : CommentBlock → Gap
  | [] => Gap.empty
  | c :: cs =>
    let g := mkGap (if c.spaceAfter then [10] else []) d cs (indB d)
    ⟨⟨[], 32 :: c.text, false, true⟩ :: g.lines, g.tail⟩

theorem sep_text (d : Nat) (cs : CommentBlock) : sepOf d cs ++ (comOf d cs).text = 10 :: (render (comsP d cs) ++ indB d) := by
  have := mkGap_text [10] d cs (indB d)
  rw [show 10 :: (render (comsP d cs) ++ indB d) = [10] ++ render (comsP d cs) ++ indB d by simp, ← this]
  cases cs with
  | nil => simp [sepOf, comOf, mkGap, Gap.text, Gap.empty]
  | cons c cs => simp [sepOf, comOf, mkGap, Gap.text, CommentLine.text]

theorem sep_ok {d : Nat} {cs : CommentBlock} (h : CommentsOk cs) : SepOk (sepOf d cs) (comOf d cs) ∧ (comOf d cs).Ok := by
  have hg := mkGap_ok (pre := [10]) (d := d) (tail := indB d) (by rfl) (indB_ws d) fun c hc => (h c hc).1
  cases cs with
  | nil => exact ⟨⟨by simp [sepOf], by simp only [sepOf, List.all_cons, indB_ws]; rfl, rfl⟩, by simp [comOf, Gap.empty], rfl⟩
  | cons c cs =>
    refine ⟨⟨by simp [sepOf], ?_, rfl⟩, fun l hl => ?_, hg.2⟩
    · simp only [sepOf, List.all_cons, List.all_append, List.cons_append, indB_ws]
      cases c.spaceBefore <;> rfl
    · rcases List.mem_cons.1 hl with rfl | hl
      · have := hg.1 _ (List.mem_cons_self ..)
        exact ⟨⟨rfl, this.1.2⟩, rfl⟩
      · exact hg.1 l (List.mem_cons_of_mem _ hl)

theorem sep_block {d : Nat} {cs : CommentBlock} (h : CommentsOk cs) : (comOf d cs).block false true false = markFirst true cs := by
  have := mkGap_block (pre := [10]) (d := d) (tail := indB d) true rfl h
  rw [← this]
  cases cs with
  | nil => rfl
  | cons c cs => simp [comOf, mkGap, Gap.block, Gap.comments, CommentLine.comment, markFirst]

/-! ### The end of a block -/

/-- The gap in front of the closing bracket. -/
def footGap (n : Nat) (e empty : Bool) (f : CommentBlock) : Gap :=
  if empty && f.isEmpty then (if e then ⟨[], 10 :: indB n⟩ else Gap.empty)
  else mkGap (if empty || f.isEmpty then [10] else [10, 10]) (n + 1) f (indB n)

theorem block_text {n : Nat} {e empty : Bool} {close : Bytes} {X : List Piece} {f : CommentBlock} (he : X.isEmpty = empty) :
    render (blockP n e close X f) = (if empty then [] else 10 :: render X) ++ (footGap n e empty f).text ++ close := by
  unfold blockP footGap
  rw [he]
  cases empty with
  | true =>
    have : X = [] := by simpa using he
    subst this
    cases f with
    | nil => cases e <;> simp [render, Gap.text, Gap.empty, render_ind, Piece.text] <;> rw [← render_ind] <;> rfl
    | cons c f =>
      simp [mkGap_text, render_append, render_cons, render_ind, Piece.text, show render ([] : List Piece) = [] from rfl]
  | false =>
    cases f with
    | nil => simp [mkGap_text, render_append, render_cons, render_ind, Piece.text, comsP, show render ([] : List Piece) = [] from rfl]
    | cons c f => simp [mkGap_text, render_append, render_cons, render_ind, Piece.text, show render ([] : List Piece) = [] from rfl]

theorem foot_ok {n : Nat} {e empty : Bool} {f : CommentBlock} (h : CommentsOk f) :
    (footGap n e empty f).Ok ∧ (footGap n e empty f).block false false false = markFirst false f := by
  unfold footGap
  split
  · next hc =>
    simp only [Bool.and_eq_true, List.isEmpty_iff] at hc
    obtain ⟨_, rfl⟩ := hc
    cases e
    · exact ⟨⟨by simp [Gap.empty], rfl⟩, rfl⟩
    · exact ⟨⟨by simp, by simp only [List.all_cons, indB_ws, if_true]; rfl⟩, rfl⟩
  · exact ⟨mkGap_ok (by split <;> rfl) (indB_ws n) fun c hc => (h c hc).1, mkGap_block false (by split <;> rfl) h⟩

/-! ### Names -/

/-- The literal a name is the text of. -/
def litOf (n : Bytes) : StrLit :=
  if n.head? = some 34 then ⟨.doubleQuoted, (n.drop 1).dropLast⟩
  else if n.head? = some 39 then ⟨.singleQuoted, (n.drop 1).dropLast⟩
  else ⟨.bareword, n⟩

theorem litOf_text {s : StrLit} (h : s.Name) : litOf s.text = s := by
  obtain ⟨sat, body⟩ := s
  rcases h with ⟨h1, h2, h3⟩ | ⟨h1, h2⟩ | ⟨h1, h2⟩ <;> simp only at h1 <;> subst h1
  · simp only [StrLit.text, StrLit.quote, List.nil_append, List.append_nil]
    unfold litOf
    cases body with
    | nil => exact absurd rfl h2
    | cons c t =>
      simp only [List.all_cons, Bool.and_eq_true] at h3
      have := h3.1
      rw [if_neg, if_neg]
      · intro h; simp at h; rw [h] at this; exact absurd this (by decide)
      · intro h; simp at h; rw [h] at this; exact absurd this (by decide)
  · simp [StrLit.text, StrLit.quote, litOf]
  · simp [StrLit.text, StrLit.quote, litOf]

theorem litOf_ok {n : Bytes} (h : NameOk n) : (litOf n).Name ∧ (litOf n).text = n := by
  obtain ⟨s, h1, rfl⟩ := h
  rw [litOf_text h1]; exact ⟨h1, rfl⟩

/-! ### Values -/

/-- The syntax tree of a key. -/
def keyC : HKey → CKey
  | .str a => .str ⟨a.sat, a.value⟩
  | .num a => .num a.valueStr

mutual
/-- The syntax tree of a value at depth `n`. -/
def valC : Nat → Attr → CVal
  | _, .nil => .num []
  | _, .str a => .str ⟨a.sat, a.value⟩
  | _, .num a => .num a.valueStr
  | n, .arr _ _ as _ f => .arr (elemsC (n + 1) as) (footGap n false as.isEmpty f)
  | n, .hash _ _ es _ f => .hash (entriesC true (n + 1) es) (footGap n false es.isEmpty f)
  | n, .plug _ _ p _ => .plug (plugC n p)
/-- Array elements. -/
def elemsC : Nat → List Attr → List CElem
  | _, [] => []
  | n, a :: as => .mk Gap.empty (mkGap [10] n a.comment (indB n)) (valC n a) :: elemsC n as
/-- Hash entries. -/
def entriesC : Bool → Nat → List HEntry → List CEntry
  | _, _, [] => []
  | first, n, .mk _ k v c :: es =>
    .mk (sepOf n c) (if first then mkGap [10] n c (indB n) else comOf n c) (keyC k) Gap.blank Gap.blank (valC n v) :: entriesC false n es
/-- A plugin. -/
def plugC : Nat → Plugin → CPlugin
  | n, .mk _ name as _ f => .mk (litOf name) Gap.blank (attrsC true (n + 1) as) (footGap n false as.isEmpty f)
/-- Attributes. -/
def attrsC : Bool → Nat → List Attr → List CAttr
  | _, _, [] => []
  | first, n, a :: as =>
    .mk (sepOf n a.comment) (if first then mkGap [10] n a.comment (indB n) else comOf n a.comment) (litOf a.name) Gap.blank Gap.blank (valC n a) ::
      attrsC false n as
end

theorem elemsP_empty {as : List Attr} (n : Nat) (h : ElemsOk true as) : (elemsP true n as).isEmpty = as.isEmpty := by
  cases as with
  | nil => rfl
  | cons a as =>
    rw [ElemsOk] at h
    obtain ⟨c, _, h2⟩ := valP_head h.1
    obtain ⟨X, hX⟩ := h2 n
    rw [elemsP, hX]
    simp
theorem entriesP_empty {es : List HEntry} (n : Nat) : (entriesP true n es).isEmpty = es.isEmpty := by
  cases es with
  | nil => rfl
  | cons e es => obtain ⟨p, k, v, c⟩ := e; rw [entriesP]; simp
theorem attrsP_empty {as : List Attr} (n : Nat) : (attrsP true n as).isEmpty = as.isEmpty := by
  cases as with
  | nil => rfl
  | cons a as => rw [attrsP]; simp

theorem withComment_bare {x : CommentBlock} {n : Bytes} {b : Attr} (h : b.name = n) :
    withComment x (withName n (withComment [] (withName [] b))) = withComment x b := by
  subst h; cases b <;> rfl
theorem withComment_bare0 {x : CommentBlock} {b : Attr} (h : b.name = []) :
    withComment x (withComment [] (withName [] b)) = withComment x b := by
  cases b <;> simp_all [Attr.name, withComment, withName]
theorem bare_self {b : Attr} (h : b.name = []) (hc : b.comment = []) : withComment [] (withName [] b) = b := by
  cases b with
  | str a => cases a; simp_all [Attr.name, Attr.comment, withComment, withName]
  | num a => cases a; simp_all [Attr.name, Attr.comment, withComment, withName]
  | _ => simp_all [Attr.name, Attr.comment, withComment, withName]

theorem settleVal_name (a : Attr) : (settleVal a).name = a.name ∧ (settleVal a).comment = a.comment := by
  cases a <;> rw [settleVal] <;> exact ⟨rfl, rfl⟩

theorem key_ok {k : HKey} (h : KeyOk true k) : (keyC k).text = k.valueStr ∧ (keyC k).Ok ∧ (keyC k).ast = AMap.noPos.hkey k := by
  cases k with
  | str a =>
    refine ⟨(strAttr_text a (value_name h.1)).symm, h.1, ?_⟩
    obtain ⟨p, n, v, s, c⟩ := a
    obtain ⟨_, h2, h3⟩ := h
    simp only at h2 h3
    subst h2 h3
    rfl
  | num a =>
    obtain ⟨p, n, v, c⟩ := a
    obtain ⟨h1, h2, h3⟩ := h
    simp only at h2 h3
    subst h2 h3
    have hx := numString_exact (h1 rfl).1 (h1 rfl).2
    refine ⟨rfl, ⟨hx.1, by simp only [NumAttr.valueStr]; rw [hx.2]; rfl⟩, ?_⟩
    simp only [keyC, CKey.ast, numAst, NumAttr.valueStr, hx.2]; rfl

/-- Replace the comment block of a plugin. -/
def pluginComment (c : CommentBlock) : Plugin → Plugin
  | .mk p n as _ f => .mk p n as c f

theorem blank_ok : Gap.blank.Ok := ⟨by simp [Gap.blank], rfl⟩
theorem empty_ok : Gap.empty.Ok := ⟨by simp [Gap.empty], rfl⟩

mutual
theorem valC_ok : ∀ (a : Attr) (n : Nat), ValueOk true a →
    (valC n a).text = render (valP n a) ∧ (valC n a).Ok ∧ (valC n a).isPlug = a.isPlug ∧
      (valC n a).ast false = withComment [] (withName [] (settleVal a))
  | .nil, n, h => absurd h (by simp [ValueOk])
  | .str a, n, h => by
    rw [ValueOk] at h
    rw [valC, valP, settleVal]
    refine ⟨?_, ?_, rfl, ?_⟩
    · rw [CVal.text, render_code, strAttr_text a (value_name h)]; simp [render]
    · rw [CVal.Ok]; exact h
    · rw [CVal.ast]; rfl
  | .num a, n, h => by
    rw [ValueOk] at h
    have hx := numString_exact (h rfl).1 (h rfl).2
    rw [valC, valP, settleVal]
    refine ⟨?_, ?_, rfl, ?_⟩
    · rw [CVal.text, render_code]; simp [render]
    · rw [CVal.Ok]; exact ⟨hx.1, by rw [NumAttr.valueStr, hx.2]; rfl⟩
    · rw [CVal.ast, numAst, NumAttr.valueStr, hx.2]; rfl
  | .arr p m as c f, n, h => by
    rw [ValueOk] at h
    obtain ⟨t1, t2, t3, t4⟩ := elemsC_ok as (n + 1) h.1
    have hf := foot_ok (n := n) (e := false) (empty := as.isEmpty) h.2
    rw [valC, valP, settleVal]
    refine ⟨?_, ?_, rfl, ?_⟩
    · rw [CVal.text, render_code, block_text (elemsP_empty _ h.1), t2]; simp
    · rw [CVal.Ok]; exact ⟨t3 true, hf.1⟩
    · rw [CVal.ast, t4, hf.2]; rfl
  | .hash p m es c f, n, h => by
    rw [ValueOk] at h
    obtain ⟨t1, t2, t3, t4⟩ := entriesC_ok es (n + 1) h.1
    have hf := foot_ok (n := n) (e := false) (empty := es.isEmpty) h.2
    rw [valC, valP, settleVal]
    refine ⟨?_, ?_, rfl, ?_⟩
    · rw [CVal.text, render_code, block_text (entriesP_empty _), t2]; simp
    · rw [CVal.Ok]; exact ⟨t3 true, hf.1⟩
    · rw [CVal.ast, t4, hf.2]; rfl
  | .plug p m v c, n, h => by
    rw [ValueOk] at h
    obtain ⟨t1, t2, t3⟩ := plugC_ok v n h.1
    rw [valC, valP, settleVal]
    refine ⟨?_, ?_, rfl, ?_⟩
    · rw [CVal.text, t1]
    · rw [CVal.Ok]; exact t2
    · rw [CVal.ast, t3]
      obtain ⟨p', n', as', c', f'⟩ := v
      have hc : c' = [] := h.2
      subst hc
      rw [settlePlugin]; rfl
theorem elemsC_ok : ∀ (as : List Attr) (n : Nat), ElemsOk true as →
    elemsText false (elemsC n as) = render (elemsP false n as) ∧
    elemsText true (elemsC n as) = (if as.isEmpty then [] else 10 :: render (elemsP true n as)) ∧
    (∀ first, elemsOk first (elemsC n as)) ∧ (∀ first, elemsAst false first (elemsC n as) = settleAttrs first as)
  | [], n, h => by
    rw [elemsC, elemsText, elemsText, elemsP, elemsP]
    exact ⟨rfl, rfl, fun _ => by rw [elemsOk]; trivial, fun _ => by rw [elemsAst, settleAttrs]⟩
  | a :: as, n, h => by
    rw [ElemsOk] at h
    obtain ⟨h1, h2, h3, h4, h5⟩ := h
    obtain ⟨v1, v2, v3, v4⟩ := valC_ok a n h1
    obtain ⟨t1, t2, t3, t4⟩ := elemsC_ok as n h5
    rw [elemsC, elemsText, elemsText, elemsP, elemsP, t1, v1, mkGap_text]
    refine ⟨?_, ?_, fun first => ?_, fun first => ?_⟩
    · simp [Gap.empty, Gap.text, render_append, render_cons, render_ind, Piece.text, show render ([] : List Piece) = [] from rfl]
    · simp [render_append, render_cons, render_ind, Piece.text, show render ([] : List Piece) = [] from rfl]
    · rw [elemsOk]
      exact ⟨empty_ok, mkGap_ok rfl (indB_ws n) fun c hc => (h4 c hc).1, v2, fun _ => v3.trans h2, t3 false⟩
    · rw [elemsAst, if_neg (by rw [v3, h2]; simp), settleAttrs, v4, t4, mkGap_block _ rfl h4,
        withComment_bare0 ((settleVal_name a).1.trans h3)]
theorem entriesC_ok : ∀ (es : List HEntry) (n : Nat), EntriesOk true es →
    entriesText false (entriesC false n es) = render (entriesP false n es) ∧
    entriesText true (entriesC true n es) = (if es.isEmpty then [] else 10 :: render (entriesP true n es)) ∧
    (∀ first, entriesOk first (entriesC first n es)) ∧ (∀ first, entriesAst false first (entriesC first n es) = settleEntries first es)
  | [], n, h => by
    rw [entriesC, entriesC, entriesText, entriesText, entriesP, entriesP]
    exact ⟨rfl, rfl, fun _ => by rw [entriesC, entriesOk]; trivial, fun _ => by rw [entriesC, entriesAst, settleEntries]⟩
  | .mk p k v c :: es, n, h => by
    rw [EntriesOk] at h
    obtain ⟨h1, h2, h3, h4, h5, h6, h7⟩ := h
    obtain ⟨k1, k2, k3⟩ := key_ok h1
    obtain ⟨v1, v2, v3, v4⟩ := valC_ok v n h2
    obtain ⟨t1, t2, t3, t4⟩ := entriesC_ok es n h7
    rw [entriesC, entriesC, entriesText, entriesText, entriesP, entriesP, t1, v1, k1]
    refine ⟨?_, ?_, fun first => ?_, fun first => ?_⟩
    · simp only [Bool.false_eq_true, if_false, sep_text]
      simp [Gap.blank, Gap.text, render_append, render_cons, render_ind, Piece.text, show render ([] : List Piece) = [] from rfl]
    · simp [Gap.blank, mkGap_text, render_append, render_cons, render_ind, Piece.text, show render ([] : List Piece) = [] from rfl]
      simp [Gap.text]
    · rw [entriesC, entriesOk]
      refine ⟨?_, ?_, k2, blank_ok, blank_ok, v2, v3.trans h3, t3 false⟩
      · rintro rfl; exact (sep_ok h6).1
      · cases first
        · exact (sep_ok h6).2
        · exact mkGap_ok rfl (indB_ws n) fun c hc => (h6 c hc).1
    · rw [entriesC, entriesAst, settleEntries, k3, v4, t4, bare_self ((settleVal_name v).1.trans h4) ((settleVal_name v).2.trans h5)]
      cases first
      · simp only [Bool.false_eq_true, if_false]; rw [sep_block h6, markFirst_twice]
      · simp only [if_true]; rw [mkGap_block _ rfl h6, markFirst_twice]
theorem plugC_ok : ∀ (p : Plugin) (n : Nat), PluginOk true p →
    (plugC n p).text = render (plugP n p) ∧ (plugC n p).Ok ∧ (∀ c, (plugC n p).ast false c = pluginComment c (settlePlugin p))
  | .mk p name as c f, n, h => by
    rw [PluginOk] at h
    obtain ⟨t1, t2, t3, t4⟩ := attrsC_ok as (n + 1) h.2.1
    have hf := foot_ok (n := n) (e := false) (empty := as.isEmpty) h.2.2.2
    obtain ⟨l1, l2⟩ := litOf_ok h.1
    rw [plugC, plugP, settlePlugin]
    refine ⟨?_, ?_, fun c' => ?_⟩
    · rw [CPlugin.text, render_code, block_text (attrsP_empty _), t2, l2]; simp [Gap.blank, Gap.text]
    · rw [CPlugin.Ok]; exact ⟨l1, blank_ok, t3 true, hf.1⟩
    · rw [CPlugin.ast, t4, hf.2, l2]; rfl
theorem attrsC_ok : ∀ (as : List Attr) (n : Nat), AttrsOk true as →
    attrsText false (attrsC false n as) = render (attrsP false n as) ∧
    attrsText true (attrsC true n as) = (if as.isEmpty then [] else 10 :: render (attrsP true n as)) ∧
    (∀ first, attrsOk first (attrsC first n as)) ∧ (∀ first, attrsAst false first (attrsC first n as) = settleAttrs first as)
  | [], n, h => by
    rw [attrsC, attrsC, attrsText, attrsText, attrsP, attrsP]
    exact ⟨rfl, rfl, fun _ => by rw [attrsC, attrsOk]; trivial, fun _ => by rw [attrsC, attrsAst, settleAttrs]⟩
  | a :: as, n, h => by
    rw [AttrsOk] at h
    obtain ⟨h1, h2, h3, h4⟩ := h
    obtain ⟨v1, v2, v3, v4⟩ := valC_ok a n h1
    obtain ⟨t1, t2, t3, t4⟩ := attrsC_ok as n h4
    obtain ⟨l1, l2⟩ := litOf_ok h2
    rw [attrsC, attrsC, attrsText, attrsText, attrsP, attrsP, t1, v1, l2]
    refine ⟨?_, ?_, fun first => ?_, fun first => ?_⟩
    · simp only [Bool.false_eq_true, if_false, sep_text]
      simp [Gap.blank, Gap.text, render_append, render_cons, render_ind, Piece.text, show render ([] : List Piece) = [] from rfl]
    · simp [Gap.blank, mkGap_text, render_append, render_cons, render_ind, Piece.text, show render ([] : List Piece) = [] from rfl]
      simp [Gap.text]
    · rw [attrsC, attrsOk]
      refine ⟨?_, ?_, l1, blank_ok, blank_ok, v2, t3 false⟩
      · rintro rfl; exact (sep_ok h3).1
      · cases first
        · exact (sep_ok h3).2
        · exact mkGap_ok rfl (indB_ws n) fun c hc => (h3 c hc).1
    · rw [attrsC, attrsAst, settleAttrs, v4, t4, l2, withComment_bare (settleVal_name a).1]
      cases first
      · simp only [Bool.false_eq_true, if_false, Bool.not_false]; rw [sep_block h3]
      · simp only [if_true, Bool.not_true]; rw [mkGap_block _ rfl h3]
end

end Verif
