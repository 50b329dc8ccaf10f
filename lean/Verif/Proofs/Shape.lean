import Verif.Spec.Printable
import Verif.Spec.Cst
/-
The configuration a concrete syntax tree denotes has the shape `Shaped`, and contains no pointers
to plugins.
-/
namespace Verif
open Spec

theorem trim_idem (c : UInt8) (b : Bytes) : trim c (trim c b) = trim c b := by
  unfold trim
  have h1 : ∀ x : Bytes, trimRight c (trimRight c x) = trimRight c x := by
    intro x; unfold trimRight
    rw [List.reverse_reverse]
    generalize x.reverse = y
    induction y with
    | nil => rfl
    | cons a y ih =>
      rw [List.dropWhile_cons]
      split
      · exact ih
      · next h => rw [List.dropWhile_cons, if_neg h]
  have hpre : ∀ x : Bytes, trimRight c x <+: x := by
    intro x; unfold trimRight
    have := List.dropWhile_suffix (l := x.reverse) (· == c)
    have := List.reverse_prefix.2 this
    rwa [List.reverse_reverse] at this
  have h2 : (trimRight c (b.dropWhile (· == c))).dropWhile (· == c) = trimRight c (b.dropWhile (· == c)) := by
    obtain ⟨r, hr⟩ := hpre (b.dropWhile (· == c))
    cases ht : trimRight c (b.dropWhile (· == c)) with
    | nil => rfl
    | cons x xs =>
      rw [ht] at hr
      have : (b.dropWhile (· == c)).head? = some x := by rw [← hr]; rfl
      have hx := List.head?_dropWhile_not (· == c) b
      rw [this] at hx
      simp at hx
      rw [List.dropWhile_cons, if_neg (by simpa using hx)]
  rw [h2, h1]

theorem trim_subset {c x : UInt8} {b : Bytes} (h : x ∈ trim c b) : x ∈ b := by
  unfold trim trimRight at h
  rw [List.mem_reverse] at h
  have := (List.dropWhile_sublist (· == c)).mem h
  rw [List.mem_reverse] at this
  exact (List.dropWhile_sublist (· == c)).mem this

theorem line_comment {l : CommentLine} (h : l.OkEnd) (sp : Bool) : CommentText (l.comment sp).text ∧ (l.comment sp).spaceAfter = false := by
  refine ⟨⟨fun c hc => ?_, trim_idem _ _⟩, rfl⟩
  have := h.2
  rw [List.all_eq_true] at this
  have := this c (trim_subset hc)
  simp at this
  exact ⟨this.2, this.1⟩

theorem gap_comments {g : Gap} (h : ∀ l ∈ g.lines, l.OkEnd) : CommentsOk g.comments := by
  obtain ⟨ls, t⟩ := g
  intro c hc
  unfold Gap.comments at hc
  cases ls with
  | nil => simp at hc
  | cons l ls =>
    rcases List.mem_cons.1 hc with rfl | hc
    · exact line_comment (h l (List.mem_cons_self ..)) _
    · obtain ⟨l', hl', rfl⟩ := List.mem_map.1 hc
      exact line_comment (h l' (List.mem_cons_of_mem _ hl')) _

theorem mark_ok {b : Bool} {cs : CommentBlock} (h : CommentsOk cs) : CommentsOk (markFirst b cs) := by
  cases cs with
  | nil => exact h
  | cons c cs =>
    intro x hx
    rcases List.mem_cons.1 hx with rfl | hx
    · exact h c (List.mem_cons_self ..)
    · exact h x (List.mem_cons_of_mem _ hx)

theorem block_ok' {g : Gap} (h : ∀ l ∈ g.lines, l.OkEnd) (ign b : Bool) : CommentsOk (g.block ign b false) := by
  unfold Gap.block
  cases ign with
  | true => intro c hc; simp at hc
  | false =>
    simp only [Bool.false_eq_true, if_false, Bool.false_and]
    split
    · exact mark_ok (gap_comments h)
    · exact gap_comments h

theorem gap_lines {g : Gap} (h : g.Ok) : ∀ l ∈ g.lines, l.OkEnd := fun l hl => (h.1 l hl).1

theorem block_ok {g : Gap} (h : g.Ok) (ign b : Bool) : CommentsOk (g.block ign b false) := block_ok' (gap_lines h) ign b

theorem markLast_ok : ∀ {cs : CommentBlock}, CommentsOk cs → SectionCommentsOk (markLast cs)
  | [], h => ⟨fun c hc => (h c hc).1, fun c hc => by simp [markLast] at hc⟩
  | [c], h => ⟨fun x hx => by simp [markLast] at hx; subst hx; exact (h c (by simp)).1, fun x hx => by simp [markLast] at hx⟩
  | c :: d :: cs, h => by
    have ih := markLast_ok (cs := d :: cs) fun x hx => h x (List.mem_cons_of_mem _ hx)
    rw [markLast]
    refine ⟨fun x hx => ?_, fun x hx => ?_⟩
    · rcases List.mem_cons.1 hx with rfl | hx
      · exact (h x (by simp)).1
      · exact ih.1 x hx
    · cases hm : markLast (d :: cs) with
      | nil => rw [hm] at hx; simp at hx
      | cons y ys =>
        rw [hm, List.dropLast_cons_cons, ← hm] at hx
        rcases List.mem_cons.1 hx with rfl | hx
        · exact (h x (by simp)).2
        · exact ih.2 x hx

theorem section_block_ok {g : Gap} (h : g.Ok) (ign first : Bool) : SectionCommentsOk (g.block ign false first) := by
  have hc := gap_comments (gap_lines h)
  unfold Gap.block
  cases ign with
  | true => exact ⟨by simp, by simp⟩
  | false =>
    simp only [Bool.false_eq_true, if_false]
    split
    · exact markLast_ok hc
    · exact ⟨fun c h => (hc c h).1, fun c h => (hc c (List.dropLast_subset _ h)).2⟩

/-! ### Values -/

theorem keyOk_ast {k : CKey} (h : k.Ok) : KeyOk false k.ast := by
  cases k with
  | str s => exact ⟨h, rfl, rfl⟩
  | num t => exact ⟨(fun h => nomatch h), rfl, rfl⟩

theorem valueOk_with' {t : Bool} (c : CommentBlock) {a : Attr} (h : ValueOk t a) : ValueOk t (withComment c a) := by
  cases a <;> simp only [withComment, ValueOk] at h ⊢ <;> exact h
theorem valueOk_name {t : Bool} (n : Bytes) {a : Attr} (h : ValueOk t a) : ValueOk t (withName n a) := by
  cases a <;> simp only [withName, ValueOk] at h ⊢ <;> exact h

theorem val_ast (ign : Bool) (v : CVal) : (v.ast ign).isPlug = v.isPlug ∧ (v.ast ign).name = [] ∧ (v.ast ign).comment = [] ∧ v.ast ign ≠ .nil := by
  cases v <;> rw [CVal.ast] <;> exact ⟨rfl, rfl, rfl, by simp⟩

theorem with_attr (c : CommentBlock) {a : Attr} (h : a ≠ .nil) :
    (withComment c a).isPlug = a.isPlug ∧ (withComment c a).name = a.name ∧ (withComment c a).comment = c := by
  cases a <;> first | exact ⟨rfl, rfl, rfl⟩ | exact absurd rfl h
theorem name_attr (n : Bytes) {a : Attr} (h : a ≠ .nil) : (withName n a).name = n ∧ withName n a ≠ .nil := by
  cases a <;> first | exact ⟨rfl, by simp [withName]⟩ | exact absurd rfl h

mutual
theorem valueOk_ast {ign : Bool} : ∀ v : CVal, v.Ok → ValueOk false (v.ast ign)
  | .str s, h => by rw [CVal.Ok] at h; rw [CVal.ast]; exact h
  | .num t, h => by rw [CVal.ast]; exact (fun h => nomatch h)
  | .arr es f, h => by rw [CVal.Ok] at h; rw [CVal.ast, ValueOk]; exact ⟨elemsOk_ast es true h.1, block_ok h.2 _ _⟩
  | .hash es f, h => by rw [CVal.Ok] at h; rw [CVal.ast, ValueOk]; exact ⟨entriesOk_ast es true h.1, block_ok h.2 _ _⟩
  | .plug p, h => by
    rw [CVal.Ok] at h; rw [CVal.ast, ValueOk]
    refine ⟨pluginOk_ast p [] (fun c hc => by simp at hc) h, ?_⟩
    cases p; rw [CPlugin.ast]; rfl
theorem elemsOk_ast {ign : Bool} : ∀ (es : List CElem) (first : Bool), elemsOk first es → ElemsOk false (elemsAst ign first es)
  | [], _, h => by rw [elemsAst, ElemsOk]; trivial
  | .mk pre com v :: r, first, h => by
    rw [elemsOk] at h
    obtain ⟨h1, h2, h3, h4, h5⟩ := h
    rw [elemsAst]
    split
    · exact elemsOk_ast r false h5
    · next hp =>
      have hv := val_ast ign v
      have hw := with_attr (com.block ign (!first) false) hv.2.2.2
      rw [ElemsOk, hw.1, hw.2.1, hw.2.2, hv.1, hv.2.1]
      exact ⟨valueOk_with' _ (valueOk_ast v h3), by simpa using hp, rfl, block_ok h2 _ _, elemsOk_ast r false h5⟩
theorem entriesOk_ast {ign : Bool} : ∀ (es : List CEntry) (first : Bool), entriesOk first es → EntriesOk false (entriesAst ign first es)
  | [], _, h => by rw [entriesAst, EntriesOk]; trivial
  | .mk sep com k g1 g2 v :: r, first, h => by
    rw [entriesOk] at h
    obtain ⟨h1, h2, h3, h4, h5, h6, h7, h8⟩ := h
    have hv := val_ast ign v
    rw [entriesAst, EntriesOk, hv.1, hv.2.1, hv.2.2.1]
    exact ⟨keyOk_ast h3, valueOk_ast v h6, h7, rfl, rfl, mark_ok (block_ok h2 _ _), entriesOk_ast r false h8⟩
theorem pluginOk_ast {ign : Bool} : ∀ (p : CPlugin) (c : CommentBlock), CommentsOk c → p.Ok → PluginOk false (p.ast ign c)
  | .mk name g attrs foot, c, hc, h => by
    rw [CPlugin.Ok] at h
    rw [CPlugin.ast, PluginOk]
    exact ⟨⟨name, h.1, rfl⟩, attrsOk_ast attrs true h.2.2.1, hc, block_ok h.2.2.2 _ _⟩
theorem attrsOk_ast {ign : Bool} : ∀ (es : List CAttr) (first : Bool), attrsOk first es → AttrsOk false (attrsAst ign first es)
  | [], _, h => by rw [attrsAst, AttrsOk]; trivial
  | .mk sep com n g1 g2 v :: r, first, h => by
    rw [attrsOk] at h
    obtain ⟨h1, h2, h3, h4, h5, h6, h7⟩ := h
    have hv := val_ast ign v
    have hn := name_attr n.text hv.2.2.2
    have hw := with_attr (com.block ign (!first) false) hn.2
    rw [attrsAst, AttrsOk, hw.2.1, hw.2.2, hn.1]
    exact ⟨valueOk_with' _ (valueOk_name _ (valueOk_ast v h6)), ⟨n, h3, rfl⟩, block_ok h2 _ _, attrsOk_ast r false h7⟩
end

/-! ### Conditions -/

theorem sel_names (names : List Bytes) : (selAst names).elems.map (·.name) = names := by
  simp only [selAst, List.map_map]; exact List.map_id _

theorem rvalueOk_ast {ign : Bool} {r : CRval} (h : r.Ok) : RvalueOk false (r.ast ign) := by
  cases r with
  | str s => exact ⟨h, rfl, rfl⟩
  | num t => exact ⟨(fun h => nomatch h), rfl, rfl⟩
  | sel names => exact ⟨by simp only [sel_names]; exact h, (fun h => nomatch h)⟩
  | arr es f =>
    have := valueOk_ast (ign := ign) _ h.1
    rw [CVal.ast, ValueOk] at this
    exact ⟨this.1, this.2, rfl, rfl, (fun h => nomatch h)⟩
  | re b => exact ⟨h, (fun h => nomatch h)⟩

theorem isPattern_ast {ign : Bool} {r : CRval} (h : r.IsPattern) : IsPattern (r.ast ign) := by cases r <;> exact h

mutual
theorem exprOk_ast {ign : Bool} : ∀ (e : CExpr) (op : BoolOpKind) (first : Bool), JoinOk first (joined op) → e.Ok → ExprOk false first (e.ast ign op)
  | .paren g1 c g2, op, first, hj, h => by rw [CExpr.Ok] at h; rw [CExpr.ast, ExprOk]; exact ⟨hj, condOk_ast c h.2.1⟩
  | .notParen g0 g1 c g2, op, first, hj, h => by rw [CExpr.Ok] at h; rw [CExpr.ast, ExprOk]; exact ⟨hj, condOk_ast c h.2.2.1⟩
  | .notSel g names, op, first, hj, h => by
    rw [CExpr.Ok] at h; rw [CExpr.ast, ExprOk, sel_names]; exact ⟨hj, h.2, (fun h => nomatch h)⟩
  | .inE l g1 g2 r, op, first, hj, h => by
    rw [CExpr.Ok] at h; rw [CExpr.ast, ExprOk]; exact ⟨hj, rvalueOk_ast h.1, rvalueOk_ast h.2.2.2⟩
  | .notIn l g1 g2 g3 r, op, first, hj, h => by
    rw [CExpr.Ok] at h; rw [CExpr.ast, ExprOk]; exact ⟨hj, rvalueOk_ast h.1, rvalueOk_ast h.2.2.2.2⟩
  | .cmp l g1 o g2 r, op, first, hj, h => by
    rw [CExpr.Ok] at h; rw [CExpr.ast, ExprOk]; exact ⟨hj, rvalueOk_ast h.1, h.2.2.1, rvalueOk_ast h.2.2.2.2⟩
  | .re l g1 o g2 r, op, first, hj, h => by
    rw [CExpr.Ok] at h; rw [CExpr.ast, ExprOk]
    exact ⟨hj, rvalueOk_ast h.1, h.2.2.1, rvalueOk_ast h.2.2.2.2.1, isPattern_ast h.2.2.2.2.2⟩
  | .rval r, op, first, hj, h => by rw [CExpr.Ok] at h; rw [CExpr.ast, ExprOk]; exact ⟨hj, rvalueOk_ast h⟩
theorem condOk_ast {ign : Bool} : ∀ (c : CCond), c.Ok → CondOk false true (c.ast ign)
  | .mk e more, h => by
    rw [CCond.Ok] at h
    rw [CCond.ast, CondOk]
    exact ⟨exprOk_ast e .noOp true rfl h.1, moreOk_ast more h.2⟩
theorem moreOk_ast {ign : Bool} : ∀ (l : List CMore), moreOk l → CondOk false false (moreAst ign l)
  | [], h => by rw [moreAst, CondOk]
  | .mk g1 op g2 e :: r, h => by
    rw [moreOk] at h
    rw [moreAst, CondOk]
    exact ⟨exprOk_ast e op false ⟨h.2.1.2, h.2.1.1⟩ h.2.2.2.1, moreOk_ast r h.2.2.2.2⟩
end

/-! ### Blocks -/

mutual
theorem bopOk_ast {ign : Bool} : ∀ i : CItem, i.Ok → BopOk false (i.ast ign) ∧ derefBop (i.ast ign) = i.ast ign
  | .plugin com p, h => by
    rw [CItem.Ok] at h
    rw [CItem.ast, BopOk, derefBop]
    exact ⟨⟨pluginOk_ast p _ (block_ok h.1 _ _) h.2, (fun h => nomatch h)⟩, rfl⟩
  | .branch com g1 c g2 items foot elifs els, h => by
    rw [CItem.Ok] at h
    obtain ⟨h1, h2, h3, h4, h5, h6, h7, h8⟩ := h
    obtain ⟨a1, a2⟩ := blockOk_ast (ign := ign) items h5
    obtain ⟨b1, b2⟩ := elifsOk_ast (ign := ign) elifs h7
    obtain ⟨c1, c2⟩ := elseOk_ast (ign := ign) els h8
    rw [CItem.ast, BopOk, derefBop, a2, b2, c2]
    exact ⟨⟨condOk_ast c h3, a1, block_ok h1 _ _, block_ok h6 _ _, b1, c1⟩, rfl⟩
theorem blockOk_ast {ign : Bool} : ∀ l : List CItem, itemsOk l → BlockOk false (itemsAst ign l) ∧ derefBlock (itemsAst ign l) = itemsAst ign l
  | [], h => by rw [itemsAst, BlockOk, derefBlock]; exact ⟨trivial, rfl⟩
  | i :: r, h => by
    rw [itemsOk] at h
    obtain ⟨a1, a2⟩ := bopOk_ast (ign := ign) i h.1
    obtain ⟨b1, b2⟩ := blockOk_ast (ign := ign) r h.2
    rw [itemsAst, BlockOk, derefBlock, a2, b2]
    exact ⟨⟨a1, (fun h => nomatch h), b1⟩, rfl⟩
theorem elifsOk_ast {ign : Bool} : ∀ l : List CElif, elifsOk l → ElifsOk false (elifsAst ign l) ∧ derefElifs (elifsAst ign l) = elifsAst ign l
  | [], h => by rw [elifsAst, ElifsOk, derefElifs]; exact ⟨trivial, rfl⟩
  | .mk com g0 g1 c g2 items foot :: r, h => by
    rw [elifsOk] at h
    obtain ⟨h1, h2, h3, h4, h5, h6, h7, h8⟩ := h
    obtain ⟨a1, a2⟩ := blockOk_ast (ign := ign) items h6
    obtain ⟨b1, b2⟩ := elifsOk_ast (ign := ign) r h8
    rw [elifsAst, ElifsOk, derefElifs, a2, b2]
    exact ⟨⟨condOk_ast c h4, a1, block_ok h1 _ _, block_ok h7 _ _, b1⟩, rfl⟩
theorem elseOk_ast {ign : Bool} : ∀ e : CElse, e.Ok → ElseOk false (e.ast ign) ∧ derefElse (e.ast ign) = e.ast ign
  | .none, h => by
    rw [CElse.ast, ElseOk, derefElse, BlockOk, derefBlock]
    exact ⟨⟨trivial, fun c hc => by simp at hc, fun c hc => by simp at hc⟩, rfl⟩
  | .mk com g items foot, h => by
    rw [CElse.Ok] at h
    obtain ⟨a1, a2⟩ := blockOk_ast (ign := ign) items h.2.2.1
    rw [CElse.ast, ElseOk, derefElse, a2]
    exact ⟨⟨a1, block_ok h.1 _ _, block_ok h.2.2.2 _ _⟩, rfl⟩
end

theorem sectionOk_ast {ign first : Bool} {s : CSection} (h : s.Ok) :
    BlockOk false (s.ast ign first).bops ∧ SectionCommentsOk (s.ast ign first).comment ∧ CommentsOk (s.ast ign first).footer ∧
      derefBlock (s.ast ign first).bops = (s.ast ign first).bops :=
  have := blockOk_ast (ign := ign) s.items h.2.2.2.1
  ⟨this.1, section_block_ok h.1 _ _, block_ok h.2.2.2.2 _ _, this.2⟩

theorem okEnd_lines {g : Gap} (h : g.OkEnd) : ∀ l ∈ g.lines, l.OkEnd := by
  rcases h with h | ⟨ls, l, rfl, h1, h2, h3⟩
  · exact gap_lines h
  · intro x hx
    rcases List.mem_append.1 hx with hx | hx
    · exact (h1 x hx).1
    · simp at hx; subst hx; exact h2

/-- The configuration a syntax tree denotes is well-shaped and contains no pointers to plugins. -/
theorem file_shape {ign : Bool} {k : CFile} (h : k.Ok) : Shaped (k.ast ign) ∧ deref (k.ast ign) = k.ast ign := by
  have hall : ∀ s ∈ k.sections ign, BlockOk false s.bops ∧ SectionCommentsOk s.comment ∧ CommentsOk s.footer ∧ derefBlock s.bops = s.bops := by
    intro s hs
    cases k with
    | empty g => simp [CFile.sections] at hs
    | config a ss foot =>
      rcases List.mem_cons.1 hs with rfl | hs
      · exact sectionOk_ast h.1
      · obtain ⟨t, ht, rfl⟩ := List.mem_map.1 hs
        exact sectionOk_ast (h.2.1 t ht)
  have hsec : ∀ t, SectionsOk false t ((k.sections ign).filter (·.ptype = t)) ∧
      derefSects ((k.sections ign).filter (·.ptype = t)) = (k.sections ign).filter (·.ptype = t) := by
    intro t
    refine ⟨fun s hs => ?_, ?_⟩
    · obtain ⟨h1, h2⟩ := List.mem_filter.1 hs
      have := hall s h1
      exact ⟨by simpa using h2, this.1, this.2.1, this.2.2.1⟩
    · unfold derefSects
      refine (List.map_congr_left fun s hs => ?_).trans (List.map_id _)
      have := (hall s (List.mem_filter.1 hs).1).2.2.2
      cases s
      simp only at this
      simp [this]
  refine ⟨⟨(hsec _).1, (hsec _).1, (hsec _).1, ?_⟩, ?_⟩
  · cases k with
    | empty g => intro c hc; simp [CFile.ast] at hc
    | config a ss foot => exact block_ok' (okEnd_lines h.2.2) _ _
  · unfold deref CFile.ast
    simp only [(hsec _).2]

end Verif
