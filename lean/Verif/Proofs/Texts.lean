import Verif.Proofs.Utf8Split
import Verif.Spec.Cst
import Verif.Spec.Printable
/-
The texts of a configuration read from valid UTF-8 are valid UTF-8.
-/
namespace Verif
open Spec

/-! ### All texts of an AST are valid UTF-8 -/

def ComsTx (cs : CommentBlock) : Prop := ∀ c ∈ cs, ValidUTF8 c.text

def KeyTx : HKey → Prop
  | .str a => ValidUTF8 a.value
  | .num _ => True

mutual
def ValTx : Attr → Prop
  | .nil => True
  | .str a => ValidUTF8 a.value
  | .num _ => True
  | .arr _ _ as _ f => AttrsTx as ∧ ComsTx f
  | .hash _ _ es _ f => EntriesTx es ∧ ComsTx f
  | .plug _ _ p _ => PlugTx p
def AttrsTx : List Attr → Prop
  | [] => True
  | a :: as => ValidUTF8 a.name ∧ ComsTx a.comment ∧ ValTx a ∧ AttrsTx as
def EntriesTx : List HEntry → Prop
  | [] => True
  | .mk _ k v c :: es => KeyTx k ∧ ValTx v ∧ ComsTx c ∧ EntriesTx es
def PlugTx : Plugin → Prop
  | .mk _ n as c f => ValidUTF8 n ∧ AttrsTx as ∧ ComsTx c ∧ ComsTx f
end

def SelTx (s : Selector) : Prop := ∀ e ∈ s.elems, ValidUTF8 e.name

def RvTx : Rvalue → Prop
  | .nil => True
  | .str a => ValidUTF8 a.value
  | .num _ => True
  | .sel s => SelTx s
  | .arr _ _ as _ f => AttrsTx as ∧ ComsTx f
  | .re r => ValidUTF8 r.re

mutual
def ExprTx : Expr → Prop
  | .nil => True
  | .cond _ _ c => CondTx c
  | .negCond _ _ c => CondTx c
  | .negSel _ _ s => SelTx s
  | .inE _ _ l r => RvTx l ∧ RvTx r
  | .notIn _ _ l r => RvTx l ∧ RvTx r
  | .rval _ _ r => RvTx r
  | .cmp _ _ l _ r => RvTx l ∧ RvTx r
  | .re _ _ l _ r => RvTx l ∧ RvTx r
def CondTx : List Expr → Prop
  | [] => True
  | e :: es => ExprTx e ∧ CondTx es
end

mutual
def BopTx : BOP → Prop
  | .nil => True
  | .plugin p => PlugTx p
  | .pluginPtr p => PlugTx p
  | .branch _ c b cm f ei el => CondTx c ∧ BlockTx b ∧ ComsTx cm ∧ ComsTx f ∧ ElifsTx ei ∧ ElseTx el
def BlockTx : List BOP → Prop
  | [] => True
  | b :: bs => BopTx b ∧ BlockTx bs
def ElifsTx : List Elif → Prop
  | [] => True
  | .mk _ c b cm f :: es => CondTx c ∧ BlockTx b ∧ ComsTx cm ∧ ComsTx f ∧ ElifsTx es
def ElseTx : ElseB → Prop
  | .mk _ b cm f => BlockTx b ∧ ComsTx cm ∧ ComsTx f
end

def SectTx (s : Section) : Prop := BlockTx s.bops ∧ ComsTx s.comment ∧ ComsTx s.footer

def ConfigTx (c : Config) : Prop :=
  (∀ s ∈ c.input, SectTx s) ∧ (∀ s ∈ c.filter, SectTx s) ∧ (∀ s ∈ c.output, SectTx s) ∧ ComsTx c.footer

/-! ### Splitting a text -/

/-- The text starts with an ASCII byte, and `P` holds if it is valid UTF-8. -/
def Sp (t : Bytes) (P : Prop) : Prop := HeadA t ∧ (ValidUTF8 t → P)

theorem Sp.app {a b : Bytes} {P Q : Prop} (ha : Sp a P) (hb : Sp b Q) : Sp (a ++ b) (P ∧ Q) :=
  ⟨ha.1.app hb.1, fun h => let h := validUTF8_split hb.1 h; ⟨ha.2 h.1, hb.2 h.2⟩⟩

theorem Sp.map {a : Bytes} {P Q : Prop} (ha : Sp a P) (h : P → Q) : Sp a Q := ⟨ha.1, h ∘ ha.2⟩

theorem Sp.ascii {a : Bytes} (h : asciiB a = true) : Sp a True := ⟨headA_ascii h, fun _ => trivial⟩

theorem Sp.triv {a : Bytes} {P : Prop} (h : Sp a P) : Sp a True := h.map fun _ => trivial

/-- The text is ASCII or starts with an ASCII byte, and is valid. -/
theorem Sp.self {a : Bytes} (h : HeadA a) : Sp a (ValidUTF8 a) := ⟨h, id⟩

theorem ws_ascii {b : Bytes} (h : b.all isWs = true) : asciiB b = true := by
  unfold asciiB
  rw [List.all_eq_true] at *
  intro c hc
  have := h c hc
  simp only [isWs, Bool.or_eq_true, decide_eq_true_eq] at this
  rcases this with ((rfl | rfl) | rfl) | rfl <;> decide

theorem nameChar_ascii {c : UInt8} (h : isNameChar c = true) : c < 128 := by
  revert c; decide +kernel

theorem word_ascii {c : UInt8} (h : isWordStart c = true) : c < 128 := by
  revert c; decide +kernel
theorem digit_ascii {c : UInt8} (h : Spec.isDigit c = true) : c < 128 := by
  revert c; decide +kernel

theorem name_ascii {b : Bytes} (h : b.all isNameChar = true) : asciiB b = true := by
  unfold asciiB
  rw [List.all_eq_true] at *
  exact fun c hc => decide_eq_true (nameChar_ascii (h c hc))

theorem ascii_append (a b : Bytes) : asciiB (a ++ b) = (asciiB a && asciiB b) := List.all_append

/-! ### Gaps -/

theorem dropWhile_split {c : UInt8} (b : Bytes) : ∃ u, (∀ x ∈ u, x = c) ∧ b = u ++ b.dropWhile (· == c) := by
  induction b with
  | nil => exact ⟨[], by simp, rfl⟩
  | cons x b ih =>
    by_cases h : x = c
    · subst h
      obtain ⟨u, h1, h2⟩ := ih
      refine ⟨x :: u, by simpa using h1, ?_⟩
      rw [List.dropWhile_cons_of_pos (by simp), List.cons_append, ← h2]
    · exact ⟨[], by simp, by rw [List.dropWhile_cons_of_neg (by simpa using h)]; rfl⟩

theorem ascii_rep {c : UInt8} (hc : c < 128) {u : Bytes} (h : ∀ x ∈ u, x = c) : asciiB u = true := by
  unfold asciiB
  rw [List.all_eq_true]
  intro x hx
  rw [h x hx]; simpa using hc

theorem trim_valid {b : Bytes} (h : ValidUTF8 b) : ValidUTF8 (trim 32 b) := by
  obtain ⟨u, hu, e⟩ := dropWhile_split (c := 32) b
  unfold trim
  rw [e] at h
  have h1 := validUTF8_drop_ascii (ascii_rep (by decide) hu) h
  generalize b.dropWhile (· == 32) = d at *
  unfold trimRight
  obtain ⟨w, hw, e2⟩ := dropWhile_split (c := 32) d.reverse
  have e3 := congrArg List.reverse e2
  rw [List.reverse_reverse, List.reverse_append] at e3
  rw [e3] at h1
  exact validUTF8_drop_right (ascii_rep (by decide) (c := 32) fun x hx => hw x (List.mem_reverse.1 hx)) h1

theorem line_sp {l : CommentLine} (h : l.OkEnd) (sp : Bool) : Sp l.text (ValidUTF8 (l.comment sp).text) := by
  obtain ⟨h1, h2⟩ := h
  have e : l.text = l.ws ++ ([35] ++ l.body ++ ((if l.cr then [13] else []) ++ (if l.lf then [10] else []))) := by
    simp [CommentLine.text]
  have h3 : asciiB ((if l.cr then [13] else []) ++ (if l.lf then [10] else [])) = true := by cases l.cr <;> cases l.lf <;> rfl
  rw [e]
  refine ((Sp.ascii (ws_ascii h1)).app ((?_ : Sp ([35] ++ l.body) (ValidUTF8 l.body)).app (Sp.ascii h3))).map fun h => trim_valid h.2.1
  exact ⟨HeadA.pre (headA_ascii (by decide)) (by simp), validUTF8_drop_ascii (by decide)⟩

theorem lines_sp : ∀ {ls : List CommentLine} (_ : ∀ l ∈ ls, l.OkEnd), Sp (ls.flatMap CommentLine.text) (∀ l ∈ ls, ValidUTF8 (trim 32 l.body))
  | [], _ => (Sp.ascii rfl).map fun _ _ h => nomatch h
  | l :: ls, h => by
    rw [List.flatMap_cons]
    refine ((line_sp (h l (List.mem_cons_self ..)) false).app (lines_sp fun x hx => h x (List.mem_cons_of_mem _ hx))).map fun k => ?_
    intro x hx
    rcases List.mem_cons.1 hx with rfl | hx
    · exact k.1
    · exact k.2 x hx

theorem gapTx_lines {g : Gap} (h : g.OkEnd) : (∀ l ∈ g.lines, l.OkEnd) ∧ g.tail.all isWs = true := by
  rcases h with ⟨h1, h2⟩ | ⟨ls, l, rfl, h1, h2, _⟩
  · exact ⟨fun l hl => (h1 l hl).1, h2⟩
  · refine ⟨fun x hx => ?_, rfl⟩
    rcases List.mem_append.1 hx with hx | hx
    · exact (h1 x hx).1
    · rw [List.mem_singleton.1 hx]; exact h2

theorem comsTx_first {b : Bool} {cs : CommentBlock} (h : ComsTx cs) : ComsTx (markFirst b cs) := by
  cases cs with
  | nil => exact h
  | cons c cs =>
    intro x hx
    rcases List.mem_cons.1 hx with rfl | hx
    · exact h c (List.mem_cons_self ..)
    · exact h x (List.mem_cons_of_mem _ hx)

theorem comsTx_last : ∀ {cs : CommentBlock}, ComsTx cs → ComsTx (markLast cs)
  | [], h => h
  | [c], h => by
    intro x hx
    rw [List.mem_singleton.1 hx]; exact h c (List.mem_cons_self ..)
  | c :: d :: cs, h => by
    intro x hx
    rw [markLast] at hx
    rcases List.mem_cons.1 hx with rfl | hx
    · exact h _ (List.mem_cons_self ..)
    · exact comsTx_last (cs := d :: cs) (fun y hy => h y (List.mem_cons_of_mem _ hy)) x hx

theorem gapEnd_sp (ign before after : Bool) {g : Gap} (h : g.OkEnd) : Sp g.text (ComsTx (g.block ign before after)) := by
  obtain ⟨h1, h2⟩ := gapTx_lines h
  refine ((lines_sp h1).app (Sp.ascii (ws_ascii h2))).map fun k => ?_
  have hc : ComsTx g.comments := by
    intro c hc
    unfold Gap.comments at hc
    split at hc
    · cases hc
    · next l ls he =>
      rcases List.mem_cons.1 hc with rfl | hc
      · exact k.1 l (by rw [he]; exact List.mem_cons_self ..)
      · obtain ⟨x, hx, rfl⟩ := List.mem_map.1 hc
        exact k.1 x (by rw [he]; exact List.mem_cons_of_mem _ hx)
  unfold Gap.block
  split
  · intro c hc; cases hc
  · dsimp only
    have hb : ComsTx (if before then markFirst true g.comments else g.comments) := by
      split
      · exact comsTx_first hc
      · exact hc
    split
    · exact comsTx_last hb
    · exact hb

theorem gap_sp (ign before after : Bool) {g : Gap} (h : g.Ok) : Sp g.text (ComsTx (g.block ign before after)) := gapEnd_sp _ _ _ (.inl h)
theorem gap_t {g : Gap} (h : g.Ok) : Sp g.text True := (gap_sp true true true h).triv

/-! ### Tokens -/

theorem quoted_sp {q : UInt8} (hq : q < 128) (b : Bytes) : Sp ([q] ++ b ++ [q]) (ValidUTF8 ([q] ++ b ++ [q]) ∧ ValidUTF8 b) := by
  have ha : asciiB [q] = true := by simpa [asciiB] using hq
  refine ⟨HeadA.app (HeadA.pre (headA_ascii ha) (by simp)) (headA_ascii ha), fun h => ⟨h, ?_⟩⟩
  exact validUTF8_drop_ascii ha (validUTF8_drop_right ha h)

theorem lit_sp {s : StrLit} (h : s.Name) : Sp s.text (ValidUTF8 s.text ∧ ValidUTF8 s.body) := by
  obtain ⟨sat, b⟩ := s
  rcases h with ⟨h1, _, h2⟩ | ⟨h1, _⟩ | ⟨h1, _⟩ <;> simp only at h1 <;> subst h1
  · have : (⟨.bareword, b⟩ : StrLit).text = b := by simp [StrLit.text, StrLit.quote]
    rw [this]
    have ha := name_ascii h2
    exact ⟨headA_ascii ha, fun h => ⟨h, h⟩⟩
  · exact quoted_sp (by decide) b
  · exact quoted_sp (by decide) b

theorem litv_sp {s : StrLit} (h : s.Value) : Sp s.text (ValidUTF8 s.body) := by
  rcases h with ⟨h1, c, r, h2, h3, h4, h5⟩ | h
  · obtain ⟨sat, b⟩ := s
    simp only at h1 h2
    subst h1
    have : (⟨.bareword, b⟩ : StrLit).text = b := by simp [StrLit.text, StrLit.quote]
    rw [this]
    subst h2
    refine ⟨?_, id⟩
    intro d r' h
    injection h with h _
    subst h
    exact word_ascii h3
  · exact (lit_sp (.inr h)).map And.right

theorem num_ascii {t : Bytes} (h : NumTok t) : asciiB t = true := by
  obtain ⟨s, d, f, rfl, h1, h2, h3, h4⟩ := h
  have hd : ∀ d : Bytes, d.all Spec.isDigit = true → asciiB d = true := by
    intro d hd
    unfold asciiB
    rw [List.all_eq_true] at *
    intro c hc
    exact decide_eq_true (digit_ascii (hd c hc))
  rw [ascii_append, ascii_append, hd d h3]
  rcases h1 with rfl | rfl <;> rcases h4 with rfl | ⟨f', rfl, h5⟩ <;> first | rfl | (have := hd f' h5; simpa [asciiB] using this)

theorem num_sp {t : Bytes} (h : NumOk t) : Sp t True := Sp.ascii (num_ascii h.1)

theorem key_sp {k : CKey} (h : k.Ok) : Sp k.text (KeyTx k.ast) := by
  cases k with
  | str s => exact litv_sp h
  | num t => exact num_sp h

/-! ### Values -/

theorem valTx_with {n : Bytes} {c : CommentBlock} {a : Attr} (h : ValTx a) : ValTx (withComment c (withName n a)) := by
  cases a <;> simpa [withComment, withName, ValTx] using h

theorem valTx_com {c : CommentBlock} {a : Attr} (h : ValTx a) : ValTx (withComment c a) := by
  cases a <;> simpa [withComment, ValTx] using h

theorem withName_name (n : Bytes) (c : CommentBlock) (a : Attr) : (withComment c (withName n a)).name = n ∨ (withComment c (withName n a)).name = [] := by
  cases a <;> simp [withComment, withName, Attr.name]
theorem withComment_name (c : CommentBlock) (a : Attr) : (withComment c a).name = a.name := by
  cases a <;> rfl
theorem withComment_comment (c : CommentBlock) (a : Attr) : (withComment c a).comment = c ∨ (withComment c a).comment = [] := by
  cases a <;> simp [withComment, Attr.comment]
theorem ast_name (ign : Bool) (v : CVal) : (v.ast ign).name = [] := by cases v <;> rw [CVal.ast] <;> rfl

theorem comsTx_nil : ComsTx [] := fun _ h => nomatch h

theorem sep_sp {first : Bool} {sep : Bytes} {com : Gap} (h : first = false → SepOk sep com) : Sp (if first then [] else sep) True := by
  cases first with
  | true => exact Sp.ascii rfl
  | false => exact Sp.ascii (ws_ascii (h rfl).2.1)

mutual
theorem val_sp (ign : Bool) : ∀ v : CVal, v.Ok → Sp v.text (ValTx (v.ast ign))
  | .str s, h => by
    rw [CVal.Ok] at h; rw [CVal.text, CVal.ast, ValTx]; exact litv_sp h
  | .num t, h => by
    rw [CVal.Ok] at h; rw [CVal.text, CVal.ast, ValTx]; exact num_sp h
  | .arr es f, h => by
    rw [CVal.Ok] at h; rw [CVal.text, CVal.ast, ValTx]
    exact ((((Sp.ascii (by decide)).app (elems_sp ign es true h.1)).app (gap_sp ign false false h.2)).app (Sp.ascii (by decide))).map
      fun k => ⟨k.1.1.2, k.1.2⟩
  | .hash es f, h => by
    rw [CVal.Ok] at h; rw [CVal.text, CVal.ast, ValTx]
    exact ((((Sp.ascii (by decide)).app (entries_sp ign es true h.1)).app (gap_sp ign false false h.2)).app (Sp.ascii (by decide))).map
      fun k => ⟨k.1.1.2, k.1.2⟩
  | .plug p, h => by
    rw [CVal.Ok] at h; rw [CVal.text, CVal.ast, ValTx]
    exact plugin_sp ign p [] comsTx_nil h
theorem elems_sp (ign : Bool) : ∀ (es : List CElem) (first : Bool), elemsOk first es → Sp (elemsText first es) (AttrsTx (elemsAst ign first es))
  | [], _, _ => by rw [elemsText, elemsAst, AttrsTx]; exact Sp.ascii rfl
  | .mk pre com v :: r, first, h => by
    rw [elemsOk] at h
    obtain ⟨h1, h2, h3, h4, h5⟩ := h
    rw [elemsText, elemsAst]
    have hp : Sp (if first then [] else pre.text ++ b!",") True := by
      cases first
      · exact ((gap_t h1).app (Sp.ascii (by decide))).triv
      · exact Sp.ascii rfl
    refine (((hp.app (gap_sp ign (!first) false h2)).app (val_sp ign v h3)).app (elems_sp ign r false h5)).map fun k => ?_
    split
    · exact k.2
    · rw [AttrsTx]
      refine ⟨?_, ?_, valTx_com k.1.2, k.2⟩
      · rw [withComment_name, ast_name]; exact validUTF8_nil
      · rcases withComment_comment (com.block ign (!first) false) (v.ast ign) with e | e <;> rw [e]
        · exact k.1.1.2
        · exact comsTx_nil
theorem entries_sp (ign : Bool) : ∀ (es : List CEntry) (first : Bool), entriesOk first es → Sp (entriesText first es) (EntriesTx (entriesAst ign first es))
  | [], _, _ => by rw [entriesText, entriesAst, EntriesTx]; exact Sp.ascii rfl
  | .mk sep com k g1 g2 v :: r, first, h => by
    rw [entriesOk] at h
    obtain ⟨h1, h2, h3, h4, h5, h6, h7, h8⟩ := h
    rw [entriesText, entriesAst, EntriesTx]
    exact ((((((((sep_sp h1).app (gap_sp ign true false h2)).app (key_sp h3)).app (gap_t h4)).app (Sp.ascii (by decide))).app (gap_t h5)).app
      (val_sp ign v h6)).app (entries_sp ign r false h8)).map fun k =>
      ⟨k.1.1.1.1.1.2, k.1.2, comsTx_first k.1.1.1.1.1.1.2, k.2⟩
theorem plugin_sp (ign : Bool) : ∀ (p : CPlugin) (c : CommentBlock), ComsTx c → p.Ok → Sp p.text (PlugTx (p.ast ign c))
  | .mk n g as f, c, hc, h => by
    rw [CPlugin.Ok] at h
    obtain ⟨h1, h2, h3, h4⟩ := h
    rw [CPlugin.text, CPlugin.ast, PlugTx]
    exact ((((((lit_sp h1).app (gap_t h2)).app (Sp.ascii (by decide))).app (attrs_sp ign as true h3)).app (gap_sp ign false false h4)).app
      (Sp.ascii (by decide))).map fun k => ⟨k.1.1.1.1.1.1, k.1.1.2, hc, k.1.2⟩
theorem attrs_sp (ign : Bool) : ∀ (es : List CAttr) (first : Bool), attrsOk first es → Sp (attrsText first es) (AttrsTx (attrsAst ign first es))
  | [], _, _ => by rw [attrsText, attrsAst, AttrsTx]; exact Sp.ascii rfl
  | .mk sep com n g1 g2 v :: r, first, h => by
    rw [attrsOk] at h
    obtain ⟨h1, h2, h3, h4, h5, h6, h7⟩ := h
    rw [attrsText, attrsAst, AttrsTx]
    refine ((((((((sep_sp h1).app (gap_sp ign (!first) false h2)).app (lit_sp h3)).app (gap_t h4)).app (Sp.ascii (by decide))).app (gap_t h5)).app
      (val_sp ign v h6)).app (attrs_sp ign r false h7)).map fun k => ⟨?_, ?_, valTx_with k.1.2, k.2⟩
    · rcases withName_name n.text (com.block ign (!first) false) (v.ast ign) with e | e <;> rw [e]
      · exact k.1.1.1.1.1.2.1
      · exact validUTF8_nil
    · rcases withComment_comment (com.block ign (!first) false) (withName n.text (v.ast ign)) with e | e <;> rw [e]
      · exact k.1.1.1.1.1.1.2
      · exact comsTx_nil
end

/-! ### Conditions -/

theorem sel_sp {names : List Bytes} : Sp (selText names) (SelTx (selAst names)) := by
  unfold selText selAst SelTx
  simp only [List.mem_map]
  induction names with
  | nil => exact (Sp.ascii rfl).map fun _ e h => by simp at h
  | cons n l ih =>
    rw [List.flatMap_cons]
    have h1 : Sp (b!"[" ++ n ++ b!"]") (ValidUTF8 n) := by
      refine ⟨HeadA.app (HeadA.pre (headA_ascii (by decide)) (by simp)) (headA_ascii (by decide)), fun h => ?_⟩
      exact validUTF8_drop_ascii (by decide) (validUTF8_drop_right (a := b!"[" ++ n) (by decide) h)
    refine (h1.app ih).map fun k => ?_
    rintro e ⟨m, hm, rfl⟩
    rcases List.mem_cons.1 hm with rfl | hm
    · exact k.1
    · exact k.2 _ ⟨m, hm, rfl⟩

theorem rval_sp (ign : Bool) {r : CRval} (h : r.Ok) : Sp r.text (RvTx (r.ast ign)) := by
  cases r with
  | str s => exact (lit_sp (.inr h)).map And.right
  | num t => exact num_sp h
  | sel ns => exact sel_sp
  | arr es f =>
    have := val_sp ign _ h.1
    rw [CVal.ast, ValTx] at this
    exact this
  | re b =>
    refine ⟨HeadA.app (HeadA.pre (headA_ascii (by decide)) (by simp)) (headA_ascii (by decide)), fun h => ?_⟩
    exact validUTF8_drop_ascii (a := b!"/") (by decide) (validUTF8_drop_right (a := b!"/" ++ b) (b := b!"/") (by decide) h)

theorem cmp_sp (o : CmpKind) : Sp (cmpText o) True := Sp.ascii (by cases o <;> rfl)
theorem re_sp (o : ReKind) : Sp (reText o) True := Sp.ascii (by cases o <;> rfl)
theorem bool_sp (o : BoolOpKind) : Sp (boolText o) True := Sp.ascii (by cases o <;> rfl)

mutual
theorem expr_sp (ign : Bool) : ∀ (e : CExpr) (op : BoolOpKind), e.Ok → Sp e.text (ExprTx (e.ast ign op))
  | .paren g1 c g2, op, h => by
    rw [CExpr.Ok] at h; rw [CExpr.text, CExpr.ast, ExprTx]
    exact (((((Sp.ascii (by decide)).app (gap_t h.1)).app (cond_sp ign c h.2.1)).app (gap_t h.2.2)).app (Sp.ascii (by decide))).map fun k => k.1.1.2
  | .notParen g0 g1 c g2, op, h => by
    rw [CExpr.Ok] at h; rw [CExpr.text, CExpr.ast, ExprTx]
    exact (((((((Sp.ascii (by decide)).app (gap_t h.1)).app (Sp.ascii (by decide))).app (gap_t h.2.1)).app (cond_sp ign c h.2.2.1)).app
      (gap_t h.2.2.2)).app (Sp.ascii (by decide))).map fun k => k.1.1.2
  | .notSel g ns, op, h => by
    rw [CExpr.Ok] at h; rw [CExpr.text, CExpr.ast, ExprTx]
    exact (((Sp.ascii (by decide)).app (gap_t h.1)).app sel_sp).map fun k => k.2
  | .inE l g1 g2 r, op, h => by
    rw [CExpr.Ok] at h; rw [CExpr.text, CExpr.ast, ExprTx]
    exact (((((rval_sp ign h.1).app (gap_t h.2.1)).app (Sp.ascii (by decide))).app (gap_t h.2.2.1)).app (rval_sp ign h.2.2.2)).map
      fun k => ⟨k.1.1.1.1, k.2⟩
  | .notIn l g1 g2 g3 r, op, h => by
    rw [CExpr.Ok] at h; rw [CExpr.text, CExpr.ast, ExprTx]
    exact (((((((rval_sp ign h.1).app (gap_t h.2.1)).app (Sp.ascii (by decide))).app (gap_t h.2.2.1)).app (Sp.ascii (by decide))).app
      (gap_t h.2.2.2.1)).app (rval_sp ign h.2.2.2.2)).map fun k => ⟨k.1.1.1.1.1.1, k.2⟩
  | .cmp l g1 o g2 r, op, h => by
    rw [CExpr.Ok] at h; rw [CExpr.text, CExpr.ast, ExprTx]
    exact (((((rval_sp ign h.1).app (gap_t h.2.1)).app (cmp_sp o)).app (gap_t h.2.2.2.1)).app (rval_sp ign h.2.2.2.2)).map
      fun k => ⟨k.1.1.1.1, k.2⟩
  | .re l g1 o g2 r, op, h => by
    rw [CExpr.Ok] at h; rw [CExpr.text, CExpr.ast, ExprTx]
    exact (((((rval_sp ign h.1).app (gap_t h.2.1)).app (re_sp o)).app (gap_t h.2.2.2.1)).app (rval_sp ign h.2.2.2.2.1)).map
      fun k => ⟨k.1.1.1.1, k.2⟩
  | .rval r, op, h => by
    rw [CExpr.Ok] at h; rw [CExpr.text, CExpr.ast, ExprTx]; exact rval_sp ign h
theorem cond_sp (ign : Bool) : ∀ (c : CCond), c.Ok → Sp c.text (CondTx (c.ast ign))
  | .mk e more, h => by
    rw [CCond.Ok] at h; rw [CCond.text, CCond.ast, CondTx]
    exact (expr_sp ign e .noOp h.1).app (more_sp ign more h.2)
theorem more_sp (ign : Bool) : ∀ (l : List CMore), moreOk l → Sp (moreText l) (CondTx (moreAst ign l))
  | [], _ => by rw [moreText, moreAst, CondTx]; exact Sp.ascii rfl
  | .mk g1 op g2 e :: r, h => by
    rw [moreOk] at h; rw [moreText, moreAst, CondTx]
    exact (((((gap_t h.1).app (bool_sp op)).app (gap_t h.2.2.1)).app (expr_sp ign e op h.2.2.2.1)).app (more_sp ign r h.2.2.2.2)).map
      fun k => ⟨k.1.2, k.2⟩
end

/-! ### Blocks -/

mutual
theorem item_sp (ign : Bool) : ∀ (i : CItem), i.Ok → Sp i.text (BopTx (i.ast ign))
  | .plugin com p, h => by
    rw [CItem.Ok] at h; rw [CItem.text, CItem.ast, BopTx]
    have hg := gap_sp ign false false h.1
    have hp := plugin_sp ign p [] comsTx_nil h.2
    refine (hg.app hp).map fun k => ?_
    cases p with
    | mk n g as f =>
      rw [CPlugin.ast, PlugTx] at *
      exact ⟨k.2.1, k.2.2.1, k.1, k.2.2.2.2⟩
  | .branch com g1 c g2 items foot elifs els, h => by
    rw [CItem.Ok] at h
    obtain ⟨h1, h2, h3, h4, h5, h6, h7, h8⟩ := h
    rw [CItem.text, CItem.ast, BopTx]
    exact (((((((((((gap_sp ign false false h1).app (Sp.ascii (by decide))).app (gap_t h2)).app (cond_sp ign c h3)).app (gap_t h4)).app
      (Sp.ascii (by decide))).app (items_sp ign items h5)).app (gap_sp ign false false h6)).app (Sp.ascii (by decide))).app (elifs_sp ign elifs h7)).app
      (else_sp ign els h8)).map fun k =>
      ⟨k.1.1.1.1.1.1.1.2, k.1.1.1.1.2, k.1.1.1.1.1.1.1.1.1.1, k.1.1.1.2, k.1.2, k.2⟩
theorem items_sp (ign : Bool) : ∀ (l : List CItem), itemsOk l → Sp (itemsText l) (BlockTx (itemsAst ign l))
  | [], _ => by rw [itemsText, itemsAst, BlockTx]; exact Sp.ascii rfl
  | i :: r, h => by
    rw [itemsOk] at h; rw [itemsText, itemsAst, BlockTx]
    exact (item_sp ign i h.1).app (items_sp ign r h.2)
theorem elifs_sp (ign : Bool) : ∀ (l : List CElif), elifsOk l → Sp (elifsText l) (ElifsTx (elifsAst ign l))
  | [], _ => by rw [elifsText, elifsAst, ElifsTx]; exact Sp.ascii rfl
  | .mk com g0 g1 c g2 items foot :: r, h => by
    rw [elifsOk] at h
    obtain ⟨h1, h2, h3, h4, h5, h6, h7, h8⟩ := h
    rw [elifsText, elifsAst, ElifsTx]
    exact ((((((((((((gap_sp ign false false h1).app (Sp.ascii (by decide))).app (gap_t h2)).app (Sp.ascii (by decide))).app (gap_t h3)).app
      (cond_sp ign c h4)).app (gap_t h5)).app (Sp.ascii (by decide))).app (items_sp ign items h6)).app (gap_sp ign false false h7)).app
      (Sp.ascii (by decide))).app (elifs_sp ign r h8)).map fun k =>
      ⟨k.1.1.1.1.1.1.2, k.1.1.1.2, k.1.1.1.1.1.1.1.1.1.1.1, k.1.1.2, k.2⟩
theorem else_sp (ign : Bool) : ∀ (e : CElse), e.Ok → Sp e.text (ElseTx (e.ast ign))
  | .none, _ => by
    rw [CElse.text, CElse.ast, ElseTx, BlockTx]; exact (Sp.ascii rfl).map fun _ => ⟨trivial, comsTx_nil, comsTx_nil⟩
  | .mk com g items foot, h => by
    rw [CElse.Ok] at h
    obtain ⟨h1, h2, h3, h4⟩ := h
    rw [CElse.text, CElse.ast, ElseTx]
    exact (((((((gap_sp ign false false h1).app (Sp.ascii (by decide))).app (gap_t h2)).app (Sp.ascii (by decide))).app (items_sp ign items h3)).app
      (gap_sp ign false false h4)).app (Sp.ascii (by decide))).map fun k => ⟨k.1.1.2, k.1.1.1.1.1.1, k.1.2⟩
end

theorem section_sp (ign first : Bool) {s : CSection} (h : s.Ok) : Sp s.text (SectTx (s.ast ign first)) := by
  obtain ⟨h1, h2, h3, h4, h5⟩ := h
  have hp : Sp (ptypeText s.ptype) True := Sp.ascii (by cases s.ptype <;> rfl)
  exact (((((((gap_sp ign false first h1).app hp).app (gap_t h3)).app (Sp.ascii (a := b!"{") (by decide))).app (items_sp ign s.items h4)).app
    (gap_sp ign false false h5)).app (Sp.ascii (a := b!"}") (by decide))).map fun k => ⟨k.1.1.2, k.1.1.1.1.1.1, k.1.2⟩

/-- The texts of the configuration a tree denotes are valid UTF-8 if the text of the tree is. -/
theorem file_tx (ign : Bool) {k : CFile} (h : k.Ok) (hv : ValidUTF8 k.text) : ConfigTx (k.ast ign) := by
  have key : (∀ s ∈ k.sections ign, SectTx s) ∧ ComsTx (k.ast ign).footer := by
    cases k with
    | empty g => exact ⟨fun s hs => by simp [CFile.sections] at hs, comsTx_nil⟩
    | config s ss f =>
      obtain ⟨h1, h2, h3⟩ := h
      have hss : ∀ l : List CSection, (∀ t ∈ l, t.Ok) → Sp (l.flatMap CSection.text) (∀ t ∈ l.map (CSection.ast ign false), SectTx t) := by
        intro l
        induction l with
        | nil => intro _; exact (Sp.ascii rfl).map fun _ _ h => nomatch h
        | cons t l ih =>
          intro hl
          rw [List.flatMap_cons]
          refine ((section_sp ign false (hl t (List.mem_cons_self ..))).app (ih fun x hx => hl x (List.mem_cons_of_mem _ hx))).map fun k => ?_
          intro x hx
          rw [List.map_cons] at hx
          rcases List.mem_cons.1 hx with rfl | hx
          · exact k.1
          · exact k.2 x hx
      have hh := (((section_sp ign true h1).app (hss ss h2)).app (gapEnd_sp ign true false h3)).2 hv
      refine ⟨?_, hh.2⟩
      intro x hx
      rw [CFile.sections] at hx
      rcases List.mem_cons.1 hx with rfl | hx
      · exact hh.1.1
      · exact hh.1.2 x hx
  exact ⟨fun s hs => key.1 s (List.mem_filter.1 hs).1, fun s hs => key.1 s (List.mem_filter.1 hs).1,
    fun s hs => key.1 s (List.mem_filter.1 hs).1, key.2⟩

end Verif
