import Verif.Spec.Cst
import Verif.Spec.Clear
import Verif.Spec.Crlf
/-
The syntax tree of a file with the line ends of Windows.
-/
namespace Verif.Spec
open Verif

/-! ### Bytes -/

@[simp] theorem crlf_nil : crlf [] = [] := rfl
@[simp] theorem crlf_append (a b : Bytes) : crlf (a ++ b) = crlf a ++ crlf b := by simp [crlf]
@[simp] theorem crlf_cons (c : UInt8) (b : Bytes) : crlf (c :: b) = (if c = 10 then [13, 10] else [c]) ++ crlf b := rfl

theorem crlf_flatMap {α : Type} (f : α → Bytes) (l : List α) : crlf (l.flatMap f) = l.flatMap fun x => crlf (f x) := by
  induction l with
  | nil => rfl
  | cons a l ih => simp [ih]

/-- A text without newlines is left alone. -/
theorem crlf_id {t : Bytes} (h : 10 ∉ t) : crlf t = t := by
  induction t with
  | nil => rfl
  | cons c t ih =>
    simp only [List.mem_cons, not_or] at h
    rw [crlf_cons, if_neg (Ne.symm h.1), ih h.2]; rfl

theorem crlf_id_all {p : UInt8 → Bool} (hp : p 10 = false) {t : Bytes} (h : t.all p = true) : crlf t = t :=
  crlf_id fun hm => by have := List.all_eq_true.1 h 10 hm; rw [hp] at this; cases this

theorem crlf_all {p : UInt8 → Bool} (hp : p 13 = true) {t : Bytes} : (crlf t).all p = t.all p := by
  induction t with
  | nil => rfl
  | cons c t ih =>
    rw [crlf_cons, List.all_append, ih, List.all_cons]
    by_cases hc : c = 10
    · subst hc; simp [hp]
    · simp [hc]

theorem crlf_ne {t : Bytes} : crlf t ≠ [] ↔ t ≠ [] := by
  cases t with
  | nil => simp
  | cons c t =>
    by_cases hc : c = 10 <;> simp [hc]

theorem crlf_isEmpty (t : Bytes) : (crlf t).isEmpty = t.isEmpty := by
  cases t with
  | nil => rfl
  | cons c t => by_cases hc : c = 10 <;> simp [hc]

theorem crlf_last {t : Bytes} : (crlf t).getLast? = t.getLast? := by
  rcases List.eq_nil_or_concat t with rfl | ⟨l, c, rfl⟩
  · rfl
  · by_cases hc : c = 10 <;> simp [hc, List.getLast?_append]

/-- A character that is no part of a line end stands where it stood. -/
theorem crlf_split {q : UInt8} (hq : q ≠ 10) (hq' : q ≠ 13) : ∀ {t l r : Bytes}, crlf t = l ++ q :: r →
    ∃ l' r', t = l' ++ q :: r' ∧ l = crlf l' ∧ r = crlf r'
  | [], l, r, h => by simp at h
  | c :: t, l, r, h => by
    rw [crlf_cons] at h
    by_cases hc : c = 10
    · subst hc
      simp only [if_true, List.cons_append, List.nil_append] at h
      match l, h with
      | [], h => injection h with h; exact absurd h.symm hq'
      | [a], h =>
        injection h with _ h
        injection h with h; exact absurd h.symm hq
      | a :: b :: l, h =>
        injection h with h1 h
        injection h with h2 h
        obtain ⟨l', r', h3, h4, h5⟩ := crlf_split hq hq' h
        exact ⟨10 :: l', r', by rw [h3]; rfl, by rw [h4, ← h1, ← h2]; rfl, h5⟩
    · simp only [if_neg hc, List.cons_append, List.nil_append] at h
      match l, h with
      | [], h =>
        injection h with h1 h
        exact ⟨[], t, by rw [h1]; rfl, rfl, h.symm⟩
      | a :: l, h =>
        injection h with h1 h
        obtain ⟨l', r', h3, h4, h5⟩ := crlf_split hq hq' h
        exact ⟨c :: l', r', by rw [h3]; rfl, by rw [h4, crlf_cons, if_neg hc, h1]; rfl, h5⟩

theorem crlf_string {q : UInt8} (hq : q ≠ 10) (hq' : q ≠ 13) {b : Bytes} (h : StringBody q b) : StringBody q (crlf b) := by
  refine ⟨fun l r h1 => ?_, by rw [crlf_last]; exact h.2⟩
  obtain ⟨l', r', h2, rfl, -⟩ := crlf_split hq hq' h1
  obtain ⟨l'', rfl⟩ := h.1 l' r' h2
  exact ⟨crlf l'', by simp⟩

theorem crlf_selLike {t : Bytes} (h : SelLike (crlf t)) : SelLike t := by
  obtain ⟨n, r, h1, h2, h3⟩ := h
  obtain ⟨l', r', h4, h5, -⟩ := crlf_split (q := 93) (by decide) (by decide) h1
  obtain ⟨m, k, h6, h7, h8⟩ := crlf_split (q := 91) (l := []) (r := n) (by decide) (by decide) h5.symm
  obtain rfl : m = [] := Classical.byContradiction fun hm => crlf_ne.2 hm h7.symm
  refine ⟨k, r', by rw [h4, h6]; rfl, crlf_ne.1 (h8 ▸ h2), ?_⟩
  rw [h8, crlf_all (by decide)] at h3
  exact h3

/-! ### Gaps and tokens -/

/-- A comment line with the new line end. -/
def CommentLine.crlf (l : CommentLine) : CommentLine := ⟨Spec.crlf l.ws, l.body, l.lf, l.lf⟩
/-- A gap. -/
def Gap.crlf (g : Gap) : Gap := ⟨g.lines.map CommentLine.crlf, Spec.crlf g.tail⟩
/-- A string literal. -/
def StrLit.crlf (s : StrLit) : StrLit := { s with body := Spec.crlf s.body }

theorem lineEnd_crlf {l : CommentLine} (h : l.OkEnd) : l.crlf.OkEnd :=
  ⟨by rw [CommentLine.crlf, crlf_all (by decide)]; exact h.1, h.2⟩

theorem line_text {l : CommentLine} (h : l.OkEnd) (hr : 13 ∉ l.text) : l.crlf.text = Spec.crlf l.text := by
  obtain ⟨ws, body, cr, lf⟩ := l
  have hb : Spec.crlf body = body := crlf_id_all (by decide) h.2
  cases cr with
  | true => exact absurd (by simp [CommentLine.text]) hr
  | false => cases lf <;> simp [CommentLine.crlf, CommentLine.text, hb]

theorem gap_crlf_ok {g : Gap} (h : g.Ok) : g.crlf.Ok := by
  refine ⟨fun l hl => ?_, by rw [Gap.crlf, crlf_all (by decide)]; exact h.2⟩
  obtain ⟨m, hm, rfl⟩ := List.mem_map.1 hl
  exact ⟨lineEnd_crlf (h.1 m hm).1, (h.1 m hm).2⟩

theorem gap_crlf_okEnd {g : Gap} (h : g.OkEnd) : g.crlf.OkEnd := by
  rcases h with h | ⟨ls, l, rfl, h1, h2, h3⟩
  · exact .inl (gap_crlf_ok h)
  · refine .inr ⟨ls.map CommentLine.crlf, l.crlf, by simp [Gap.crlf], fun x hx => ?_, lineEnd_crlf h2, h3⟩
    obtain ⟨m, hm, rfl⟩ := List.mem_map.1 hx
    exact ⟨lineEnd_crlf (h1 m hm).1, (h1 m hm).2⟩

theorem lines_text {ls : List CommentLine} (h : ∀ l ∈ ls, l.OkEnd) (hr : 13 ∉ ls.flatMap CommentLine.text) :
    (ls.map CommentLine.crlf).flatMap CommentLine.text = crlf (ls.flatMap CommentLine.text) := by
  induction ls with
  | nil => rfl
  | cons l ls ih =>
    simp only [List.flatMap_cons, List.mem_append, not_or] at hr
    simp only [List.map_cons, List.flatMap_cons, crlf_append]
    rw [line_text (h l (List.mem_cons_self ..)) hr.1, ih (fun x hx => h x (List.mem_cons_of_mem _ hx)) hr.2]

theorem gap_crlf_textEnd {g : Gap} (h : g.OkEnd) (hr : 13 ∉ g.text) : g.crlf.text = crlf g.text := by
  have hl : ∀ l ∈ g.lines, l.OkEnd := by
    rcases h with h | ⟨ls, l, rfl, h1, h2, h3⟩
    · exact fun l hl => (h.1 l hl).1
    · intro x hx
      simp only [List.mem_append, List.mem_singleton] at hx
      rcases hx with hx | rfl
      · exact (h1 x hx).1
      · exact h2
  simp only [Gap.text, List.mem_append, not_or] at hr
  simp only [Gap.text, Gap.crlf, crlf_append]
  rw [lines_text hl hr.1]

theorem gap_crlf_text {g : Gap} (h : g.Ok) (hr : 13 ∉ g.text) : g.crlf.text = crlf g.text := gap_crlf_textEnd (.inl h) hr

theorem blank_crlf (ws : Bytes) : blankBeforeFirst (crlf ws) = blankBeforeFirst ws := by
  have : (crlf ws).filter (· != 13) = ws.filter (· != 13) := by
    induction ws with
    | nil => rfl
    | cons c t ih =>
      rw [crlf_cons, List.filter_append, ih]
      by_cases hc : c = 10
      · subst hc; rfl
      · rw [if_neg hc, ← List.filter_append]; rfl
  rw [blankBeforeFirst, this]; rfl

theorem contains_crlf (ws : Bytes) : (crlf ws).contains 10 = ws.contains 10 := by
  induction ws with
  | nil => rfl
  | cons c t ih =>
    rw [crlf_cons]
    by_cases hc : c = 10
    · subst hc; simp
    · simp only [hc, if_false, List.cons_append, List.nil_append, List.contains_cons, ih]

theorem gap_crlf_block (ign : Bool) (g : Gap) (x y : Bool) : g.crlf.block ign x y = g.block ign x y := by
  have h1 : g.crlf.comments = g.comments := by
    obtain ⟨ls, t⟩ := g
    cases ls with
    | nil => rfl
    | cons l ls =>
      have h2 : ∀ m : CommentLine, m.crlf.ws.contains 10 = m.ws.contains 10 := fun m => contains_crlf m.ws
      have h3 : blankBeforeFirst l.crlf.ws = blankBeforeFirst l.ws := blank_crlf l.ws
      simp only [Gap.crlf, Gap.comments, List.map_cons, List.map_map, h3]
      congr 1
      apply List.map_congr_left
      intro m _
      simp only [Function.comp, h2]
      rfl
  unfold Gap.block
  rw [h1]
  simp only [Gap.crlf, crlf_isEmpty]

theorem quoted_crlf {s : StrLit} (h : s.Quoted) : s.crlf.Quoted := by
  rcases h with ⟨h1, h2⟩ | ⟨h1, h2⟩
  · exact .inl ⟨h1, crlf_string (by decide) (by decide) h2⟩
  · exact .inr ⟨h1, crlf_string (by decide) (by decide) h2⟩

theorem crlf_same {s : StrLit} (h : 10 ∉ s.body) : s.crlf = s := by
  unfold StrLit.crlf; rw [crlf_id h]

theorem all_no10 {p : UInt8 → Bool} (hp : p 10 = false) {t : Bytes} (h : t.all p = true) : 10 ∉ t := fun hm => by
  have := List.all_eq_true.1 h 10 hm
  rw [hp] at this; cases this

theorem bare_name {s : StrLit} (h : s.sat = .bareword ∧ s.body ≠ [] ∧ s.body.all isNameChar = true) : s.crlf = s :=
  crlf_same (all_no10 (by decide) h.2.2)

theorem name_crlf {s : StrLit} (h : s.Name) : s.crlf.Name := by
  rcases h with h | h
  · rw [bare_name h]; exact .inl h
  · exact .inr (quoted_crlf h)

theorem value_crlf {s : StrLit} (h : s.Value) : s.crlf.Value := by
  rcases h with ⟨h1, c, r, h2, h3, h4, h5⟩ | h
  · rw [crlf_same]
    · exact .inl ⟨h1, c, r, h2, h3, h4, h5⟩
    · rw [h2]
      simp only [List.mem_cons, not_or]
      refine ⟨?_, all_no10 (by decide) h5⟩
      rintro rfl; revert h3; decide
  · exact .inr (quoted_crlf h)

theorem str_crlf_text (s : StrLit) : s.crlf.text = crlf s.text := by
  obtain ⟨sat, body⟩ := s
  cases sat <;> simp [StrLit.crlf, StrLit.text, StrLit.quote]

theorem str_crlf_ast (s : StrLit) : s.crlf.ast = crlfStr s.ast := rfl

theorem num_crlf {t : Bytes} (h : NumOk t) : crlf t = t := by
  obtain ⟨⟨s, d, f, rfl, hs, -, hd, hf⟩, -⟩ := h
  apply crlf_id
  simp only [List.mem_append, not_or]
  refine ⟨⟨?_, all_no10 (by decide) hd⟩, ?_⟩
  · rcases hs with rfl | rfl <;> decide
  · rcases hf with rfl | ⟨f', rfl, hf⟩
    · decide
    · simp only [List.mem_cons, not_or]
      exact ⟨by decide, all_no10 (by decide) hf⟩

/-! ### Trees -/

/-- A hash key. -/
def CKey.crlf : CKey → CKey
  | .str s => .str s.crlf
  | .num t => .num t

mutual
/-- A value. -/
def CVal.crlf : CVal → CVal
  | .str s => .str s.crlf
  | .num t => .num t
  | .arr es f => .arr (elemsCrlf es) f.crlf
  | .hash es f => .hash (entriesCrlf es) f.crlf
  | .plug p => .plug p.crlf
/-- Array elements. -/
def elemsCrlf : List CElem → List CElem
  | [] => []
  | .mk pre com v :: r => .mk pre.crlf com.crlf v.crlf :: elemsCrlf r
/-- Hash entries. -/
def entriesCrlf : List CEntry → List CEntry
  | [] => []
  | .mk sep com k g1 g2 v :: r => .mk (Spec.crlf sep) com.crlf k.crlf g1.crlf g2.crlf v.crlf :: entriesCrlf r
/-- A plugin. -/
def CPlugin.crlf : CPlugin → CPlugin
  | .mk n g as f => .mk n.crlf g.crlf (attrsCrlf as) f.crlf
/-- Attributes. -/
def attrsCrlf : List CAttr → List CAttr
  | [] => []
  | .mk sep com n g1 g2 v :: r => .mk (Spec.crlf sep) com.crlf n.crlf g1.crlf g2.crlf v.crlf :: attrsCrlf r
end

/-- A value in a condition. -/
def CRval.crlf : CRval → CRval
  | .str s => .str s.crlf
  | .num t => .num t
  | .sel ns => .sel (ns.map Spec.crlf)
  | .arr es f => .arr (elemsCrlf es) f.crlf
  | .re b => .re (Spec.crlf b)

mutual
/-- An expression. -/
def CExpr.crlf : CExpr → CExpr
  | .paren g1 c g2 => .paren g1.crlf c.crlf g2.crlf
  | .notParen g0 g1 c g2 => .notParen g0.crlf g1.crlf c.crlf g2.crlf
  | .notSel g ns => .notSel g.crlf (ns.map Spec.crlf)
  | .inE l g1 g2 r => .inE l.crlf g1.crlf g2.crlf r.crlf
  | .notIn l g1 g2 g3 r => .notIn l.crlf g1.crlf g2.crlf g3.crlf r.crlf
  | .cmp l g1 op g2 r => .cmp l.crlf g1.crlf op g2.crlf r.crlf
  | .re l g1 op g2 r => .re l.crlf g1.crlf op g2.crlf r.crlf
  | .rval r => .rval r.crlf
/-- A condition. -/
def CCond.crlf : CCond → CCond
  | .mk e more => .mk e.crlf (moreCrlf more)
/-- Further expressions. -/
def moreCrlf : List CMore → List CMore
  | [] => []
  | .mk g1 op g2 e :: r => .mk g1.crlf op g2.crlf e.crlf :: moreCrlf r
end

mutual
/-- A block element. -/
def CItem.crlf : CItem → CItem
  | .plugin com p => .plugin com.crlf p.crlf
  | .branch com g1 c g2 items foot elifs els =>
    .branch com.crlf g1.crlf c.crlf g2.crlf (itemsCrlf items) foot.crlf (elifsCrlf elifs) els.crlf
/-- A block. -/
def itemsCrlf : List CItem → List CItem
  | [] => []
  | i :: r => i.crlf :: itemsCrlf r
/-- Else-if blocks. -/
def elifsCrlf : List CElif → List CElif
  | [] => []
  | .mk com g0 g1 c g2 items foot :: r =>
    .mk com.crlf g0.crlf g1.crlf c.crlf g2.crlf (itemsCrlf items) foot.crlf :: elifsCrlf r
/-- An else block. -/
def CElse.crlf : CElse → CElse
  | .none => .none
  | .mk com g items foot => .mk com.crlf g.crlf (itemsCrlf items) foot.crlf
end

/-- A section. -/
def CSection.crlf (s : CSection) : CSection := ⟨s.com.crlf, s.ptype, s.g.crlf, itemsCrlf s.items, s.foot.crlf⟩

/-- A file. -/
def CFile.crlf : CFile → CFile
  | .empty g => .empty g.crlf
  | .config s ss f => .config s.crlf (ss.map CSection.crlf) f.crlf

/-! ### Their texts -/

theorem key_crlf_ok {k : CKey} (h : k.Ok) : k.crlf.Ok := by
  cases k with
  | str s => exact value_crlf h
  | num t => exact h

theorem key_crlf_text {k : CKey} (h : k.Ok) : k.crlf.text = crlf k.text := by
  cases k with
  | str s => exact str_crlf_text s
  | num t => exact (num_crlf h).symm

mutual
theorem val_crlf_text : ∀ v : CVal, v.Ok → 13 ∉ v.text → v.crlf.text = crlf v.text
  | .str s, _, _ => str_crlf_text s
  | .num t, h, _ => (num_crlf h).symm
  | .arr es f, h, hr => by
    simp only [CVal.text, CVal.Ok, List.mem_append, not_or, CVal.crlf, crlf_append] at *
    rw [elems_crlf_text true es h.1 hr.1.1.2, gap_crlf_text h.2 hr.1.2]; rfl
  | .hash es f, h, hr => by
    simp only [CVal.text, CVal.Ok, List.mem_append, not_or, CVal.crlf, crlf_append] at *
    rw [entries_crlf_text true es h.1 hr.1.1.2, gap_crlf_text h.2 hr.1.2]; rfl
  | .plug p, h, hr => plug_crlf_text p h hr
theorem elems_crlf_text : ∀ b (es : List CElem), elemsOk b es → 13 ∉ elemsText b es → elemsText b (elemsCrlf es) = crlf (elemsText b es)
  | _, [], _, _ => rfl
  | b, .mk pre com v :: r, h, hr => by
    simp only [elemsText, elemsOk, List.mem_append, not_or, elemsCrlf, crlf_append] at *
    rw [elems_crlf_text false r h.2.2.2.2 hr.2, val_crlf_text v h.2.2.1 hr.1.2, gap_crlf_text h.2.1 hr.1.1.2]
    cases b with
    | true => rfl
    | false =>
      simp only [Bool.false_eq_true, if_false, List.mem_append, not_or, crlf_append] at *
      rw [gap_crlf_text h.1 hr.1.1.1.1]; rfl
theorem entries_crlf_text : ∀ b (es : List CEntry), entriesOk b es → 13 ∉ entriesText b es →
    entriesText b (entriesCrlf es) = crlf (entriesText b es)
  | _, [], _, _ => rfl
  | b, .mk sep com k g1 g2 v :: r, h, hr => by
    simp only [entriesText, entriesOk, List.mem_append, not_or, entriesCrlf, crlf_append] at *
    rw [entries_crlf_text false r h.2.2.2.2.2.2.2 hr.2, val_crlf_text v h.2.2.2.2.2.1 hr.1.2, gap_crlf_text h.2.2.2.2.1 hr.1.1.2,
      gap_crlf_text h.2.2.2.1 hr.1.1.1.1.2, key_crlf_text h.2.2.1, gap_crlf_text h.2.1 hr.1.1.1.1.1.1.2]
    cases b <;> rfl
theorem plug_crlf_text : ∀ p : CPlugin, p.Ok → 13 ∉ p.text → p.crlf.text = crlf p.text
  | .mk n g as f, h, hr => by
    simp only [CPlugin.text, CPlugin.Ok, List.mem_append, not_or, CPlugin.crlf, crlf_append] at *
    rw [str_crlf_text, attrs_crlf_text true as h.2.2.1 hr.1.1.2, gap_crlf_text h.2.2.2 hr.1.2, gap_crlf_text h.2.1 hr.1.1.1.1.2]; rfl
theorem attrs_crlf_text : ∀ b (as : List CAttr), attrsOk b as → 13 ∉ attrsText b as → attrsText b (attrsCrlf as) = crlf (attrsText b as)
  | _, [], _, _ => rfl
  | b, .mk sep com n g1 g2 v :: r, h, hr => by
    simp only [attrsText, attrsOk, List.mem_append, not_or, attrsCrlf, crlf_append] at *
    rw [attrs_crlf_text false r h.2.2.2.2.2.2 hr.2, val_crlf_text v h.2.2.2.2.2.1 hr.1.2, gap_crlf_text h.2.2.2.2.1 hr.1.1.2,
      gap_crlf_text h.2.2.2.1 hr.1.1.1.1.2, str_crlf_text, gap_crlf_text h.2.1 hr.1.1.1.1.1.1.2]
    cases b <;> rfl
end

theorem sel_crlf_text (ns : List Bytes) : selText (ns.map crlf) = crlf (selText ns) := by
  simp only [selText, List.flatMap_map, crlf_flatMap]
  congr 1
  funext n
  simp

theorem rval_crlf_text {r : CRval} (h : r.Ok) (hr : 13 ∉ r.text) : r.crlf.text = crlf r.text := by
  cases r with
  | str s => exact str_crlf_text s
  | num t => exact (num_crlf h).symm
  | sel ns => exact sel_crlf_text ns
  | arr es f => exact val_crlf_text (.arr es f) h.1 hr
  | re b => simp [CRval.crlf, CRval.text]

theorem cmp_crlf (op : CmpKind) : crlf (cmpText op) = cmpText op := by cases op <;> rfl
theorem re_crlf (op : ReKind) : crlf (reText op) = reText op := by cases op <;> rfl
theorem bool_crlf (op : BoolOpKind) : crlf (boolText op) = boolText op := by cases op <;> rfl

mutual
theorem expr_crlf_text : ∀ e : CExpr, e.Ok → 13 ∉ e.text → e.crlf.text = crlf e.text
  | .paren g1 c g2, h, hr => by
    simp only [CExpr.text, CExpr.Ok, List.mem_append, not_or, CExpr.crlf, crlf_append] at *
    rw [gap_crlf_text h.1 hr.1.1.1.2, cond_crlf_text c h.2.1 hr.1.1.2, gap_crlf_text h.2.2 hr.1.2]; rfl
  | .notParen g0 g1 c g2, h, hr => by
    simp only [CExpr.text, CExpr.Ok, List.mem_append, not_or, CExpr.crlf, crlf_append] at *
    rw [gap_crlf_text h.1 hr.1.1.1.1.1.2, gap_crlf_text h.2.1 hr.1.1.1.2, cond_crlf_text c h.2.2.1 hr.1.1.2, gap_crlf_text h.2.2.2 hr.1.2]; rfl
  | .notSel g ns, h, hr => by
    simp only [CExpr.text, CExpr.Ok, List.mem_append, not_or, CExpr.crlf, crlf_append] at *
    rw [gap_crlf_text h.1 hr.1.2, sel_crlf_text]; rfl
  | .inE l g1 g2 r, h, hr => by
    simp only [CExpr.text, CExpr.Ok, List.mem_append, not_or, CExpr.crlf, crlf_append] at *
    rw [rval_crlf_text h.1 hr.1.1.1.1, gap_crlf_text h.2.1 hr.1.1.1.2, gap_crlf_text h.2.2.1 hr.1.2, rval_crlf_text h.2.2.2 hr.2]; rfl
  | .notIn l g1 g2 g3 r, h, hr => by
    simp only [CExpr.text, CExpr.Ok, List.mem_append, not_or, CExpr.crlf, crlf_append] at *
    rw [rval_crlf_text h.1 hr.1.1.1.1.1.1, gap_crlf_text h.2.1 hr.1.1.1.1.1.2, gap_crlf_text h.2.2.1 hr.1.1.1.2,
      gap_crlf_text h.2.2.2.1 hr.1.2, rval_crlf_text h.2.2.2.2 hr.2]; rfl
  | .cmp l g1 op g2 r, h, hr => by
    simp only [CExpr.text, CExpr.Ok, List.mem_append, not_or, CExpr.crlf, crlf_append] at *
    rw [rval_crlf_text h.1 hr.1.1.1.1, gap_crlf_text h.2.1 hr.1.1.1.2, gap_crlf_text h.2.2.2.1 hr.1.2, rval_crlf_text h.2.2.2.2 hr.2, cmp_crlf]
  | .re l g1 op g2 r, h, hr => by
    simp only [CExpr.text, CExpr.Ok, List.mem_append, not_or, CExpr.crlf, crlf_append] at *
    rw [rval_crlf_text h.1 hr.1.1.1.1, gap_crlf_text h.2.1 hr.1.1.1.2, gap_crlf_text h.2.2.2.1 hr.1.2, rval_crlf_text h.2.2.2.2.1 hr.2, re_crlf]
  | .rval r, h, hr => by
    simp only [CExpr.text, CExpr.Ok, CExpr.crlf] at *
    exact rval_crlf_text h hr
theorem cond_crlf_text : ∀ c : CCond, c.Ok → 13 ∉ c.text → c.crlf.text = crlf c.text
  | .mk e more, h, hr => by
    simp only [CCond.text, CCond.Ok, List.mem_append, not_or, CCond.crlf, crlf_append] at *
    rw [expr_crlf_text e h.1 hr.1, more_crlf_text more h.2 hr.2]
theorem more_crlf_text : ∀ l : List CMore, moreOk l → 13 ∉ moreText l → moreText (moreCrlf l) = crlf (moreText l)
  | [], _, _ => rfl
  | .mk g1 op g2 e :: r, h, hr => by
    simp only [moreText, moreOk, List.mem_append, not_or, moreCrlf, crlf_append] at *
    rw [gap_crlf_text h.1 hr.1.1.1.1, gap_crlf_text h.2.2.1 hr.1.1.2, expr_crlf_text e h.2.2.2.1 hr.1.2, more_crlf_text r h.2.2.2.2 hr.2, bool_crlf]
end

mutual
theorem item_crlf_text : ∀ i : CItem, i.Ok → 13 ∉ i.text → i.crlf.text = crlf i.text
  | .plugin com p, h, hr => by
    simp only [CItem.text, CItem.Ok, List.mem_append, not_or, CItem.crlf, crlf_append] at *
    rw [gap_crlf_text h.1 hr.1, plug_crlf_text p h.2 hr.2]
  | .branch com g1 c g2 items foot elifs els, h, hr => by
    simp only [CItem.text, CItem.Ok, List.mem_append, not_or, CItem.crlf, crlf_append] at *
    obtain ⟨h1, h2, h3, h4, h5, h6, h7, h8⟩ := h
    obtain ⟨⟨⟨⟨⟨⟨⟨⟨⟨⟨r1, -⟩, r2⟩, r3⟩, r4⟩, -⟩, r5⟩, r6⟩, -⟩, r7⟩, r8⟩ := hr
    rw [gap_crlf_text h1 r1, gap_crlf_text h2 r2, cond_crlf_text c h3 r3, gap_crlf_text h4 r4, items_crlf_text items h5 r5,
      gap_crlf_text h6 r6, elifs_crlf_text elifs h7 r7, else_crlf_text els h8 r8]; rfl
theorem items_crlf_text : ∀ l : List CItem, itemsOk l → 13 ∉ itemsText l → itemsText (itemsCrlf l) = crlf (itemsText l)
  | [], _, _ => rfl
  | i :: r, h, hr => by
    simp only [itemsText, itemsOk, List.mem_append, not_or, itemsCrlf, crlf_append] at *
    rw [item_crlf_text i h.1 hr.1, items_crlf_text r h.2 hr.2]
theorem elifs_crlf_text : ∀ l : List CElif, elifsOk l → 13 ∉ elifsText l → elifsText (elifsCrlf l) = crlf (elifsText l)
  | [], _, _ => rfl
  | .mk com g0 g1 c g2 items foot :: r, h, hr => by
    simp only [elifsText, elifsOk, List.mem_append, not_or, elifsCrlf, crlf_append] at *
    obtain ⟨h1, h2, h3, h4, h5, h6, h7, h8⟩ := h
    obtain ⟨⟨⟨⟨⟨⟨⟨⟨⟨⟨⟨r1, -⟩, r2⟩, -⟩, r3⟩, r4⟩, r5⟩, -⟩, r6⟩, r7⟩, -⟩, r8⟩ := hr
    rw [gap_crlf_text h1 r1, gap_crlf_text h2 r2, gap_crlf_text h3 r3, cond_crlf_text c h4 r4, gap_crlf_text h5 r5,
      items_crlf_text items h6 r6, gap_crlf_text h7 r7, elifs_crlf_text r h8 r8]; rfl
theorem else_crlf_text : ∀ e : CElse, e.Ok → 13 ∉ e.text → e.crlf.text = crlf e.text
  | .none, _, _ => rfl
  | .mk com g items foot, h, hr => by
    simp only [CElse.text, CElse.Ok, List.mem_append, not_or, CElse.crlf, crlf_append] at *
    obtain ⟨h1, h2, h3, h4⟩ := h
    obtain ⟨⟨⟨⟨⟨⟨r1, -⟩, r2⟩, -⟩, r3⟩, r4⟩, -⟩ := hr
    rw [gap_crlf_text h1 r1, gap_crlf_text h2 r2, items_crlf_text items h3 r3, gap_crlf_text h4 r4]; rfl
end

theorem section_crlf_text {s : CSection} (h : s.Ok) (hr : 13 ∉ s.text) : s.crlf.text = crlf s.text := by
  simp only [CSection.text, CSection.Ok, List.mem_append, not_or, CSection.crlf, crlf_append] at *
  obtain ⟨h1, -, h3, h4, h5⟩ := h
  obtain ⟨⟨⟨⟨⟨⟨r1, -⟩, r2⟩, -⟩, r3⟩, r4⟩, -⟩ := hr
  rw [gap_crlf_text h1 r1, gap_crlf_text h3 r2, items_crlf_text _ h4 r3, gap_crlf_text h5 r4]
  cases s.ptype <;> rfl

theorem file_crlf_text {k : CFile} (h : k.Ok) (hr : 13 ∉ k.text) : k.crlf.text = crlf k.text := by
  cases k with
  | empty g => exact gap_crlf_textEnd h hr
  | config s ss f =>
    simp only [CFile.text, CFile.Ok, List.mem_append, not_or, CFile.crlf, crlf_append] at *
    obtain ⟨h1, h2, h3⟩ := h
    rw [section_crlf_text h1 hr.1.1, gap_crlf_textEnd h3 hr.2]
    congr 2
    have hr2 := hr.1.2
    clear hr
    induction ss with
    | nil => rfl
    | cons t ss ih =>
      simp only [List.flatMap_cons, List.mem_append, not_or] at hr2
      simp only [List.map_cons, List.flatMap_cons, crlf_append]
      rw [section_crlf_text (h2 t (List.mem_cons_self ..)) hr2.1, ih (fun x hx => h2 x (List.mem_cons_of_mem _ hx)) hr2.2]

/-! ### They are well-formed -/

theorem sep_crlf {sep : Bytes} {com : Gap} (h : SepOk sep com) : SepOk (crlf sep) com.crlf := by
  obtain ⟨h1, h2, h3⟩ := h
  refine ⟨crlf_ne.2 h1, by rw [crlf_all (by decide)]; exact h2, ?_⟩
  obtain ⟨ls, t⟩ := com
  cases ls with
  | nil => simp only [Gap.crlf, List.map_nil] at h3 ⊢; rw [h3]; rfl
  | cons l ls => simp only [Gap.crlf, List.map_cons, CommentLine.crlf] at h3 ⊢; rw [h3]; rfl

theorem isPlug_crlf (v : CVal) : v.crlf.isPlug = v.isPlug := by cases v <;> rfl

mutual
theorem val_crlf_ok : ∀ v : CVal, v.Ok → v.crlf.Ok
  | .str s, h => value_crlf h
  | .num t, h => h
  | .arr es f, h => ⟨elems_crlf_ok true es h.1, gap_crlf_ok h.2⟩
  | .hash es f, h => ⟨entries_crlf_ok true es h.1, gap_crlf_ok h.2⟩
  | .plug p, h => plug_crlf_ok p h
theorem elems_crlf_ok : ∀ b (es : List CElem), elemsOk b es → elemsOk b (elemsCrlf es)
  | _, [], _ => trivial
  | b, .mk pre com v :: r, ⟨h1, h2, h3, h4, h5⟩ =>
    ⟨gap_crlf_ok h1, gap_crlf_ok h2, val_crlf_ok v h3, by rw [isPlug_crlf]; exact h4, elems_crlf_ok false r h5⟩
theorem entries_crlf_ok : ∀ b (es : List CEntry), entriesOk b es → entriesOk b (entriesCrlf es)
  | _, [], _ => trivial
  | b, .mk sep com k g1 g2 v :: r, ⟨h1, h2, h3, h4, h5, h6, h7, h8⟩ =>
    ⟨fun hb => sep_crlf (h1 hb), gap_crlf_ok h2, key_crlf_ok h3, gap_crlf_ok h4, gap_crlf_ok h5, val_crlf_ok v h6,
      by rw [isPlug_crlf]; exact h7, entries_crlf_ok false r h8⟩
theorem plug_crlf_ok : ∀ p : CPlugin, p.Ok → p.crlf.Ok
  | .mk n g as f, ⟨h1, h2, h3, h4⟩ => ⟨name_crlf h1, gap_crlf_ok h2, attrs_crlf_ok true as h3, gap_crlf_ok h4⟩
theorem attrs_crlf_ok : ∀ b (as : List CAttr), attrsOk b as → attrsOk b (attrsCrlf as)
  | _, [], _ => trivial
  | b, .mk sep com n g1 g2 v :: r, ⟨h1, h2, h3, h4, h5, h6, h7⟩ =>
    ⟨fun hb => sep_crlf (h1 hb), gap_crlf_ok h2, name_crlf h3, gap_crlf_ok h4, gap_crlf_ok h5, val_crlf_ok v h6, attrs_crlf_ok false r h7⟩
end

theorem sel_crlf_ok {ns : List Bytes} (h : SelOk ns) : SelOk (ns.map crlf) := by
  refine ⟨by simpa using h.1, fun n hn => ?_⟩
  obtain ⟨m, hm, rfl⟩ := List.mem_map.1 hn
  exact ⟨crlf_ne.2 (h.2 m hm).1, by rw [crlf_all (by decide)]; exact (h.2 m hm).2⟩

theorem rval_crlf_ok {r : CRval} (h : r.Ok) (hr : 13 ∉ r.text) : r.crlf.Ok := by
  cases r with
  | str s => exact quoted_crlf h
  | num t => exact h
  | sel ns => exact sel_crlf_ok h
  | arr es f =>
    refine ⟨val_crlf_ok (.arr es f) h.1, fun hs => h.2 (crlf_selLike ?_)⟩
    rw [← val_crlf_text (.arr es f) h.1 hr]
    exact hs
  | re b => exact crlf_string (by decide) (by decide) h

mutual
theorem expr_crlf_ok : ∀ e : CExpr, e.Ok → 13 ∉ e.text → e.crlf.Ok
  | .paren g1 c g2, h, hr => by
    simp only [CExpr.text, CExpr.Ok, List.mem_append, not_or, CExpr.crlf] at *
    exact ⟨gap_crlf_ok h.1, cond_crlf_ok c h.2.1 hr.1.1.2, gap_crlf_ok h.2.2⟩
  | .notParen g0 g1 c g2, h, hr => by
    simp only [CExpr.text, CExpr.Ok, List.mem_append, not_or, CExpr.crlf] at *
    exact ⟨gap_crlf_ok h.1, gap_crlf_ok h.2.1, cond_crlf_ok c h.2.2.1 hr.1.1.2, gap_crlf_ok h.2.2.2⟩
  | .notSel g ns, h, hr => ⟨gap_crlf_ok h.1, sel_crlf_ok h.2⟩
  | .inE l g1 g2 r, h, hr => by
    simp only [CExpr.text, CExpr.Ok, List.mem_append, not_or, CExpr.crlf] at *
    exact ⟨rval_crlf_ok h.1 hr.1.1.1.1, gap_crlf_ok h.2.1, gap_crlf_ok h.2.2.1, rval_crlf_ok h.2.2.2 hr.2⟩
  | .notIn l g1 g2 g3 r, h, hr => by
    simp only [CExpr.text, CExpr.Ok, List.mem_append, not_or, CExpr.crlf] at *
    exact ⟨rval_crlf_ok h.1 hr.1.1.1.1.1.1, gap_crlf_ok h.2.1, gap_crlf_ok h.2.2.1, gap_crlf_ok h.2.2.2.1, rval_crlf_ok h.2.2.2.2 hr.2⟩
  | .cmp l g1 op g2 r, h, hr => by
    simp only [CExpr.text, CExpr.Ok, List.mem_append, not_or, CExpr.crlf] at *
    exact ⟨rval_crlf_ok h.1 hr.1.1.1.1, gap_crlf_ok h.2.1, h.2.2.1, gap_crlf_ok h.2.2.2.1, rval_crlf_ok h.2.2.2.2 hr.2⟩
  | .re l g1 op g2 r, h, hr => by
    simp only [CExpr.text, CExpr.Ok, List.mem_append, not_or, CExpr.crlf] at *
    refine ⟨rval_crlf_ok h.1 hr.1.1.1.1, gap_crlf_ok h.2.1, h.2.2.1, gap_crlf_ok h.2.2.2.1, rval_crlf_ok h.2.2.2.2.1 hr.2, ?_⟩
    have := h.2.2.2.2.2
    revert this
    cases r <;> exact _root_.id
  | .rval r, h, hr => by
    simp only [CExpr.text, CExpr.Ok, CExpr.crlf] at *
    exact rval_crlf_ok h hr
theorem cond_crlf_ok : ∀ c : CCond, c.Ok → 13 ∉ c.text → c.crlf.Ok
  | .mk e more, h, hr => by
    simp only [CCond.text, CCond.Ok, List.mem_append, not_or, CCond.crlf] at *
    exact ⟨expr_crlf_ok e h.1 hr.1, more_crlf_ok more h.2 hr.2⟩
theorem more_crlf_ok : ∀ l : List CMore, moreOk l → 13 ∉ moreText l → moreOk (moreCrlf l)
  | [], _, _ => trivial
  | .mk g1 op g2 e :: r, h, hr => by
    simp only [moreText, List.mem_append, not_or] at hr
    exact ⟨gap_crlf_ok h.1, h.2.1, gap_crlf_ok h.2.2.1, expr_crlf_ok e h.2.2.2.1 hr.1.2, more_crlf_ok r h.2.2.2.2 hr.2⟩
end

mutual
theorem item_crlf_ok : ∀ i : CItem, i.Ok → 13 ∉ i.text → i.crlf.Ok
  | .plugin com p, h, _ => ⟨gap_crlf_ok h.1, plug_crlf_ok p h.2⟩
  | .branch com g1 c g2 items foot elifs els, h, hr => by
    simp only [CItem.text, CItem.Ok, List.mem_append, not_or, CItem.crlf] at *
    obtain ⟨h1, h2, h3, h4, h5, h6, h7, h8⟩ := h
    obtain ⟨⟨⟨⟨⟨⟨⟨⟨⟨⟨r1, -⟩, r2⟩, r3⟩, r4⟩, -⟩, r5⟩, r6⟩, -⟩, r7⟩, r8⟩ := hr
    exact ⟨gap_crlf_ok h1, gap_crlf_ok h2, cond_crlf_ok c h3 r3, gap_crlf_ok h4, items_crlf_ok items h5 r5, gap_crlf_ok h6,
      elifs_crlf_ok elifs h7 r7, else_crlf_ok els h8 r8⟩
theorem items_crlf_ok : ∀ l : List CItem, itemsOk l → 13 ∉ itemsText l → itemsOk (itemsCrlf l)
  | [], _, _ => trivial
  | i :: r, h, hr => by
    simp only [itemsText, List.mem_append, not_or] at hr
    exact ⟨item_crlf_ok i h.1 hr.1, items_crlf_ok r h.2 hr.2⟩
theorem elifs_crlf_ok : ∀ l : List CElif, elifsOk l → 13 ∉ elifsText l → elifsOk (elifsCrlf l)
  | [], _, _ => trivial
  | .mk com g0 g1 c g2 items foot :: r, h, hr => by
    simp only [elifsText, elifsOk, List.mem_append, not_or, elifsCrlf] at *
    obtain ⟨h1, h2, h3, h4, h5, h6, h7, h8⟩ := h
    obtain ⟨⟨⟨⟨⟨⟨⟨⟨⟨⟨⟨r1, -⟩, r2⟩, -⟩, r3⟩, r4⟩, r5⟩, -⟩, r6⟩, r7⟩, -⟩, r8⟩ := hr
    exact ⟨gap_crlf_ok h1, gap_crlf_ok h2, gap_crlf_ok h3, cond_crlf_ok c h4 r4, gap_crlf_ok h5, items_crlf_ok items h6 r6,
      gap_crlf_ok h7, elifs_crlf_ok r h8 r8⟩
theorem else_crlf_ok : ∀ e : CElse, e.Ok → 13 ∉ e.text → e.crlf.Ok
  | .none, _, _ => trivial
  | .mk com g items foot, h, hr => by
    simp only [CElse.text, CElse.Ok, List.mem_append, not_or, CElse.crlf] at *
    obtain ⟨h1, h2, h3, h4⟩ := h
    obtain ⟨⟨⟨⟨⟨⟨r1, -⟩, r2⟩, -⟩, r3⟩, r4⟩, -⟩ := hr
    exact ⟨gap_crlf_ok h1, gap_crlf_ok h2, items_crlf_ok items h3 r3, gap_crlf_ok h4⟩
end

theorem section_crlf_ok {s : CSection} (h : s.Ok) (hr : 13 ∉ s.text) : s.crlf.Ok := by
  simp only [CSection.text, CSection.Ok, List.mem_append, not_or, CSection.crlf] at *
  obtain ⟨h1, h2, h3, h4, h5⟩ := h
  obtain ⟨⟨⟨⟨⟨⟨r1, -⟩, r2⟩, -⟩, r3⟩, r4⟩, -⟩ := hr
  exact ⟨gap_crlf_ok h1, h2, gap_crlf_ok h3, items_crlf_ok _ h4 r3, gap_crlf_ok h5⟩

theorem file_crlf_ok {k : CFile} (h : k.Ok) (hr : 13 ∉ k.text) : k.crlf.Ok := by
  cases k with
  | empty g => exact gap_crlf_okEnd h
  | config s ss f =>
    simp only [CFile.text, List.mem_append, not_or] at hr
    refine ⟨section_crlf_ok h.1 hr.1.1, fun t ht => ?_, gap_crlf_okEnd h.2.2⟩
    obtain ⟨x, hx, rfl⟩ := List.mem_map.1 ht
    exact section_crlf_ok (h.2.1 x hx) fun h13 => hr.1.2 (List.mem_flatMap.2 ⟨x, hx, h13⟩)

/-! ### No plugin becomes the beginning of a branch -/

theorem plug_name {p : CPlugin} (h : p.Ok) : p.crlf.name = p.name ∨ ((∃ r, p.crlf.name = 34 :: r) ∨ ∃ r, p.crlf.name = 39 :: r) := by
  obtain ⟨n, g, as, f⟩ := p
  rcases h.1 with h1 | h1
  · left; simp only [CPlugin.crlf, CPlugin.name, bare_name h1]
  · right
    obtain ⟨sat, body⟩ := n
    rcases h1 with ⟨h1, -⟩ | ⟨h1, -⟩ <;> (simp only at h1; subst h1)
    · exact .inl ⟨_, rfl⟩
    · exact .inr ⟨_, rfl⟩

theorem plug_clear {p : CPlugin} (h : p.Ok) (hc : ¬ IfLike p.name) : ¬ IfLike p.crlf.name := by
  rcases plug_name h with h1 | ⟨r, h1⟩ | ⟨r, h1⟩ <;> rw [h1]
  · exact hc
  all_goals
    rintro ⟨c, x, -, h2, -⟩
    simp at h2

theorem isOpen_crlf (i : CItem) : i.crlf.isOpen = i.isOpen := by
  cases i with
  | plugin com p => rfl
  | branch com g1 c g2 items foot elifs els => cases els <;> rfl

theorem notElse_crlf {l : List CItem} (h : itemsOk l) (hn : notElse l) : notElse (itemsCrlf l) := by
  cases l with
  | nil => trivial
  | cons i r =>
    cases i with
    | branch => trivial
    | plugin com p =>
      show p.crlf.name ≠ _ ∧ _
      rcases plug_name (h.1).2 with h1 | ⟨x, h1⟩ | ⟨x, h1⟩ <;> rw [h1]
      · exact hn
      all_goals exact ⟨by simp, by simp⟩

mutual
theorem item_crlf_clear : ∀ i : CItem, i.Ok → i.Clear → i.crlf.Clear
  | .plugin com p, h, hc => plug_clear h.2 hc
  | .branch com g1 c g2 items foot elifs els, h, hc =>
    ⟨items_crlf_clear items h.2.2.2.2.1 hc.1, elifs_crlf_clear elifs h.2.2.2.2.2.2.1 hc.2.1, else_crlf_clear els h.2.2.2.2.2.2.2 hc.2.2⟩
theorem items_crlf_clear : ∀ l : List CItem, itemsOk l → itemsClear l → itemsClear (itemsCrlf l)
  | [], _, _ => trivial
  | i :: r, h, hc =>
    ⟨item_crlf_clear i h.1 hc.1, fun ho => notElse_crlf h.2 (hc.2.1 (isOpen_crlf i ▸ ho)), items_crlf_clear r h.2 hc.2.2⟩
theorem elifs_crlf_clear : ∀ l : List CElif, elifsOk l → elifsClear l → elifsClear (elifsCrlf l)
  | [], _, _ => trivial
  | .mk com g0 g1 c g2 items foot :: r, h, hc =>
    ⟨items_crlf_clear items h.2.2.2.2.2.1 hc.1, elifs_crlf_clear r h.2.2.2.2.2.2.2 hc.2⟩
theorem else_crlf_clear : ∀ e : CElse, e.Ok → e.Clear → e.crlf.Clear
  | .none, _, _ => trivial
  | .mk com g items foot, h, hc => items_crlf_clear items h.2.2.1 hc
end

theorem file_crlf_clear {k : CFile} (h : k.Ok) (hc : k.Clear) : k.crlf.Clear := by
  cases k with
  | empty g => trivial
  | config s ss f =>
    refine ⟨items_crlf_clear _ h.1.2.2.2.1 hc.1, fun t ht => ?_⟩
    obtain ⟨x, hx, rfl⟩ := List.mem_map.1 ht
    exact items_crlf_clear _ (h.2.1 x hx).2.2.2.1 (hc.2 x hx)

/-! ### What they denote -/

theorem withName_crlf (n : Bytes) (a : Attr) : crlfAttr (withName n a) = withName (crlf n) (crlfAttr a) := by
  cases a <;> rfl
theorem withComment_crlf (c : CommentBlock) (a : Attr) : crlfAttr (withComment c a) = withComment c (crlfAttr a) := by
  cases a <;> rfl

theorem num_crlf_ast (t : Bytes) : crlfNum (numAst t) = numAst t := rfl

theorem key_crlf_ast (k : CKey) : k.crlf.ast = crlfKey k.ast := by cases k <;> rfl

mutual
theorem val_crlf_ast (ign : Bool) : ∀ v : CVal, v.crlf.ast ign = crlfAttr (v.ast ign)
  | .str s => rfl
  | .num t => rfl
  | .arr es f => by
    simp only [CVal.crlf, CVal.ast, crlfAttr, gap_crlf_block, elems_crlf_ast ign true es]; rfl
  | .hash es f => by
    simp only [CVal.crlf, CVal.ast, crlfAttr, gap_crlf_block, entries_crlf_ast ign true es]; rfl
  | .plug p => by
    simp only [CVal.crlf, CVal.ast, crlfAttr, plug_crlf_ast ign [] p]; rfl
theorem elems_crlf_ast (ign : Bool) : ∀ b (es : List CElem), elemsAst ign b (elemsCrlf es) = crlfAttrs (elemsAst ign b es)
  | _, [] => rfl
  | b, .mk pre com v :: r => by
    simp only [elemsCrlf, elemsAst, isPlug_crlf, gap_crlf_block, val_crlf_ast ign v, elems_crlf_ast ign false r]
    split
    · rfl
    · rw [← withComment_crlf, crlfAttrs]
theorem entries_crlf_ast (ign : Bool) : ∀ b (es : List CEntry), entriesAst ign b (entriesCrlf es) = crlfEntries (entriesAst ign b es)
  | _, [] => rfl
  | b, .mk sep com k g1 g2 v :: r => by
    simp only [entriesCrlf, entriesAst, gap_crlf_block, val_crlf_ast ign v, entries_crlf_ast ign false r, key_crlf_ast, crlfEntries]
theorem plug_crlf_ast (ign : Bool) (c : CommentBlock) : ∀ p : CPlugin, p.crlf.ast ign c = crlfPlugin (p.ast ign c)
  | .mk n g as f => by
    simp only [CPlugin.crlf, CPlugin.ast, crlfPlugin, gap_crlf_block, str_crlf_text, attrs_crlf_ast ign true as]
theorem attrs_crlf_ast (ign : Bool) : ∀ b (as : List CAttr), attrsAst ign b (attrsCrlf as) = crlfAttrs (attrsAst ign b as)
  | _, [] => rfl
  | b, .mk sep com n g1 g2 v :: r => by
    simp only [attrsCrlf, attrsAst, gap_crlf_block, val_crlf_ast ign v, attrs_crlf_ast ign false r, str_crlf_text, crlfAttrs,
      withComment_crlf, withName_crlf]
end

theorem sel_crlf_ast (ns : List Bytes) : selAst (ns.map crlf) = crlfSel (selAst ns) := by
  simp [selAst, crlfSel]

theorem rval_crlf_ast (ign : Bool) (r : CRval) : r.crlf.ast ign = crlfRvalue (r.ast ign) := by
  cases r with
  | str s => rfl
  | num t => rfl
  | sel ns => simp only [CRval.crlf, CRval.ast, crlfRvalue, sel_crlf_ast]
  | arr es f => simp only [CRval.crlf, CRval.ast, crlfRvalue, gap_crlf_block, elems_crlf_ast]; rfl
  | re b => rfl

mutual
theorem expr_crlf_ast (ign : Bool) : ∀ (op : BoolOpKind) (e : CExpr), e.crlf.ast ign op = crlfExpr (e.ast ign op)
  | op, .paren g1 c g2 => by simp only [CExpr.crlf, CExpr.ast, crlfExpr, cond_crlf_ast ign c]
  | op, .notParen g0 g1 c g2 => by simp only [CExpr.crlf, CExpr.ast, crlfExpr, cond_crlf_ast ign c]
  | op, .notSel g ns => by simp only [CExpr.crlf, CExpr.ast, crlfExpr, sel_crlf_ast]
  | op, .inE l g1 g2 r => by simp only [CExpr.crlf, CExpr.ast, crlfExpr, rval_crlf_ast]
  | op, .notIn l g1 g2 g3 r => by simp only [CExpr.crlf, CExpr.ast, crlfExpr, rval_crlf_ast]
  | op, .cmp l g1 o g2 r => by simp only [CExpr.crlf, CExpr.ast, crlfExpr, rval_crlf_ast]
  | op, .re l g1 o g2 r => by simp only [CExpr.crlf, CExpr.ast, crlfExpr, rval_crlf_ast]
  | op, .rval r => by simp only [CExpr.crlf, CExpr.ast, crlfExpr, rval_crlf_ast]
theorem cond_crlf_ast (ign : Bool) : ∀ c : CCond, c.crlf.ast ign = crlfCond (c.ast ign)
  | .mk e more => by simp only [CCond.crlf, CCond.ast, crlfCond, expr_crlf_ast ign .noOp e, more_crlf_ast ign more]
theorem more_crlf_ast (ign : Bool) : ∀ l : List CMore, moreAst ign (moreCrlf l) = crlfCond (moreAst ign l)
  | [] => rfl
  | .mk g1 op g2 e :: r => by simp only [moreCrlf, moreAst, crlfCond, expr_crlf_ast ign op e, more_crlf_ast ign r]
end

mutual
theorem item_crlf_ast (ign : Bool) : ∀ i : CItem, i.crlf.ast ign = crlfBop (i.ast ign)
  | .plugin com p => by simp only [CItem.crlf, CItem.ast, crlfBop, gap_crlf_block, plug_crlf_ast]
  | .branch com g1 c g2 items foot elifs els => by
    simp only [CItem.crlf, CItem.ast, crlfBop, gap_crlf_block, cond_crlf_ast, items_crlf_ast ign items, elifs_crlf_ast ign elifs,
      else_crlf_ast ign els]
theorem items_crlf_ast (ign : Bool) : ∀ l : List CItem, itemsAst ign (itemsCrlf l) = crlfBops (itemsAst ign l)
  | [] => rfl
  | i :: r => by simp only [itemsCrlf, itemsAst, crlfBops, item_crlf_ast ign i, items_crlf_ast ign r]
theorem elifs_crlf_ast (ign : Bool) : ∀ l : List CElif, elifsAst ign (elifsCrlf l) = crlfElifs (elifsAst ign l)
  | [] => rfl
  | .mk com g0 g1 c g2 items foot :: r => by
    simp only [elifsCrlf, elifsAst, crlfElifs, gap_crlf_block, cond_crlf_ast, items_crlf_ast ign items, elifs_crlf_ast ign r]
theorem else_crlf_ast (ign : Bool) : ∀ e : CElse, e.crlf.ast ign = crlfElse (e.ast ign)
  | .none => rfl
  | .mk com g items foot => by simp only [CElse.crlf, CElse.ast, crlfElse, gap_crlf_block, items_crlf_ast ign items]
end

theorem section_crlf_ast (ign first : Bool) (s : CSection) : s.crlf.ast ign first = crlfSect (s.ast ign first) := by
  simp only [CSection.crlf, CSection.ast, crlfSect, gap_crlf_block, items_crlf_ast]

theorem filter_crlf (t : PluginType) (l : List Section) :
    (l.map crlfSect).filter (·.ptype = t) = (l.filter (·.ptype = t)).map crlfSect := by
  rw [List.filter_map]; rfl

theorem file_crlf_ast (ign : Bool) (k : CFile) : k.crlf.ast ign = crlfConfig (k.ast ign) := by
  have hs : k.crlf.sections ign = (k.sections ign).map crlfSect := by
    cases k with
    | empty g => rfl
    | config s ss f => simp [CFile.crlf, CFile.sections, section_crlf_ast]
  simp only [CFile.ast, crlfConfig, hs, filter_crlf]
  cases k with
  | empty g => rfl
  | config s ss f => simp only [CFile.crlf, gap_crlf_block]

end Verif.Spec
