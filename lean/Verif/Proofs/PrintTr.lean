import Verif.Proofs.Pieces
/-
The printed text of values, conditions and blocks, as pieces at a given depth; one more level of
indentation leads to the next depth.
-/
namespace Verif
open Spec

/-! ### Fragments of code -/

/-- A fragment of code a line can start with. -/
def CodeFrag (b : Bytes) : Prop := b ≠ [] ∧ Balanced b ∧ codeStart b = true

theorem balanced_of_plain {b : Bytes} (h : b.all plainByte = true) : Balanced b := by
  induction b with
  | nil => exact .nil
  | cons c b ih =>
    rw [List.all_cons, Bool.and_eq_true] at h
    have := h.1
    simp [plainByte] at this
    exact .plain c b this.1.1 this.1.2 this.2 (ih h.2)

theorem CodeFrag.app {a b : Bytes} (h : CodeFrag a) (hb : Balanced b) : CodeFrag (a ++ b) :=
  ⟨by simp [h.1], balanced_append h.2.1 hb, codeStart_append h.2.2⟩

theorem CodeFrag.tr {b : Bytes} (h : CodeFrag b) : Tr false false [.code b] [.code b] := Tr.code h.1 h.2.1

theorem nameChar_plain {c : UInt8} (h : isNameChar c = true) : plainByte c = true ∧ codeStart [c] = true := by
  revert c; decide +kernel

theorem code_of_names {b : Bytes} (hne : b ≠ []) (h : b.all isNameChar = true) : CodeFrag b := by
  refine ⟨hne, balanced_of_plain ?_, ?_⟩
  · rw [List.all_eq_true] at *
    exact fun c hc => (nameChar_plain (h c hc)).1
  · cases b with
    | nil => exact absurd rfl hne
    | cons c t =>
      rw [List.all_cons, Bool.and_eq_true] at h
      exact (nameChar_plain h.1).2

theorem quoted_code {q : UInt8} {body : Bytes} (hq : q = 34 ∨ q = 39) (h : StringBody q body) : CodeFrag ([q] ++ body ++ [q]) := by
  refine ⟨by simp, ?_, by rcases hq with rfl | rfl <;> rfl⟩
  have := Balanced.quoted q body [] hq h .nil
  simpa using this

theorem lit_quoted {s : StrLit} (h : s.Quoted) : CodeFrag s.text := by
  rcases h with ⟨h1, h2⟩ | ⟨h1, h2⟩
  · rw [StrLit.text, h1]; exact quoted_code (.inl rfl) h2
  · rw [StrLit.text, h1]; exact quoted_code (.inr rfl) h2

theorem lit_name {s : StrLit} (h : s.Name) : CodeFrag s.text := by
  rcases h with ⟨h1, h2, h3⟩ | h
  · rw [StrLit.text, h1]; simpa [StrLit.quote] using code_of_names h2 h3
  · exact lit_quoted h

theorem word_name {c : UInt8} : (isWordStart c = true → isNameChar c = true) ∧ (isWordChar c = true → isNameChar c = true) := by
  unfold isWordStart isWordChar isNameChar
  constructor <;> intro h <;> simp only [Bool.or_eq_true] at * <;> grind

theorem value_name {s : StrLit} (h : s.Value) : s.Name := by
  rcases h with ⟨h1, c, r, h2, h3, h4, h5⟩ | h
  · refine .inl ⟨h1, by simp [h2], ?_⟩
    rw [h2, List.all_cons, word_name.1 h3, Bool.true_and, List.all_eq_true]
    rw [List.all_eq_true] at h5
    exact fun c hc => word_name.2 (h5 c hc)
  · exact .inr h

theorem digit_name {c : UInt8} (h : Spec.isDigit c = true) : isNameChar c = true := by
  unfold isNameChar; simp [h]

theorem num_code {t : Bytes} (h : NumTok t) : CodeFrag t := by
  obtain ⟨s, d, f, rfl, h1, h2, h3, h4⟩ := h
  have hd : d.all isNameChar = true := by
    rw [List.all_eq_true] at *; exact fun c hc => digit_name (h3 c hc)
  have hsd : CodeFrag (s ++ d) := by
    apply code_of_names (by simp [h2])
    rw [List.all_append, hd, Bool.and_true]
    rcases h1 with rfl | rfl <;> rfl
  refine hsd.app ?_
  rcases h4 with rfl | ⟨f', rfl, h5⟩
  · exact .nil
  · refine .plain 46 _ (by decide) (by decide) (by decide) (balanced_of_plain ?_)
    rw [List.all_eq_true] at *
    exact fun c hc => (nameChar_plain (digit_name (h5 c hc))).1

theorem strAttr_text (a : StrAttr) (h : (⟨a.sat, a.value⟩ : StrLit).Name) : a.valueStr = (⟨a.sat, a.value⟩ : StrLit).text := by
  unfold StrAttr.valueStr StrLit.text
  have : a.sat.str = StrLit.quote a.sat := by
    rcases h with ⟨h1, _⟩ | ⟨h1, _⟩ | ⟨h1, _⟩ <;> simp only at h1 <;> rw [h1] <;> rfl
  rw [this]

theorem strAttr_code {a : StrAttr} (h : (⟨a.sat, a.value⟩ : StrLit).Name) : CodeFrag a.valueStr := by
  rw [strAttr_text a h]; exact lit_name h

theorem numAttr_code {a : NumAttr} (h : Exact a.value) : CodeFrag a.valueStr := num_code (numString_exact h.1 h.2).1

theorem name_code {n : Bytes} (h : NameOk n) : CodeFrag n := by
  obtain ⟨s, h1, rfl⟩ := h; exact lit_name h1

theorem key_code {k : HKey} (h : KeyOk true k) : CodeFrag k.valueStr := by
  cases k with
  | str a => exact strAttr_code (value_name h.1)
  | num a => exact numAttr_code (h.1 rfl)

theorem bal_lit (s : Bytes) (h : s.all plainByte = true := by decide) : Balanced s := balanced_of_plain h

/-! ### Values -/

mutual
/-- The pieces of a value at depth `n`. -/
def valP : Nat → Attr → List Piece
  | _, .nil => []
  | _, .str a => [.code a.valueStr]
  | _, .num a => [.code a.valueStr]
  | n, .arr _ _ as _ f => .code b!"[" :: blockP n false b!"]" (elemsP true (n + 1) as) f
  | n, .hash _ _ es _ f => .code b!"{" :: blockP n false b!"}" (entriesP true (n + 1) es) f
  | n, .plug _ _ p _ => plugP n p
/-- Array elements. -/
def elemsP : Bool → Nat → List Attr → List Piece
  | _, _, [] => []
  | first, n, a :: as => (if first then [] else [.code b!",", .nl]) ++ (comsP n a.comment ++ (ind n ++ valP n a)) ++ elemsP false n as
/-- Hash entries. -/
def entriesP : Bool → Nat → List HEntry → List Piece
  | _, _, [] => []
  | first, n, .mk _ k v c :: es => (if first then [] else [.nl]) ++ (comsP n c ++ (ind n ++ .code (k.valueStr ++ b!" => ") :: valP n v)) ++
      entriesP false n es
/-- A plugin, without its comments. -/
def plugP : Nat → Plugin → List Piece
  | n, .mk _ name as _ f => .code (name ++ b!" {") :: blockP n false b!"}" (attrsP true (n + 1) as) f
/-- Attributes. -/
def attrsP : Bool → Nat → List Attr → List Piece
  | _, _, [] => []
  | first, n, a :: as => (if first then [] else [.nl]) ++ (comsP n a.comment ++ (ind n ++ .code (a.name ++ b!" => ") :: valP n a)) ++
      attrsP false n as
end

theorem close_arr : CodeFrag b!"]" := by refine ⟨by decide, bal_lit _, by decide⟩
theorem close_brace : CodeFrag b!"}" := by refine ⟨by decide, bal_lit _, by decide⟩

/-- A value starts with the same code at every depth. -/
theorem valP_head {a : Attr} (h : ValueOk true a) : ∃ c, CodeFrag c ∧ ∀ n, ∃ X, valP n a = .code c :: X := by
  cases a with
  | nil => exact absurd h (by simp [ValueOk])
  | str a => exact ⟨a.valueStr, strAttr_code (value_name h), fun n => ⟨[], by rw [valP]⟩⟩
  | num a => exact ⟨a.valueStr, numAttr_code (h rfl), fun n => ⟨[], by rw [valP]⟩⟩
  | arr p m as c f => exact ⟨b!"[", ⟨by decide, bal_lit _, by decide⟩, fun n => ⟨_, by rw [valP]⟩⟩
  | hash p m es c f => exact ⟨b!"{", ⟨by decide, bal_lit _, by decide⟩, fun n => ⟨_, by rw [valP]⟩⟩
  | plug p m v c =>
    obtain ⟨p', name, as, c', f⟩ := v
    rw [ValueOk, PluginOk] at h
    exact ⟨name ++ b!" {", (name_code h.1.1).app (bal_lit _), fun n => ⟨_, by rw [valP, plugP]⟩⟩

/-- A line of a block: comments, indentation, code. -/
theorem Tr.line {n : Nat} {cs : CommentBlock} {b : Bytes} {X X' : List Piece} (hc : ∀ c ∈ cs, CommentText c.text) (hb : CodeFrag b)
    (h : Tr false false (.code b :: X) (.code b :: X')) :
    Tr true false (comsP n cs ++ (ind n ++ .code b :: X)) (comsP (n + 1) cs ++ (ind (n + 1) ++ .code b :: X')) :=
  Tr.app (Tr.coms hc) (Tr.lead n h hb.2.2)

theorem Tr.line_val {n : Nat} {cs : CommentBlock} {a : Attr} (hc : CommentsOk cs) (ha : ValueOk true a) (h : Tr false false (valP n a) (valP (n + 1) a)) :
    Tr true false (comsP n cs ++ (ind n ++ valP n a)) (comsP (n + 1) cs ++ (ind (n + 1) ++ valP (n + 1) a)) := by
  obtain ⟨c, h1, h2⟩ := valP_head ha
  obtain ⟨X, hX⟩ := h2 n
  obtain ⟨X', hX'⟩ := h2 (n + 1)
  rw [hX, hX'] at h ⊢
  exact Tr.line (fun c h => (hc c h).1) h1 h

theorem Tr.cons {b : Bytes} {X X' : List Piece} (hb : CodeFrag b) (h : Tr false false X X') : Tr false false (.code b :: X) (.code b :: X') :=
  Tr.app hb.tr h

theorem ne_of_tr {X X' : List Piece} (h : Tr true false X X') : X ≠ [] ∧ X' ≠ [] := by
  have h1 : X ≠ [] := by
    rintro rfl
    have := h.2.2 []
    simp [lineSt, scan] at this
  refine ⟨h1, ?_⟩
  rintro rfl
  have := congrArg List.length (h.2.1 [])
  rw [List.append_nil] at this
  cases X with
  | nil => exact h1 rfl
  | cons p X =>
    cases p <;> simp [indent] at this

theorem Body.of {X X' : List Piece} (h : Tr true false X X') : Body X X' := .inr ⟨(ne_of_tr h).1, (ne_of_tr h).2, h⟩

mutual
theorem valTr : ∀ (a : Attr) (n : Nat), ValueOk true a → Tr false false (valP n a) (valP (n + 1) a)
  | .nil, n, h => absurd h (by simp [ValueOk])
  | .str a, n, h => by rw [valP, valP]; exact (strAttr_code (value_name h)).tr
  | .num a, n, h => by rw [valP, valP]; exact (numAttr_code (h rfl)).tr
  | .arr p m as c f, n, h => by
    rw [ValueOk] at h
    rw [valP, valP]
    exact Tr.cons ⟨by decide, bal_lit _, by decide⟩ (Tr.block close_arr (elemsBody as (n + 1) h.1) h.2)
  | .hash p m es c f, n, h => by
    rw [ValueOk] at h
    rw [valP, valP]
    exact Tr.cons ⟨by decide, bal_lit _, by decide⟩ (Tr.block close_brace (entriesBody es (n + 1) h.1) h.2)
  | .plug p m v c, n, h => by
    rw [ValueOk] at h
    rw [valP, valP]
    exact plugTr v n h.1
theorem elemsTr : ∀ (as : List Attr) (n : Nat), ElemsOk true as → Tr false false (elemsP false n as) (elemsP false (n + 1) as)
  | [], n, h => by rw [elemsP, elemsP]; exact Tr.nil false
  | a :: as, n, h => by
    rw [ElemsOk] at h
    rw [elemsP, elemsP]
    exact Tr.app (Tr.app (Tr.app (Tr.code (by decide) (bal_lit _)) (Tr.nl false)) (Tr.line_val h.2.2.2.1 h.1 (valTr a n h.1))) (elemsTr as n h.2.2.2.2)
theorem elemsBody : ∀ (as : List Attr) (n : Nat), ElemsOk true as → Body (elemsP true n as) (elemsP true (n + 1) as)
  | [], n, h => by rw [elemsP, elemsP]; exact .inl ⟨rfl, rfl⟩
  | a :: as, n, h => by
    rw [ElemsOk] at h
    rw [elemsP, elemsP]
    exact Body.of (Tr.app (Tr.app (Tr.nil true) (Tr.line_val h.2.2.2.1 h.1 (valTr a n h.1))) (elemsTr as n h.2.2.2.2))
theorem entriesTr : ∀ (es : List HEntry) (n : Nat), EntriesOk true es → Tr false false (entriesP false n es) (entriesP false (n + 1) es)
  | [], n, h => by rw [entriesP, entriesP]; exact Tr.nil false
  | .mk p k v c :: es, n, h => by
    rw [EntriesOk] at h
    obtain ⟨h1, h2, -, -, -, h3, h4⟩ := h
    rw [entriesP, entriesP]
    have hk := (key_code h1).app (bal_lit b!" => ")
    exact Tr.app (Tr.app (Tr.nl false) (Tr.line (fun c h => (h3 c h).1) hk (Tr.cons hk (valTr v n h2)))) (entriesTr es n h4)
theorem entriesBody : ∀ (es : List HEntry) (n : Nat), EntriesOk true es → Body (entriesP true n es) (entriesP true (n + 1) es)
  | [], n, h => by rw [entriesP, entriesP]; exact .inl ⟨rfl, rfl⟩
  | .mk p k v c :: es, n, h => by
    rw [EntriesOk] at h
    obtain ⟨h1, h2, -, -, -, h3, h4⟩ := h
    rw [entriesP, entriesP]
    have hk := (key_code h1).app (bal_lit b!" => ")
    exact Body.of (Tr.app (Tr.app (Tr.nil true) (Tr.line (fun c h => (h3 c h).1) hk (Tr.cons hk (valTr v n h2)))) (entriesTr es n h4))
theorem plugTr : ∀ (p : Plugin) (n : Nat), PluginOk true p → Tr false false (plugP n p) (plugP (n + 1) p)
  | .mk p name as c f, n, h => by
    rw [PluginOk] at h
    rw [plugP, plugP]
    exact Tr.cons ((name_code h.1).app (bal_lit _)) (Tr.block close_brace (attrsBody as (n + 1) h.2.1) h.2.2.2)
theorem attrsTr : ∀ (as : List Attr) (n : Nat), AttrsOk true as → Tr false false (attrsP false n as) (attrsP false (n + 1) as)
  | [], n, h => by rw [attrsP, attrsP]; exact Tr.nil false
  | a :: as, n, h => by
    rw [AttrsOk] at h
    rw [attrsP, attrsP]
    have hk := (name_code h.2.1).app (bal_lit b!" => ")
    exact Tr.app (Tr.app (Tr.nl false) (Tr.line (fun c hc => (h.2.2.1 c hc).1) hk (Tr.cons hk (valTr a n h.1)))) (attrsTr as n h.2.2.2)
theorem attrsBody : ∀ (as : List Attr) (n : Nat), AttrsOk true as → Body (attrsP true n as) (attrsP true (n + 1) as)
  | [], n, h => by rw [attrsP, attrsP]; exact .inl ⟨rfl, rfl⟩
  | a :: as, n, h => by
    rw [AttrsOk] at h
    rw [attrsP, attrsP]
    have hk := (name_code h.2.1).app (bal_lit b!" => ")
    exact Body.of (Tr.app (Tr.app (Tr.nil true) (Tr.line (fun c hc => (h.2.2.1 c hc).1) hk (Tr.cons hk (valTr a n h.1)))) (attrsTr as n h.2.2.2))
end

/-! ### The printer prints these pieces -/

theorem render_code (b : Bytes) (X : List Piece) : render (.code b :: X) = b ++ render X := rfl

theorem commentStr_eq {a : Attr} (h : ValueOk true a) : a.commentStr = commentsStr a.comment ∧ a.isNil = false := by
  cases a with
  | nil => exact absurd h (by simp [ValueOk])
  | _ => exact ⟨rfl, rfl⟩

theorem body_empty {X X' : List Piece} (h : Body X X') : X.isEmpty = X'.isEmpty := by
  rcases h with ⟨rfl, rfl⟩ | ⟨h1, h2, _⟩
  · rfl
  · rw [show X.isEmpty = false by simp [h1], show X'.isEmpty = false by simp [h2]]

theorem render_nil_iff {X X' : List Piece} (h : Body X X') : (render X).isEmpty = X.isEmpty := by
  rcases h with ⟨rfl, rfl⟩ | ⟨h1, h2, h3⟩
  · rfl
  · cases X with
    | nil => exact absurd rfl h1
    | cons p X =>
      have := h3.1 p (List.mem_cons_self ..)
      cases p with
      | code b =>
        have := this.1
        cases b with
        | nil => exact absurd rfl this
        | cons c b => rfl
      | _ => rfl

mutual
theorem valStr : ∀ (a : Attr), ValueOk true a → a.valueStr = render (valP 0 a)
  | .nil, h => absurd h (by simp [ValueOk])
  | .str a, h => by rw [Attr.valueStr, valP]; simp [render, Piece.text]
  | .num a, h => by rw [Attr.valueStr, valP]; simp [render, Piece.text]
  | .arr p m as c f, h => by
    rw [ValueOk] at h
    have hb := elemsBody as 0 h.1
    have hr := elemsStr as true h.1
    rw [Attr.valueStr, valP, render_code, ← prefix_block hb h.2 rfl]
    rw [hr, render_nil_iff hb]
    split <;> simp_all
  | .hash p m es c f, h => by
    rw [ValueOk] at h
    have hb := entriesBody es 0 h.1
    rw [Attr.valueStr, valP, render_code, ← prefix_block hb h.2 rfl]
    have hr0 := entriesStr1 es
    cases es with
    | nil => simp [hashElems, entriesP, render]
    | cons e es =>
      have hr := hr0 (by simp) h.1
      have : (entriesP true 0 (e :: es)).isEmpty = false := by
        rw [← render_nil_iff hb]
        cases hx : render (entriesP true 0 (e :: es)) with
        | cons => rfl
        | nil =>
          have := congrArg List.length hr
          rw [hx] at this
          obtain ⟨p, k, v, c⟩ := e
          rw [hashElems] at this; simp at this; omega
      rw [this, hr]
      simp
  | .plug p m v c, h => by
    rw [ValueOk] at h
    rw [Attr.valueStr, valP]
    have := plugStr v h.1
    rw [h.2] at this
    simpa [commentsStr] using this
theorem elemsStr : ∀ (as : List Attr) (first : Bool), ElemsOk true as → arrElems first as = render (elemsP first 0 as)
  | [], first, h => by rw [arrElems, elemsP]; rfl
  | a :: as, first, h => by
    rw [ElemsOk] at h
    obtain ⟨e1, e2⟩ := commentStr_eq h.1
    rw [arrElems, elemsP, elemsStr as false h.2.2.2.2, valStr a h.1, e1, e2, commentsStr_render]
    simp only [render_append]
    cases first <;> simp [render, Piece.text, ind]
theorem entriesStr : ∀ (es : List HEntry), EntriesOk true es → 10 :: hashElems es = render (entriesP false 0 es) ++ [10]
  | [], h => by rw [hashElems, entriesP]; rfl
  | .mk p k v c :: es, h => by
    rw [EntriesOk] at h
    obtain ⟨h1, h2, -, -, -, h3, h4⟩ := h
    have := entriesStr es h4
    rw [hashElems, entriesP, valStr v h2, commentsStr_render]
    simp only [render_append, render_code, List.append_assoc]
    rw [← this]
    simp [render, Piece.text, ind]
theorem entriesStr1 : ∀ (es : List HEntry), es ≠ [] → EntriesOk true es → hashElems es = render (entriesP true 0 es) ++ [10]
  | [], hne, _ => absurd rfl hne
  | .mk p k v c :: es, _, h => by
    rw [EntriesOk] at h
    obtain ⟨h1, h2, -, -, -, h3, h4⟩ := h
    have := entriesStr es h4
    rw [hashElems, entriesP, valStr v h2, commentsStr_render]
    simp only [render_append, render_code, List.append_assoc]
    rw [← this]
    simp [render, ind]
theorem plugStr : ∀ (p : Plugin), PluginOk true p → p.str = commentsStr p.comment ++ render (plugP 0 p)
  | .mk p name as c f, h => by
    rw [PluginOk] at h
    have hb := attrsBody as 0 h.2.1
    rw [Plugin.str, plugP, render_code, ← prefix_block hb h.2.2.2 rfl]
    simp only [Plugin.comment]
    have hr0 := attrsStr1 as
    cases as with
    | nil => simp [attrElems, attrsP, render]
    | cons e es =>
      have hr := hr0 (by simp) h.2.1
      have : (attrsP true 0 (e :: es)).isEmpty = false := by
        rw [← render_nil_iff hb]
        cases hx : render (attrsP true 0 (e :: es)) with
        | cons => rfl
        | nil =>
          have := congrArg List.length hr
          rw [hx] at this
          rw [attrElems] at this
          rw [AttrsOk] at h
          rw [(commentStr_eq h.2.1.1).2] at this
          simp at this; omega
      rw [this, hr]
      simp
theorem attrsStr : ∀ (as : List Attr), AttrsOk true as → 10 :: attrElems as = render (attrsP false 0 as) ++ [10]
  | [], h => by rw [attrElems, attrsP]; rfl
  | a :: as, h => by
    rw [AttrsOk] at h
    have := attrsStr as h.2.2.2
    obtain ⟨e1, e2⟩ := commentStr_eq h.1
    rw [attrElems, attrsP, valStr a h.1, e1, e2, commentsStr_render]
    simp only [render_append, render_code, List.append_assoc]
    rw [← this]
    simp [render, Piece.text, ind]
theorem attrsStr1 : ∀ (as : List Attr), as ≠ [] → AttrsOk true as → attrElems as = render (attrsP true 0 as) ++ [10]
  | [], hne, _ => absurd rfl hne
  | a :: as, _, h => by
    rw [AttrsOk] at h
    have := attrsStr as h.2.2.2
    obtain ⟨e1, e2⟩ := commentStr_eq h.1
    rw [attrElems, attrsP, valStr a h.1, e1, e2, commentsStr_render]
    simp only [render_append, render_code, List.append_assoc]
    rw [← this]
    simp [render, ind]
end

end Verif
