import Verif.Spec.Cst
import Verif.Spec.Clear
import Verif.Spec.Concat
import Verif.Props.Layout
import Verif.Proofs.AMapComp
/-
Two files in a row: the gap at the end of the first and the gap at the start of the second become one.
-/
namespace Verif
open Verif.Spec

/-- Ends the last comment of a gap with a newline, or adds a newline to the whitespace. -/
def Gap.close (g : Gap) : Gap :=
  match g.lines.getLast?, g.tail with
  | some l, [] => if l.lf then ⟨g.lines, [10]⟩ else ⟨g.lines.dropLast ++ [{ l with lf := true }], []⟩
  | _, t => ⟨g.lines, t ++ [10]⟩

theorem Gap.close_ok {g : Gap} (h : g.OkEnd) : (Gap.close g).Ok ∧ (Gap.close g).text = g.text ++ [10] ∧
    (Gap.close g).lines.map (fun l => trim 32 l.body) = g.lines.map (fun l => trim 32 l.body) := by
  rcases h with h | ⟨ls, l, rfl, h1, h2, h3⟩
  · have key : Gap.close g = ⟨g.lines, g.tail ++ [10]⟩ := by
      obtain ⟨ls, t⟩ := g
      unfold Gap.close
      split
      · next l h4 h5 =>
        subst h5
        rw [if_pos (h.1 l (List.mem_of_getLast? h4)).2]; rfl
      · rfl
    rw [key]
    refine ⟨⟨h.1, by simp [h.2, isWs]⟩, by simp [Gap.text], rfl⟩
  · have key : Gap.close ⟨ls ++ [l], []⟩ = ⟨ls ++ [{ l with lf := true }], []⟩ := by
      simp [Gap.close, h3]
    rw [key]
    refine ⟨⟨fun x hx => ?_, rfl⟩, by simp [Gap.text, CommentLine.text, h3], by simp⟩
    simp only [List.mem_append, List.mem_singleton] at hx
    rcases hx with hx | rfl
    · exact h1 x hx
    · exact ⟨h2, rfl⟩

/-- One gap after another. -/
def Gap.join (g h : Gap) : Gap :=
  match h.lines with
  | [] => ⟨g.lines, g.tail ++ h.tail⟩
  | l :: r => ⟨g.lines ++ { l with ws := g.tail ++ l.ws } :: r, h.tail⟩

theorem Gap.join_text (g h : Gap) : (Gap.join g h).text = g.text ++ h.text := by
  obtain ⟨ls, t⟩ := h
  cases ls <;> simp [Gap.join, Gap.text, CommentLine.text]

theorem Gap.join_ok {g h : Gap} (hg : g.Ok) (hh : h.Ok) : (Gap.join g h).Ok := by
  obtain ⟨ls, t⟩ := h
  cases ls with
  | nil => exact ⟨hg.1, by simpa [Gap.join] using ⟨by simpa using hg.2, by simpa using hh.2⟩⟩
  | cons l r =>
    refine ⟨fun x hx => ?_, hh.2⟩
    simp only [Gap.join, List.mem_append, List.mem_cons] at hx
    rcases hx with hx | rfl | hx
    · exact hg.1 x hx
    · have := hh.1 l (List.mem_cons_self ..)
      exact ⟨⟨by rw [List.all_append, hg.2, this.1.1]; rfl, this.1.2⟩, this.2⟩
    · exact hh.1 x (List.mem_cons_of_mem _ hx)

theorem Gap.join_okEnd {g h : Gap} (hg : g.Ok) (hh : h.OkEnd) : (Gap.join g h).OkEnd := by
  rcases hh with hh | ⟨ls, l, rfl, h1, h2, h3⟩
  · exact .inl (Gap.join_ok hg hh)
  · right
    cases ls with
    | nil =>
      exact ⟨g.lines, { l with ws := g.tail ++ l.ws }, by simp [Gap.join], hg.1, ⟨by rw [List.all_append, hg.2, h2.1]; rfl, h2.2⟩, h3⟩
    | cons x r =>
      refine ⟨g.lines ++ { x with ws := g.tail ++ x.ws } :: r, l, by simp [Gap.join], fun y hy => ?_, h2, h3⟩
      simp only [List.mem_append, List.mem_cons] at hy
      rcases hy with hy | rfl | hy
      · exact hg.1 y hy
      · have := h1 x (List.mem_cons_self ..)
        exact ⟨⟨by rw [List.all_append, hg.2, this.1.1]; rfl, this.1.2⟩, this.2⟩
      · exact h1 y (List.mem_cons_of_mem _ hy)

theorem Gap.join_lines (g h : Gap) : (Gap.join g h).lines.map (fun l => trim 32 l.body) =
    g.lines.map (fun l => trim 32 l.body) ++ h.lines.map (fun l => trim 32 l.body) := by
  obtain ⟨ls, t⟩ := h
  cases ls <;> simp [Gap.join]

theorem texts_markFirst (b : Bool) (l : List Comment) : texts (markFirst b l) = texts l := by
  cases l <;> rfl

theorem texts_markLast : ∀ l : List Comment, texts (markLast l) = texts l
  | [] => rfl
  | [c] => rfl
  | c :: d :: r => by
    have := texts_markLast (d :: r)
    simp only [texts, markLast, List.map_cons] at this ⊢
    rw [this]

theorem texts_block (ign : Bool) (g : Gap) (x y : Bool) :
    texts (g.block ign x y) = if ign then [] else g.lines.map fun l => trim 32 l.body := by
  have h : texts g.comments = g.lines.map fun l => trim 32 l.body := by
    obtain ⟨ls, t⟩ := g
    cases ls <;> simp [Gap.comments, texts, CommentLine.comment]
  cases ign with
  | true => rfl
  | false =>
    simp only [Gap.block, Bool.false_eq_true, if_false]
    split <;> (try rw [texts_markLast]) <;> split <;> (try rw [texts_markFirst]) <;> exact h

/-- The tree of two files in a row; the first one ends in a gap that other gaps can follow. -/
def CFile.join : CFile → CFile → CFile
  | .empty g, .empty h => .empty (Gap.join g h)
  | .empty g, .config s ss f => .config { s with com := Gap.join g s.com } ss f
  | .config s ss f, .empty h => .config s ss (Gap.join f h)
  | .config s ss f, .config t ts h => .config s (ss ++ { t with com := Gap.join f t.com } :: ts) h

/-- The gap at the end. -/
def CFile.foot : CFile → Gap
  | .empty g => g
  | .config _ _ f => f

/-- The tree with another gap at the end. -/
def CFile.withFoot : CFile → Gap → CFile
  | .empty _, g => .empty g
  | .config s ss _, g => .config s ss g

theorem CFile.join_text (k l : CFile) : (CFile.join k l).text = k.text ++ l.text := by
  cases k <;> cases l <;> simp [CFile.join, CFile.text, CSection.text, Gap.join_text]

theorem CFile.join_ok {k l : CFile} (hk : k.Ok) (hf : (CFile.foot k).Ok) (hl : l.Ok) : (CFile.join k l).Ok := by
  cases k with
  | empty g =>
    cases l with
    | empty h => exact Gap.join_okEnd hf hl
    | config s ss f => exact ⟨⟨Gap.join_ok hf hl.1.1, hl.1.2⟩, hl.2⟩
  | config s ss f =>
    cases l with
    | empty h => exact ⟨hk.1, hk.2.1, Gap.join_okEnd hf hl⟩
    | config t ts h =>
      refine ⟨hk.1, fun x hx => ?_, hl.2.2⟩
      simp only [List.mem_append, List.mem_cons] at hx
      rcases hx with hx | rfl | hx
      · exact hk.2.1 x hx
      · exact ⟨Gap.join_ok hf hl.1.1, hl.1.2⟩
      · exact hl.2.1 x hx

theorem CFile.join_clear {k l : CFile} (hk : k.Clear) (hl : l.Clear) : (CFile.join k l).Clear := by
  cases k with
  | empty g =>
    cases l with
    | empty h => trivial
    | config s ss f => exact hl
  | config s ss f =>
    cases l with
    | empty h => exact hk
    | config t ts h =>
      refine ⟨hk.1, fun x hx => ?_⟩
      simp only [List.mem_append, List.mem_cons] at hx
      rcases hx with hx | rfl | hx
      · exact hk.2 x hx
      · exact hl.1
      · exact hl.2 x hx

theorem CFile.withFoot_ok {k : CFile} (hk : k.Ok) {g : Gap} (hg : g.OkEnd) : (CFile.withFoot k g).Ok := by
  cases k with
  | empty => exact hg
  | config => exact ⟨hk.1, hk.2.1, hg⟩

theorem CFile.foot_ok {k : CFile} (hk : k.Ok) : (CFile.foot k).OkEnd := by
  cases k with
  | empty => exact hk
  | config => exact hk.2.2

theorem CFile.withFoot_text {k : CFile} {g : Gap} {x : Bytes} (h : g.text = (CFile.foot k).text ++ x) :
    (CFile.withFoot k g).text = k.text ++ x := by
  cases k <;> simp_all [CFile.withFoot, CFile.text, CFile.foot]

theorem CFile.withFoot_clear {k : CFile} {g : Gap} (h : k.Clear) : (CFile.withFoot k g).Clear := by
  cases k <;> exact h

theorem CFile.foot_withFoot {k : CFile} {g : Gap} : CFile.foot (CFile.withFoot k g) = g := by cases k <;> rfl

/-! ### What the trees denote -/

theorem bare_noPos (s : Section) : bare (AMap.noPos.sect s) = bare s := by
  unfold bare
  rw [comp_sect]; rfl

theorem bare_filter (t : PluginType) (l : List Section) :
    (l.filter (·.ptype = t)).map bare = (l.map bare).filter (·.ptype = t) := by
  induction l with
  | nil => rfl
  | cons s l ih =>
    have : (bare s).ptype = s.ptype := rfl
    by_cases h : s.ptype = t <;> simp [List.filter_cons, this, h] <;> simpa using ih

theorem join_bare (ign : Bool) (k l : CFile) :
    ((CFile.join k l).sections ign).map bare = (k.sections ign).map bare ++ (l.sections ign).map bare := by
  cases k <;> cases l <;> simp [CFile.join, CFile.sections] <;> rfl

theorem foot_bare (ign : Bool) (k : CFile) (g : Gap) : (CFile.withFoot k g).sections ign = k.sections ign := by
  cases k <;> rfl

/-- `SectionsOf` for the sections in the order of the file. -/
theorem sectionsOf_tree {a b c : Config} {ka kb kc : CFile} {ign : Bool} (ha : content a = ka.ast ign) (hb : content b = kb.ast ign)
    (hc : content c = kc.ast ign) (h : (kc.sections ign).map bare = (ka.sections ign).map bare ++ (kb.sections ign).map bare) :
    SectionsOf c a b := by
  have key : ∀ {x : Config} {k : CFile}, content x = k.ast ign →
      x.input.map bare = ((k.sections ign).map bare).filter (·.ptype = .input) ∧
      x.filter.map bare = ((k.sections ign).map bare).filter (·.ptype = .filter) ∧
      x.output.map bare = ((k.sections ign).map bare).filter (·.ptype = .output) := by
    intro x k hx
    have hm : ∀ l : List Section, (l.map AMap.noPos.sect).map bare = l.map bare := by
      intro l
      rw [List.map_map]
      exact List.map_congr_left fun s _ => bare_noPos s
    have h1 : (content x).input = _ := congrArg Config.input hx
    have h2 : (content x).filter = _ := congrArg Config.filter hx
    have h3 : (content x).output = _ := congrArg Config.output hx
    simp only [content, AMap.config, CFile.ast] at h1 h2 h3
    refine ⟨?_, ?_, ?_⟩
    · rw [← hm, h1, bare_filter]
    · rw [← hm, h2, bare_filter]
    · rw [← hm, h3, bare_filter]
  obtain ⟨a1, a2, a3⟩ := key ha
  obtain ⟨b1, b2, b3⟩ := key hb
  obtain ⟨c1, c2, c3⟩ := key hc
  refine ⟨?_, ?_, ?_⟩
  · rw [a1, b1, c1, h, List.filter_append]
  · rw [a2, b2, c2, h, List.filter_append]
  · rw [a3, b3, c3, h, List.filter_append]

/-- The texts of the comments around the sections of a tree. -/
def treeTexts (ign : Bool) (k : CFile) : List Bytes :=
  (k.sections ign).flatMap (fun s => texts s.comment) ++
    match k with
    | .empty _ => []
    | .config _ _ f => texts (f.block ign true false)

theorem perm_types : ∀ l : List Section, (∀ s ∈ l, s.ptype ≠ .undefined) →
    (l.filter (·.ptype = .input) ++ l.filter (·.ptype = .filter) ++ l.filter (·.ptype = .output)).Perm l
  | [], _ => .nil
  | s :: l, h => by
    have ih := perm_types l fun x hx => h x (List.mem_cons_of_mem _ hx)
    have hs := h s (List.mem_cons_self ..)
    cases hp : s.ptype with
    | input => simpa [hp] using ih
    | filter =>
      simp only [List.filter_cons, hp, List.append_assoc] at ih ⊢
      exact List.perm_middle.trans (.cons _ ih)
    | output =>
      simp only [List.filter_cons, hp] at ih ⊢
      exact List.perm_middle.trans (.cons _ ih)
    | undefined => exact absurd hp hs

theorem outer_tree {c : Config} {k : CFile} {ign : Bool} (hk : k.Ok) (h : content c = k.ast ign) :
    (outerTexts c).Perm (treeTexts ign k) := by
  have h0 : outerTexts c = outerTexts (content c) := by
    simp only [outerTexts, allSections, content, AMap.config, List.flatMap_append, List.flatMap_map]
    rfl
  rw [h0, h]
  unfold outerTexts treeTexts
  refine List.Perm.append ?_ ?_
  · refine List.Perm.flatMap_right _ (perm_types _ ?_)
    cases k with
    | empty => simp [CFile.sections]
    | config s ss f =>
      intro x hx
      simp only [CFile.sections, List.mem_cons, List.mem_map] at hx
      rcases hx with rfl | ⟨t, ht, rfl⟩
      · exact hk.1.2.1
      · exact (hk.2.1 t ht).2.1
  · cases k <;> exact .refl _

theorem join_texts (ign : Bool) (s t : CSection) (ss ts : List CSection) (f h : Gap) :
    treeTexts ign (CFile.join (.config s ss f) (.config t ts h)) =
      treeTexts ign (.config s ss f) ++ treeTexts ign (.config t ts h) := by
  simp only [treeTexts, CFile.join, CFile.sections, List.map_append, List.map_cons, List.flatMap_append, List.flatMap_cons,
    CSection.ast, texts_block, Gap.join_lines]
  cases ign <;> simp

theorem foot_texts (ign : Bool) (k : CFile) (g : Gap)
    (h : g.lines.map (fun l => trim 32 l.body) = (CFile.foot k).lines.map (fun l => trim 32 l.body)) :
    treeTexts ign (CFile.withFoot k g) = treeTexts ign k := by
  cases k with
  | empty => rfl
  | config s ss f =>
    simp only [treeTexts, CFile.withFoot, CFile.sections, texts_block, CFile.foot] at h ⊢
    rw [h]

theorem no_sections {c : Config} {k : CFile} {ign : Bool} (h : content c = k.ast ign) (hc : allSections c ≠ []) :
    ∃ s ss f, k = .config s ss f := by
  cases k with
  | config s ss f => exact ⟨s, ss, f, rfl⟩
  | empty g =>
    have h1 := congrArg Config.input h
    have h2 := congrArg Config.filter h
    have h3 := congrArg Config.output h
    simp [content, AMap.config, CFile.ast, CFile.sections] at h1 h2 h3
    exact absurd (by simp [allSections, h1, h2, h3]) hc

/-! ### Taking the first file away -/

theorem validUTF8_rest {A B : Bytes} (hA : ValidUTF8 A) (h : ValidUTF8 (A ++ B)) : ValidUTF8 B := by
  obtain ⟨cs, rfl⟩ := hA
  induction cs with
  | nil => exact h
  | cons c cs ih =>
    apply ih
    have h1 := validUTF8_drop h
    have h2 : encode (c :: cs) ++ B = String.utf8EncodeChar c ++ (encode cs ++ B) := by simp [encode]
    rw [h2, decodeRune_encode c] at h1
    simpa using h1

/-- The text of sections and a gap. -/
def fileText (L : List CSection) (F : Gap) : Bytes := L.flatMap CSection.text ++ F.text

theorem gap_cut {g : Gap} (hg : g.Ok) (B : Bytes) : gapOf (g.text ++ B) = (Gap.join g (gapOf B).1, (gapOf B).2) := by
  obtain ⟨h1, h2, -, h3⟩ := gapOf_spec B
  have h4 : g.text ++ B = (Gap.join g (gapOf B).1).text ++ (gapOf B).2 := by
    rw [Gap.join_text, List.append_assoc, ← h1]
  rcases h3 with h3 | ⟨h3, h5⟩
  · rw [h4]; exact gapOf_text (Gap.join_ok hg h3) h2
  · rw [h4, h5, List.append_nil]; exact gapOf_end (Gap.join_okEnd hg h3)

/-- The text of a section after its comment. -/
def CSection.tail (s : CSection) : Bytes :=
  ptypeText s.ptype ++ (s.g.text ++ (b!"{" ++ (itemsText s.items ++ (s.foot.text ++ b!"}"))))

theorem CSection.text_tail (s : CSection) (X : Bytes) : s.text ++ X = s.com.text ++ (CSection.tail s ++ X) := by
  simp [CSection.text, CSection.tail]

theorem CSection.tail_stop {s : CSection} (h : s.Ok) (X : Bytes) : Stop (CSection.tail s ++ X) := by
  simp only [CSection.tail, List.append_assoc]
  exact ptype_stop h.2.1 _

theorem CSection.tail_ne {s : CSection} : CSection.tail s ≠ [] := by
  intro h
  have := congrArg List.length h
  simp [CSection.tail] at this

/-- What comes after a section is determined by the text. -/
theorem section_cancel {s t : CSection} (hs : s.Ok) (ht : t.Ok) (hsc : itemsClear s.items) (htc : itemsClear t.items) {X Y : Bytes}
    (h : s.text ++ X = t.text ++ Y) : X = Y := by
  rw [CSection.text_tail, CSection.text_tail] at h
  have h1 := congrArg gapOf h
  rw [gapOf_text hs.1 (CSection.tail_stop hs X), gapOf_text ht.1 (CSection.tail_stop ht Y)] at h1
  injection h1 with _ h1
  have h2 := section_complete (o := {}) hs hsc X
  have h3 := section_complete (o := {}) ht htc Y
  simp only [CSection.tail, List.append_assoc] at h1
  rw [h1] at h2
  exact (h2.det h3).2

/-- What is left of a file after another file is a file. -/
theorem file_cut (B : Bytes) (F F' : Gap) (hF : F.Ok) (hF' : F'.OkEnd) : ∀ (L L' : List CSection),
    (∀ s ∈ L, s.Ok ∧ itemsClear s.items) → (∀ s ∈ L', s.Ok ∧ itemsClear s.items) → fileText L F ++ B = fileText L' F' →
    ∃ M G, (∀ s ∈ M, CSection.Ok s ∧ itemsClear s.items) ∧ Gap.OkEnd G ∧ fileText M G = B
  | [], [], _, _, h => by
    simp only [fileText, List.flatMap_nil, List.nil_append] at h
    have h1 := congrArg gapOf h
    rw [gap_cut hF, gapOf_end hF'] at h1
    injection h1 with _ h1
    obtain ⟨k1, -, -, k3⟩ := gapOf_spec B
    rw [h1, List.append_nil] at k1
    refine ⟨[], (gapOf B).1, by simp, ?_, ?_⟩
    · rcases k3 with k3 | k3
      · exact .inl k3
      · exact k3.1
    · simpa [fileText] using k1.symm
  | [], t :: L', _, h', h => by
    have ht := h' t (List.mem_cons_self ..)
    simp only [fileText, List.flatMap_nil, List.nil_append, List.flatMap_cons, List.append_assoc] at h
    rw [CSection.text_tail] at h
    have h1 := congrArg gapOf h
    rw [gap_cut hF, gapOf_text ht.1.1 (CSection.tail_stop ht.1 _)] at h1
    injection h1 with _ h1
    obtain ⟨k1, -, -, k3⟩ := gapOf_spec B
    have k4 : (gapOf B).1.Ok := by
      rcases k3 with k3 | ⟨-, k3⟩
      · exact k3
      · rw [h1] at k3
        exact absurd (List.append_eq_nil_iff.1 k3).1 CSection.tail_ne
    refine ⟨{ t with com := (gapOf B).1 } :: L', F', ?_, hF', ?_⟩
    · intro s hs
      rcases List.mem_cons.1 hs with rfl | hs
      · exact ⟨⟨k4, ht.1.2⟩, ht.2⟩
      · exact h' s (List.mem_cons_of_mem _ hs)
    · rw [fileText, List.flatMap_cons, List.append_assoc, CSection.text_tail]
      conv => rhs; rw [k1, h1]
      rfl
  | s :: L, [], h0, _, h => by
    exfalso
    have hs := h0 s (List.mem_cons_self ..)
    simp only [fileText, List.flatMap_nil, List.nil_append, List.flatMap_cons, List.append_assoc] at h
    rw [CSection.text_tail] at h
    have h1 := congrArg gapOf h
    rw [gapOf_text hs.1.1 (CSection.tail_stop hs.1 _), gapOf_end hF'] at h1
    injection h1 with _ h1
    exact CSection.tail_ne (List.append_eq_nil_iff.1 h1).1
  | s :: L, t :: L', h0, h', h => by
    have hs := h0 s (List.mem_cons_self ..)
    have ht := h' t (List.mem_cons_self ..)
    simp only [fileText, List.flatMap_cons, List.append_assoc] at h
    refine file_cut B F F' hF hF' L L' (fun x hx => h0 x (List.mem_cons_of_mem _ hx)) (fun x hx => h' x (List.mem_cons_of_mem _ hx)) ?_
    simpa [fileText] using section_cancel hs.1 ht.1 hs.2 ht.2 h

/-- The sections of a tree and the gap after them. -/
def CFile.secList : CFile → List CSection
  | .empty _ => []
  | .config s ss _ => s :: ss

theorem CFile.text_secs (k : CFile) : k.text = fileText (CFile.secList k) (CFile.foot k) := by
  cases k <;> simp [CFile.text, fileText, CFile.secList, CFile.foot]

theorem CFile.secs_ok {k : CFile} (h : k.Ok) (hc : k.Clear) : ∀ s ∈ CFile.secList k, s.Ok ∧ itemsClear s.items := by
  cases k with
  | empty => exact fun _ h => (nomatch h)
  | config s ss f =>
    intro x hx
    rcases List.mem_cons.1 hx with rfl | hx
    · exact ⟨h.1, hc.1⟩
    · exact ⟨h.2.1 x hx, hc.2 x hx⟩

theorem CFile.of_secs {M : List CSection} {G : Gap} (h : ∀ s ∈ M, CSection.Ok s ∧ itemsClear s.items) (hG : G.OkEnd) :
    ∃ k : CFile, k.Ok ∧ k.Clear ∧ k.text = fileText M G := by
  cases M with
  | nil => exact ⟨.empty G, hG, trivial, rfl⟩
  | cons s M =>
    have h1 := h s (List.mem_cons_self ..)
    have h2 := fun x hx => h x (List.mem_cons_of_mem _ hx)
    exact ⟨.config s M G, ⟨h1.1, fun x hx => (h2 x hx).1, hG⟩, ⟨h1.2, fun x hx => (h2 x hx).2⟩, by simp [CFile.text, fileText]⟩

end Verif
