import Verif.Proofs.PrintCstBlock
/-
The printed text of a configuration is the text of a concrete syntax tree, which denotes the settled
configuration.
-/
namespace Verif
open Spec

/-! ### Sections -/

theorem section_render {bs : List BOP} {f : CommentBlock} (h : BlockOk true bs) (hf : CommentsOk f) :
    prefixS (bopElems true bs) false ++ prefixS (commentsStr f) false ++ b!"}" = render (blockP 0 false b!"}" (itemsP true 1 bs) f) := by
  have hb := itemsBody bs 0 h
  have ht := blockText bs h
  have hbe := itemsP_empty 0 h
  have hbe1 := itemsP_empty 1 h
  have hcoms : Tr true true (comsP 0 f) (comsP 1 f) := Tr.coms fun c h => (hf c h).1
  have hfoot : prefixS (commentsStr f) false = (if f.isEmpty then [] else 10 :: render (comsP 1 f)) := by
    cases hfe : f with
    | nil => rfl
    | cons c cs =>
      obtain ⟨qs, t, hl⟩ := comsP_last (d := 0) (cs := f) (by simp [hfe]) (fun c h => (hf c h).2)
      have := prefix_tr_nl hcoms hl (fun h => nomatch h) 0 false
      rw [← hfe, commentsStr_render]
      simp only [List.replicate_zero, List.append_nil] at this
      rw [this, hfe]; rfl
  rw [hfoot]
  unfold blockP
  rcases hb with ⟨h1, h2⟩ | ⟨h1, h2, h3⟩
  · have hbs : bs = [] := by
      rw [h1] at hbe; simpa using hbe.symm
    subst hbs
    rw [bopElems, h2]
    cases f <;> simp [prefixS, render_append, render_cons, Piece.text, render_empty, ind]
  · have e1 : (itemsP true 0 bs).isEmpty = false := by simp [h1]
    have e2 : (itemsP true 1 bs).isEmpty = false := by simp [h2]
    have hs : bopElems true bs = render (itemsP true 0 bs) ++ List.replicate 1 10 := by
      rw [e1] at ht
      simp only [Bool.false_eq_true, if_false] at ht
      split at ht
      · next hc =>
        have h0 : bopElems true bs = [] := by simpa using hc
        rw [h0] at ht
        have := congrArg List.length ht
        simp at this
      · rw [show ([10, 10] : Bytes) = [10] ++ [10] from rfl, ← List.append_assoc] at ht
        exact List.append_cancel_right ht
    rw [hs, prefix_tr h3 1 false]
    cases f <;> simp [e2, render_append, render_cons, Piece.text, render_empty, ind]

/-- The syntax tree of a section after the white space `pre`, with the comments `c0`. -/
def secC (pre : Bytes) (c0 : CommentBlock) (s : Section) : CSection :=
  ⟨mkGap pre 0 c0 [], s.ptype, Gap.blank, itemsC [10] 1 s.bops, footGap 0 false s.bops.isEmpty s.footer⟩

theorem markLast_markFirst (b : Bool) (cs : CommentBlock) : markLast (markFirst b cs) = markFirst b (markLast cs) := by
  match cs with
  | [] => rfl
  | [c] => rfl
  | c :: d :: cs => rfl

theorem mkGap_tail (pre : Bytes) (d : Nat) (c : Comment) (cs : CommentBlock) (tail : Bytes) :
    (mkGap pre d (c :: cs) tail).tail = (mkGap (if c.spaceAfter then [10] else []) d cs tail).tail := rfl

theorem mkGap_last {pre : Bytes} {cs : CommentBlock} (hne : cs ≠ []) (h : SectionCommentsOk cs) :
    (if (!(mkGap pre 0 cs []).tail.isEmpty) then markLast (cs.map noAfter) else cs.map noAfter) = cs := by
  induction cs generalizing pre with
  | nil => exact absurd rfl hne
  | cons c cs ih =>
    rw [mkGap_tail]
    cases cs with
    | nil =>
      obtain ⟨t, b, a⟩ := c
      cases a <;> simp [mkGap, noAfter, markLast]
    | cons c' cs' =>
      have hc : c.spaceAfter = false := h.2 c (by simp)
      have := ih (pre := if c.spaceAfter then [10] else []) (by simp)
        ⟨fun x hx => h.1 x (List.mem_cons_of_mem _ hx), fun x hx => h.2 x (by simp at hx ⊢; right; exact hx)⟩
      have hc' : noAfter c = c := by cases c; simp only at hc; subst hc; rfl
      rw [List.map_cons, hc']
      rw [List.map_cons] at this ⊢
      have hml : markLast (c :: noAfter c' :: cs'.map noAfter) = c :: markLast (noAfter c' :: cs'.map noAfter) := rfl
      rw [hml]
      conv_rhs => rw [← this]
      generalize (!(mkGap (if c.spaceAfter = true then [10] else []) 0 (c' :: cs') []).tail.isEmpty) = b
      cases b <;> rfl

theorem mkGap_section {pre : Bytes} {cs : CommentBlock} (first : Bool) (hp : pre.all (· == 10) = true) (h : SectionCommentsOk cs) :
    (mkGap pre 0 cs []).block false false first = markFirst false (if first then cs else cs.map noAfter) := by
  unfold Gap.block
  rw [mkGap_comments hp h]
  cases first with
  | false => rfl
  | true =>
    by_cases hne : cs = []
    · subst hne; simp [markFirst, markLast]
    · have := mkGap_last (pre := pre) hne h
      simp only [Bool.false_eq_true, if_false, Bool.true_and, if_true]
      conv_rhs => rw [← this]
      split
      · rw [markLast_markFirst]
      · rfl

theorem ptypeStr_text {t : PluginType} (h : t ≠ .undefined) : t.str = ptypeText t := by cases t <;> first | rfl | exact absurd rfl h

/-- The printed text of a section, from the comments to the closing bracket. -/
def secStr (c0 : CommentBlock) (s : Section) : Bytes :=
  commentsStr c0 ++ s.ptype.str ++ b!" {" ++ prefixS s.str false ++ prefixS (commentsStr s.footer) false ++ b!"}"

theorem secC_ok {pre : Bytes} {c0 : CommentBlock} {s : Section} (hp : pre.all (· == 10) = true) (h0 : SectionCommentsOk c0)
    (ht : s.ptype ≠ .undefined) (hb : BlockOk true s.bops) (hf : CommentsOk s.footer) :
    (secC pre c0 s).text = pre ++ secStr c0 s ∧ (secC pre c0 s).Ok ∧ itemsClear (secC pre c0 s).items ∧
      ∀ first, (secC pre c0 s).ast false first = settleSection first c0 s := by
  have hw : pre.all isWs = true := by
    rw [List.all_eq_true] at *; intro c hc; have := hp c hc; simp at this; rw [this]; rfl
  obtain ⟨-, b2, b3, b4, b5⟩ := itemsC_ok s.bops 1 hb
  obtain ⟨f1, f2⟩ := foot_ok (n := 0) (e := false) (empty := s.bops.isEmpty) hf
  refine ⟨?_, ⟨mkGap_ok hw rfl fun c hc => h0.1 c hc, ht, blank_ok, b3 _ rfl, f1⟩, b5 _ rfl, fun first => ?_⟩
  · have hs := section_render hb hf
    unfold CSection.text secStr Section.str
    simp only [secC, mkGap_text, ptypeStr_text ht, b2]
    rw [block_text (itemsP_empty _ hb)] at hs
    rw [commentsStr_render c0]
    simp only [List.append_assoc] at hs ⊢
    rw [hs]
    simp [blank_text]
  · unfold CSection.ast settleSection
    simp only [secC, b4, f2, mkGap_section first hp h0]
    rfl

/-! ### The sections of one type -/

/-- The syntax trees of the sections of one type. -/
def secsC (pre : Bytes) : List Section → List CSection
  | [] => []
  | s :: ss => secC pre s.comment s :: ss.map (secC [10, 10] s.comment)

/-- The sections a list of syntax trees denotes; the flag marks the first section of the file. -/
def sectsA (first : Bool) : List CSection → List Section
  | [] => []
  | s :: ss => s.ast false first :: ss.map (CSection.ast false false)

theorem sectsA_append (first : Bool) (A B : List CSection) : sectsA first (A ++ B) = sectsA first A ++ sectsA (first && A.isEmpty) B := by
  cases A with
  | nil => simp [sectsA]
  | cons a A =>
    cases B with
    | nil => simp [sectsA]
    | cons b B => simp [sectsA]

theorem loop_text {pt : PluginType} {c0 : CommentBlock} (h0 : SectionCommentsOk c0) (hpt : pt ≠ .undefined) (l : List Section)
    (h : ∀ s ∈ l, s.ptype = pt ∧ BlockOk true s.bops ∧ CommentsOk s.footer) (hne : l ≠ []) :
    [10, 10] ++ sectionsLoop pt.str c0 l = (l.map (secC [10, 10] c0)).flatMap CSection.text ++ [10] := by
  induction l with
  | nil => exact absurd rfl hne
  | cons s l ih =>
    obtain ⟨h1, h2, h3⟩ := h s (List.mem_cons_self ..)
    have hs := (secC_ok (pre := [10, 10]) rfl h0 (by rw [h1]; exact hpt) h2 h3).1
    rw [sectionsLoop, List.map_cons, List.flatMap_cons, hs, secStr, h1]
    cases l with
    | nil => simp [sectionsLoop]
    | cons s' l' =>
      have := ih (fun x hx => h x (List.mem_cons_of_mem _ hx)) (by simp)
      rw [List.append_assoc (([10, 10] : Bytes) ++ _), ← this]
      simp

theorem secs_ok {pre : Bytes} {pt : PluginType} (hpt : pt ≠ .undefined) (hp : pre.all (· == 10) = true) {l : List Section} (h : SectionsOk true pt l) :
    (l ≠ [] → (secsC pre l).flatMap CSection.text ++ [10] = pre ++ sectionsStr pt.str l) ∧
    (∀ t ∈ secsC pre l, t.Ok ∧ itemsClear t.items ∧ t.ptype = pt) ∧
    (∀ first, sectsA first (secsC pre l) = settleSections first l) := by
  cases l with
  | nil => exact ⟨fun h => absurd rfl h, by simp [secsC], fun _ => rfl⟩
  | cons s ss =>
    obtain ⟨h1, h2, h3, h4⟩ := h s (List.mem_cons_self ..)
    have hs := secC_ok (pre := pre) hp h3 (by rw [h1]; exact hpt) h2 h4
    have hss : ∀ x ∈ ss, _ := fun x hx => secC_ok (pre := [10, 10]) (c0 := s.comment) (s := x) rfl h3 (by rw [(h x (List.mem_cons_of_mem _ hx)).1]; exact hpt)
      (h x (List.mem_cons_of_mem _ hx)).2.1 (h x (List.mem_cons_of_mem _ hx)).2.2.2
    refine ⟨fun _ => ?_, fun t ht => ?_, fun first => ?_⟩
    · rw [secsC, List.flatMap_cons, hs.1, sectionsStr, sectionsLoop, secStr, h1]
      by_cases hne : ss = []
      · subst hne; simp [sectionsLoop]
      · have := loop_text h3 hpt ss (fun x hx => ⟨(h x (List.mem_cons_of_mem _ hx)).1, (h x (List.mem_cons_of_mem _ hx)).2.1,
          (h x (List.mem_cons_of_mem _ hx)).2.2.2⟩) hne
        rw [List.append_assoc (pre ++ _), ← this]
        have : ss.isEmpty = false := by simp [hne]
        simp [this]
    · rw [secsC] at ht
      rcases List.mem_cons.1 ht with rfl | ht
      · exact ⟨hs.2.1, hs.2.2.1, h1⟩
      · obtain ⟨x, hx, rfl⟩ := List.mem_map.1 ht
        exact ⟨(hss x hx).2.1, (hss x hx).2.2.1, (h x (List.mem_cons_of_mem _ hx)).1⟩
    · rw [secsC, sectsA, settleSections, hs.2.2.2 first, List.map_map]
      congr 1
      exact List.map_congr_left fun x hx => (hss x hx).2.2.2 false

/-! ### Files -/

/-- A newline between the sections of different types. -/
def preOf (first : Bool) : Bytes := if first then [] else [10]

/-- The syntax trees of all sections. -/
def allC (c : Config) : List CSection :=
  secsC [] c.input ++ secsC (preOf c.input.isEmpty) c.filter ++ secsC (preOf (c.input.isEmpty && c.filter.isEmpty)) c.output

/-- The syntax tree of a printed configuration. -/
def fileC (c : Config) : CFile :=
  match allC c with
  | [] => .empty (mkGap [] 0 c.footer [])
  | s :: ss => .config s ss (mkGap [10] 0 c.footer [])

theorem preOf_nl (b : Bool) : (preOf b).all (· == 10) = true := by cases b <;> rfl

theorem secsC_empty (pre : Bytes) (l : List Section) : (secsC pre l).isEmpty = l.isEmpty := by cases l <;> rfl

theorem allC_empty (c : Config) : (allC c).isEmpty = (c.input.isEmpty && c.filter.isEmpty && c.output.isEmpty) := by
  unfold allC
  cases c.input <;> cases c.filter <;> cases c.output <;> rfl

/-- The bytes of sections, and a newline if there are any. -/
def linesC (L : List CSection) : Bytes := L.flatMap CSection.text ++ (if L.isEmpty then [] else [10])

theorem linesC_append {pt : PluginType} (hpt : pt ≠ .undefined) (L : List CSection) {l : List Section} (h : SectionsOk true pt l) :
    linesC (L ++ secsC (preOf L.isEmpty) l) = linesC L ++ sectionsStr pt.str l := by
  have h1 := (secs_ok (pre := preOf L.isEmpty) hpt (preOf_nl _) h).1
  cases l with
  | nil => simp [secsC, sectionsStr]
  | cons s ss =>
    have := h1 (by simp)
    unfold linesC
    rw [List.flatMap_append]
    have he : (L ++ secsC (preOf L.isEmpty) (s :: ss)).isEmpty = false := by cases L <;> rfl
    rw [he]
    simp only [Bool.false_eq_true, if_false, List.append_assoc]
    rw [this]
    cases L <;> simp [preOf]

theorem allC_text {c : Config} (h : Printable c) : linesC (allC c) ++ commentsStr c.footer = c.str := by
  obtain ⟨h1, h2, h3, h4⟩ := h
  have a1 := linesC_append (by decide) [] h1
  have a2 := linesC_append (by decide) (secsC [] c.input) h2
  have a3 := linesC_append (by decide) (secsC [] c.input ++ secsC (preOf c.input.isEmpty) c.filter) h3
  have e : (secsC [] c.input ++ secsC (preOf c.input.isEmpty) c.filter).isEmpty = (c.input.isEmpty && c.filter.isEmpty) := by
    cases c.input <;> cases c.filter <;> rfl
  rw [e] at a3
  rw [secsC_empty] at a2
  unfold allC Config.str
  rw [a3, a2, ← List.nil_append (secsC [] c.input), show secsC ([] : Bytes) c.input = secsC (preOf ([] : List CSection).isEmpty) c.input from rfl, a1]
  rfl

theorem sectsA_filter {first : Bool} {L : List CSection} {pt : PluginType} (t : PluginType) (h : ∀ s ∈ L, s.ptype = pt) :
    (sectsA first L).filter (·.ptype = t) = if pt = t then sectsA first L else [] := by
  have hp : ∀ s ∈ sectsA first L, s.ptype = pt := by
    intro s hs
    cases L with
    | nil => simp [sectsA] at hs
    | cons x xs =>
      rcases List.mem_cons.1 hs with rfl | hs
      · exact h x (List.mem_cons_self ..)
      · obtain ⟨y, hy, rfl⟩ := List.mem_map.1 hs
        exact h y (List.mem_cons_of_mem _ hy)
  split
  · next e => rw [List.filter_eq_self]; intro s hs; simp [hp s hs, e]
  · next e => rw [List.filter_eq_nil_iff]; intro s hs; simp [hp s hs, e]

/-- The printed text of a printable configuration is the text of a well-formed syntax tree without
ambiguous plugins, which denotes the settled configuration. -/
theorem fileC_ok {c : Config} (h : Printable c) :
    (fileC c).text = c.str ∧ (fileC c).Ok ∧ (fileC c).Clear ∧ (fileC c).ast false = settle c := by
  have htext := allC_text h
  have hempty := allC_empty c
  obtain ⟨h1, h2, h3, h4⟩ := h
  have a1 := secs_ok (pre := []) (by decide) rfl h1
  have a2 := secs_ok (pre := preOf c.input.isEmpty) (by decide) (preOf_nl _) h2
  have a3 := secs_ok (pre := preOf (c.input.isEmpty && c.filter.isEmpty)) (by decide) (preOf_nl _) h3
  have hall : ∀ t ∈ allC c, t.Ok ∧ itemsClear t.items := by
    intro t ht
    unfold allC at ht
    rcases List.mem_append.1 ht with ht | ht
    · rcases List.mem_append.1 ht with ht | ht
      · exact ⟨(a1.2.1 t ht).1, (a1.2.1 t ht).2.1⟩
      · exact ⟨(a2.2.1 t ht).1, (a2.2.1 t ht).2.1⟩
    · exact ⟨(a3.2.1 t ht).1, (a3.2.1 t ht).2.1⟩
  have hsect : sectsA true (allC c) = settleSections true c.input ++ settleSections c.input.isEmpty c.filter ++
      settleSections (c.input.isEmpty && c.filter.isEmpty) c.output := by
    unfold allC
    rw [sectsA_append, sectsA_append, a1.2.2, a2.2.2, a3.2.2, secsC_empty]
    congr 2
    cases c.input <;> cases c.filter <;> rfl
  have hfil : ∀ t, (sectsA true (allC c)).filter (·.ptype = t) =
      (if PluginType.input = t then settleSections true c.input else []) ++ (if PluginType.filter = t then settleSections c.input.isEmpty c.filter else []) ++
      (if PluginType.output = t then settleSections (c.input.isEmpty && c.filter.isEmpty) c.output else []) := by
    intro t
    rw [hsect, List.filter_append, List.filter_append, ← a1.2.2, ← a2.2.2, ← a3.2.2,
      sectsA_filter t fun s hs => (a1.2.1 s hs).2.2, sectsA_filter t fun s hs => (a2.2.1 s hs).2.2, sectsA_filter t fun s hs => (a3.2.1 s hs).2.2]
  have hc4 : ∀ c' ∈ c.footer, CommentText c'.text := fun c' hc => (h4 c' hc).1
  unfold fileC settle
  rw [← hempty]
  cases hA : allC c with
  | nil =>
    rw [hA] at htext hfil
    refine ⟨?_, ?_, trivial, ?_⟩
    · rw [← htext, CFile.text, mkGap_text, ← commentsStr_render]; simp [linesC]
    · have := mkGap_ok (pre := []) (d := 0) (tail := []) rfl rfl hc4
      exact .inl this
    · have hi := hfil .input
      have hf := hfil .filter
      have ho := hfil .output
      simp [sectsA] at hi hf ho
      simp [CFile.ast, CFile.sections, hi, hf, ho]
  | cons s ss =>
    rw [hA] at htext hfil hall
    refine ⟨?_, ⟨(hall s (List.mem_cons_self ..)).1, fun t ht => (hall t (List.mem_cons_of_mem _ ht)).1, ?_⟩,
      ⟨(hall s (List.mem_cons_self ..)).2, fun t ht => (hall t (List.mem_cons_of_mem _ ht)).2⟩, ?_⟩
    · rw [← htext, CFile.text, mkGap_text, ← commentsStr_render]; simp [linesC]
    · have := mkGap_ok (pre := [10]) (d := 0) (tail := []) rfl rfl hc4
      exact .inl this
    · have hi := hfil .input
      have hf := hfil .filter
      have ho := hfil .output
      simp only [reduceCtorEq, if_true, if_false, List.append_nil, List.nil_append] at hi hf ho
      unfold CFile.ast CFile.sections
      rw [← hi, ← hf, ← ho]
      simp only [mkGap_block true (show ([10] : Bytes).all (· == 10) = true from rfl) h4]
      rfl

end Verif
