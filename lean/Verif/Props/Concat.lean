import Verif.Proofs.Concat
import Verif.Props.Construct
/-
C77: configuration files can be put one after the other.
-/
namespace Verif.Props
open Verif Verif.Spec

theorem utf8_both {o : Opts} {f g A B : Bytes} {ff gg : List FF} (hA : (parse o f A ff).1.errs = []) (hB : (parse o g B gg).1.errs = []) :
    o.allowInvalid = true ∨ (ValidUTF8 A ∧ ValidUTF8 B) := by
  cases ho : o.allowInvalid with
  | true => exact .inl rfl
  | false => exact .inr ⟨C03_valid o f A ff ho hA, C03_valid o g B gg ho hB⟩

theorem last_of_append {x y : Bytes} (h : y ≠ []) : (x ++ y).getLast? = y.getLast? := by
  rw [List.getLast?_append]
  cases h' : y.getLast? with
  | none => exact absurd (List.getLast?_eq_none_iff.1 h') h
  | some c => rfl

/-- A file that ends in a newline does not end in the middle of a comment. -/
theorem foot_newline {k : CFile} (hk : k.Ok) (hn : k.text.getLast? = some 10) : (CFile.foot k).Ok := by
  rcases CFile.foot_ok hk with h | ⟨ls, l, h1, h2, h3, h4⟩
  · exact h
  · exfalso
    have h5 : ∃ x y, k.text = x ++ y ∧ y ≠ [] ∧ y.getLast? ≠ some 10 := by
      have h6 : ∃ x, k.text = x ++ (CFile.foot k).text := by
        cases k with
        | empty g => exact ⟨[], rfl⟩
        | config s ss f => exact ⟨_, rfl⟩
      obtain ⟨x, h6⟩ := h6
      rw [h1] at h6
      refine ⟨x ++ (ls.flatMap CommentLine.text ++ l.ws), 35 :: l.body ++ (if l.cr then [13] else []), ?_, by simp, ?_⟩
      · rw [h6]; simp [Gap.text, CommentLine.text, h4]
      · have hb := h3.2
        split
        · rw [last_of_append (by simp)]; decide
        · rw [List.append_nil]
          cases hl : l.body with
          | nil => decide
          | cons c r =>
            rw [show (35 :: c :: r : Bytes) = [35] ++ (c :: r) from rfl, last_of_append (by simp)]
            intro h7
            have := List.all_eq_true.1 hb 10 (hl ▸ List.mem_of_getLast? h7)
            revert this; decide
    obtain ⟨x, y, h6, h7, h8⟩ := h5
    rw [h6, last_of_append h7] at hn
    exact h8 hn

theorem concat_tree (o : Opts) (f f' f'' A B : Bytes) (ff ff' ff'' : List FF) (a b : Config) (hm : o.maxExpr = none) {k l : CFile}
    (hA : (parse o f A ff).1 = .done (.config a) []) (hB : (parse o f' B ff').1 = .done (.config b) [])
    (sep : Bytes) (hsep : ValidUTF8 sep)
    (hk : k.Ok) (hkc : k.Clear) (hkt : k.text = A ++ sep) (hf : (CFile.foot k).Ok)
    (hl : l.Ok) (hlc : l.Clear) (hlt : l.text = B) :
    ∃ c, (parse o f'' (A ++ sep ++ B) ff'').1 = .done (.config c) [] ∧ content c = (CFile.join k l).ast o.ignoreComments := by
  have ht : (CFile.join k l).text = A ++ sep ++ B := by rw [CFile.join_text, hkt, hlt]
  have hv : o.allowInvalid = true ∨ ValidUTF8 (CFile.join k l).text := by
    rw [ht]
    refine (utf8_both (o := o) (by rw [hA]; rfl) (by rw [hB]; rfl)).imp_right ?_
    exact fun h => validUTF8_append (validUTF8_append h.1 hsep) h.2
  rw [← ht]
  exact C15_accepts o f'' ff'' _ hm hv (CFile.join_ok hk hf hl) (CFile.join_clear hkc hlc)

theorem tree_of (o : Opts) {f A : Bytes} {ff : List FF} {a : Config} (hA : (parse o f A ff).1 = .done (.config a) []) :
    ∃ k : CFile, k.Ok ∧ k.Clear ∧ k.text = A ∧ content a = k.ast o.ignoreComments := by
  obtain ⟨k, a', k1, k2, k3, k4, k5⟩ := C02_tree o f A ff (by rw [hA]; rfl)
  rw [hA] at k4
  injection k4 with k4
  injection k4 with k4
  subst k4
  exact ⟨k, k1, k2, k3, k5⟩

/-- **C77** A file that ends in a newline, and after it another file: `Parse` accepts the two in a row if it accepts each of them,
and the sections it returns are those of the first file and, after them, those of the second. No comment is lost: if each file
has a section, the comments around the sections are those of the two files. -/
theorem C77_newline (o : Opts) (f f' f'' A B : Bytes) (ff ff' ff'' : List FF) (a b : Config) (hm : o.maxExpr = none)
    (hA : (parse o f A ff).1 = .done (.config a) []) (hB : (parse o f' B ff').1 = .done (.config b) [])
    (hn : A.getLast? = some 10) :
    ∃ c, (parse o f'' (A ++ B) ff'').1 = .done (.config c) [] ∧ SectionsOf c a b ∧
      (allSections a ≠ [] → allSections b ≠ [] → CommentsOf c a b) := by
  obtain ⟨k, k1, k2, k3, k4⟩ := tree_of o hA
  obtain ⟨l, l1, l2, l3, l4⟩ := tree_of o hB
  have hf := foot_newline k1 (k3 ▸ hn)
  obtain ⟨c, c1, c2⟩ := concat_tree o f f' f'' A B ff ff' ff'' a b hm hA hB [] validUTF8_nil k1 k2 (by rw [k3, List.append_nil]) hf l1 l2 l3
  rw [List.append_nil] at c1
  refine ⟨c, c1, sectionsOf_tree k4 l4 c2 (join_bare ..), fun ha hb => ?_⟩
  obtain ⟨s, ss, g, rfl⟩ := no_sections k4 ha
  obtain ⟨t, ts, h, rfl⟩ := no_sections l4 hb
  refine (outer_tree (CFile.join_ok k1 hf l1) c2).trans ?_
  rw [join_texts]
  exact (outer_tree k1 k4).symm.append (outer_tree l1 l4).symm

/-- **C77** Conversely, if `Parse` accepts the two in a row and the first, then it accepts the second. So an error in a file
is an error in that file, whatever correct files stand before it. -/
theorem C77_split (o : Opts) (f f' f'' A B : Bytes) (ff ff' ff'' : List FF) (hm : o.maxExpr = none)
    (hA : (parse o f A ff).1.errs = []) (hn : A.getLast? = some 10) :
    (parse o f'' (A ++ B) ff'').1.errs = [] ↔ (parse o f' B ff').1.errs = [] := by
  constructor
  · intro h
    obtain ⟨k, -, k1, k2, k3, -⟩ := C02_tree o f A ff hA
    obtain ⟨m, -, m1, m2, m3, -⟩ := C02_tree o f'' _ ff'' h
    have hf := foot_newline k1 (k3 ▸ hn)
    obtain ⟨M, G, h1, h2, h3⟩ := file_cut B _ _ hf (CFile.foot_ok m1) _ _ (CFile.secs_ok k1 k2) (CFile.secs_ok m1 m2)
      (by rw [← CFile.text_secs, ← CFile.text_secs, k3, m3])
    obtain ⟨l, l1, l2, l3⟩ := CFile.of_secs h1 h2
    rw [h3] at l3
    subst l3
    have hv := (utf8_both hA h).imp_right fun h => validUTF8_rest h.1 h.2
    obtain ⟨b, hb, -⟩ := C15_accepts o f' ff' l hm hv l1 l2
    rw [hb]; rfl
  · intro h
    obtain ⟨a, ha⟩ := C13_nil_error o f A ff hA
    obtain ⟨b, hb⟩ := C13_nil_error o f' B ff' h
    obtain ⟨c, hc, -⟩ := C77_newline o f f' f'' A B ff ff' ff'' a b hm ha hb hn
    rw [hc]; rfl

/-- **C77** Any two files, with a newline between them. -/
theorem C77_concat (o : Opts) (f f' f'' A B : Bytes) (ff ff' ff'' : List FF) (a b : Config) (hm : o.maxExpr = none)
    (hA : (parse o f A ff).1 = .done (.config a) []) (hB : (parse o f' B ff').1 = .done (.config b) []) :
    ∃ c, (parse o f'' (A ++ [10] ++ B) ff'').1 = .done (.config c) [] ∧ SectionsOf c a b ∧
      (allSections a ≠ [] → allSections b ≠ [] → CommentsOf c a b) := by
  obtain ⟨k, k1, k2, k3, k4⟩ := tree_of o hA
  obtain ⟨l, l1, l2, l3, l4⟩ := tree_of o hB
  obtain ⟨g1, g2, g3⟩ := Gap.close_ok (CFile.foot_ok k1)
  have hk := CFile.withFoot_ok k1 (g := Gap.close (CFile.foot k)) (.inl g1)
  have hf : (CFile.foot (CFile.withFoot k (Gap.close (CFile.foot k)))).Ok := by rw [CFile.foot_withFoot]; exact g1
  obtain ⟨c, c1, c2⟩ := concat_tree o f f' f'' A B ff ff' ff'' a b hm hA hB [10] (validUTF8_ascii (by decide)) hk
    (CFile.withFoot_clear k2) (by rw [CFile.withFoot_text g2, k3]) hf l1 l2 l3
  refine ⟨c, c1, sectionsOf_tree k4 l4 c2 (by rw [join_bare, foot_bare]), fun ha hb => ?_⟩
  refine (outer_tree (CFile.join_ok hk hf l1) c2).trans ?_
  have h1 := foot_texts o.ignoreComments k _ g3
  refine List.Perm.trans ?_ ((outer_tree k1 k4).symm.append (outer_tree l1 l4).symm)
  rw [← h1]
  obtain ⟨s, ss, g, rfl⟩ := no_sections k4 ha
  obtain ⟨t, ts, h, rfl⟩ := no_sections l4 hb
  rw [CFile.withFoot, join_texts]

/-- **C77** Any number of files, each followed by a newline: the sections of all of them, in order. -/
theorem C77_files (o : Opts) (hm : o.maxExpr = none) (l : List (Bytes × Config))
    (h : ∀ x ∈ l, ∃ f ff, (parse o f x.1 ff).1 = .done (.config x.2) []) (f : Bytes) (ff : List FF) :
    ∃ c, (parse o f (l.flatMap fun x => x.1 ++ [10]) ff).1 = .done (.config c) [] ∧
      c.input.map bare = l.flatMap (fun x => x.2.input.map bare) ∧
      c.filter.map bare = l.flatMap (fun x => x.2.filter.map bare) ∧
      c.output.map bare = l.flatMap (fun x => x.2.output.map bare) := by
  induction l generalizing f ff with
  | nil =>
    obtain ⟨c, h1, h2⟩ := C15_accepts o f ff (.empty .empty) hm (.inr validUTF8_nil) (.inl ⟨by simp [Gap.empty], rfl⟩) trivial
    refine ⟨c, h1, ?_⟩
    have i1 := congrArg Config.input h2
    have i2 := congrArg Config.filter h2
    have i3 := congrArg Config.output h2
    simp [content, AMap.config, CFile.ast, CFile.sections] at i1 i2 i3
    simp [i1, i2, i3]
  | cons x l ih =>
    obtain ⟨b, h1, h2, h3, h4⟩ := ih (fun y hy => h y (List.mem_cons_of_mem _ hy)) [] []
    obtain ⟨g, gg, h5⟩ := h x (List.mem_cons_self ..)
    obtain ⟨c, c1, ⟨c2, c3, c4⟩, -⟩ := C77_concat o g [] f x.1 _ gg [] ff x.2 b hm h5 h1
    refine ⟨c, c1, ?_, ?_, ?_⟩
    · rw [c2, h2]; rfl
    · rw [c3, h3]; rfl
    · rw [c4, h4]; rfl

/-- **C77** The same for any correct file before it, with a newline between them. -/
theorem C77_separate (o : Opts) (f f' f'' A B : Bytes) (ff ff' ff'' : List FF) (hm : o.maxExpr = none)
    (hA : (parse o f A ff).1.errs = []) :
    (parse o f'' (A ++ [10] ++ B) ff'').1.errs = [] ↔ (parse o f' B ff').1.errs = [] := by
  obtain ⟨a, ha⟩ := C13_nil_error o f A ff hA
  obtain ⟨e, he, -⟩ := C77_files o hm [] (fun _ h => (nomatch h)) [] []
  obtain ⟨c, hc, -⟩ := C77_concat o f [] [] A [] ff [] [] a e hm ha he
  rw [List.append_nil] at hc
  exact C77_split o [] f' f'' (A ++ [10]) B [] ff' ff'' hm (by rw [hc]; rfl) (by simp)

theorem flatMap_filter {α β : Type} (f : α → List β) (p : α → Bool) (hp : ∀ x, p x = false → f x = []) (l : List α) :
    l.flatMap f = (l.filter p).flatMap f := by
  induction l with
  | nil => rfl
  | cons x r ih =>
    rw [List.flatMap_cons, List.filter_cons]
    cases h : p x with
    | true => simp [ih]
    | false => simp [ih, hp x h]

/-- **C77** In which order files are put together matters only for files that have sections of the same type: two lists of
files in which those with inputs stand in the same order, and those with filters, and those with outputs, give the same
sections. -/
theorem C77_order (o : Opts) (hm : o.maxExpr = none) (l l' : List (Bytes × Config))
    (h : ∀ x ∈ l, ∃ f ff, (parse o f x.1 ff).1 = .done (.config x.2) [])
    (h' : ∀ x ∈ l', ∃ f ff, (parse o f x.1 ff).1 = .done (.config x.2) [])
    (hi : (l.filter fun x => !x.2.input.isEmpty) = l'.filter fun x => !x.2.input.isEmpty)
    (hf : (l.filter fun x => !x.2.filter.isEmpty) = l'.filter fun x => !x.2.filter.isEmpty)
    (ho : (l.filter fun x => !x.2.output.isEmpty) = l'.filter fun x => !x.2.output.isEmpty)
    (f f' : Bytes) (ff ff' : List FF) :
    ∃ c c', (parse o f (l.flatMap fun x => x.1 ++ [10]) ff).1 = .done (.config c) [] ∧
      (parse o f' (l'.flatMap fun x => x.1 ++ [10]) ff').1 = .done (.config c') [] ∧
      c.input.map bare = c'.input.map bare ∧ c.filter.map bare = c'.filter.map bare ∧
      c.output.map bare = c'.output.map bare := by
  obtain ⟨c, c1, c2, c3, c4⟩ := C77_files o hm l h f ff
  obtain ⟨d, d1, d2, d3, d4⟩ := C77_files o hm l' h' f' ff'
  refine ⟨c, d, c1, d1, ?_, ?_, ?_⟩
  · rw [c2, d2, flatMap_filter _ (fun x => !x.2.input.isEmpty) (by simp +contextual), hi,
      ← flatMap_filter _ _ (by simp +contextual)]
  · rw [c3, d3, flatMap_filter _ (fun x => !x.2.filter.isEmpty) (by simp +contextual), hf,
      ← flatMap_filter _ _ (by simp +contextual)]
  · rw [c4, d4, flatMap_filter _ (fun x => !x.2.output.isEmpty) (by simp +contextual), ho,
      ← flatMap_filter _ _ (by simp +contextual)]

/-! ### Examples -/

/-- Two files with comments, the first of which ends in a comment. -/
example : let A := b!"# one\ninput {\n  stdin {} # two\n}\n# three"
    let B := b!"# four\nfilter { if [x] { mutate {} } }\n"
    (∃ a b, (parse {} [] A []).1 = .done (.config a) [] ∧ (parse {} [] B []).1 = .done (.config b) [] ∧
      allSections a ≠ [] ∧ allSections b ≠ [] ∧ outerTexts a = [b!"one", b!"three"] ∧ outerTexts b = [b!"four"]) ∧
    (A ++ b!"\n").getLast? = some 10 := by
  refine ⟨?_, by decide⟩
  have h1 : ∃ a, (parse {} [] b!"# one\ninput {\n  stdin {} # two\n}\n# three" []).1 = .done (.config a) [] :=
    C13_nil_error _ _ _ _ (by decide +kernel)
  have h2 : ∃ a, (parse {} [] b!"# four\nfilter { if [x] { mutate {} } }\n" []).1 = .done (.config a) [] :=
    C13_nil_error _ _ _ _ (by decide +kernel)
  obtain ⟨a, h1⟩ := h1
  obtain ⟨b, h2⟩ := h2
  refine ⟨a, b, h1, h2, ?_⟩
  have key : ∀ {t : Bytes} {c : Config} {l : List Bytes} {n : Nat}, (parse {} [] t []).1 = .done (.config c) [] →
      (match (parse {} [] t []).1 with
        | .done (.config c) _ => decide ((allSections c).length = n ∧ outerTexts c = l)
        | _ => false) = true → (allSections c).length = n ∧ outerTexts c = l := by
    intro t c l n h h'
    rw [h] at h'
    exact of_decide_eq_true h'
  have k1 := key (n := 1) (l := [b!"one", b!"three"]) h1 (by decide +kernel)
  have k2 := key (n := 1) (l := [b!"four"]) h2 (by decide +kernel)
  refine ⟨fun h => ?_, fun h => ?_, k1.2, k2.2⟩
  · rw [h] at k1; exact absurd k1.1 (by decide)
  · rw [h] at k2; exact absurd k2.1 (by decide)

/-- **C77** needs the newline: a comment at the end of the first file swallows the first line of the second, and with it a
section; both files and the two in a row are accepted. -/
theorem C77_violated : let A := b!"input {}\n# a"
    let B := b!"filter {}\noutput {}\n"
    let shape := fun t : Bytes => match (parse {} [] t []).1 with
      | .done (.config c) [] => some (c.input.length, c.filter.length, c.output.length)
      | _ => none
    shape A = some (1, 0, 0) ∧ shape B = some (0, 1, 1) ∧ shape (A ++ B) = some (1, 0, 1) := by
  decide +kernel

/-- A file of inputs and a file of outputs may be swapped. -/
example : ∃ a b : Config, (parse {} [] b!"input { stdin {} }" []).1 = .done (.config a) [] ∧
    (parse {} [] b!"output { stdout {} }" []).1 = .done (.config b) [] ∧
    let l := [(b!"input { stdin {} }", a), (b!"output { stdout {} }", b)]
    let l' := [(b!"output { stdout {} }", b), (b!"input { stdin {} }", a)]
    l ≠ l' ∧ (l.filter fun x => !x.2.input.isEmpty) = (l'.filter fun x => !x.2.input.isEmpty) ∧
    (l.filter fun x => !x.2.filter.isEmpty) = (l'.filter fun x => !x.2.filter.isEmpty) ∧
    (l.filter fun x => !x.2.output.isEmpty) = (l'.filter fun x => !x.2.output.isEmpty) := by
  obtain ⟨a, h1⟩ := C13_nil_error {} [] b!"input { stdin {} }" [] (by decide +kernel)
  obtain ⟨b, h2⟩ := C13_nil_error {} [] b!"output { stdout {} }" [] (by decide +kernel)
  have key : ∀ {t : Bytes} {c : Config} {x y z : Bool}, (parse {} [] t []).1 = .done (.config c) [] →
      (match (parse {} [] t []).1 with
        | .done (.config c) _ => decide (c.input.isEmpty = x ∧ c.filter.isEmpty = y ∧ c.output.isEmpty = z)
        | _ => false) = true → c.input.isEmpty = x ∧ c.filter.isEmpty = y ∧ c.output.isEmpty = z := by
    intro t c x y z h h'
    rw [h] at h'
    exact of_decide_eq_true h'
  obtain ⟨a1, a2, a3⟩ := key (x := false) (y := true) (z := true) h1 (by decide +kernel)
  obtain ⟨b1, b2, b3⟩ := key (x := true) (y := true) (z := false) h2 (by decide +kernel)
  refine ⟨a, b, h1, h2, ?_, ?_, ?_, ?_⟩
  · intro h
    injection h with h _
    injection h with h _
    exact absurd h (by decide)
  · simp [a1, b1]
  · simp [a2, b2]
  · simp [a3, b3]

end Verif.Props
