import Verif.Props.Construct
import Verif.Props.Traverse
import Verif.Proofs.Edited
import Verif.Proofs.FixIDs
/-
C76: a configuration that is read, edited with `ApplyPlugins` and written is read back as edited.
-/
namespace Verif.Props
open Verif Verif.Spec Verif.Spec.Built

/-- What edits keep of a configuration. -/
def Ready (c : Config) : Prop := Printable c ∧ ConfigTx c ∧ NoElseNames c

theorem pass_section {s t : Section} (h : Pass s t) (h1 : BlockOk true s.bops) (h2 : BlockTx s.bops)
    (h3 : ∀ b ∈ visitList s.bops, ∀ p, b = .plugin p ∨ b = .pluginPtr p → ¬ ElseName p.name) :
    BlockOk true t.bops ∧ BlockTx t.bops ∧ (∀ b ∈ visitList t.bops, ∀ p, b = .plugin p ∨ b = .pluginPtr p → ¬ ElseName p.name) ∧
      t.ptype = s.ptype ∧ t.comment = s.comment ∧ t.footer = s.footer := by
  obtain ⟨σ, f, x, y, fuel, r, hf, hfuel, hr, rfl⟩ := h
  rw [C31_result f (fun s c s' ops hh => (hf s c s' ops hh).1) s.bops x fuel hfuel] at hr
  split at hr
  next s' r' h4 =>
    simp only [ApplyRes.done.injEq] at hr
    obtain ⟨-, rfl⟩ := hr
    have := nice_block (list_nice hf s.bops [] x s' _ (by simp) (block_nice h1 h2 h3) h4)
    exact ⟨this.1, this.2.1, this.2.2.1, rfl, rfl, rfl⟩
  · cases hr

theorem pass_sections {pt : PluginType} {l r : List Section} {s t : Section} (h : Pass s t)
    (h1 : SectionsOk true pt (l ++ s :: r)) (h2 : ∀ x ∈ l ++ s :: r, SectTx x)
    (h3 : ∀ x ∈ l ++ s :: r, ∀ b ∈ visitList x.bops, ∀ p, b = .plugin p ∨ b = .pluginPtr p → ¬ ElseName p.name) :
    SectionsOk true pt (l ++ t :: r) ∧ (∀ x ∈ l ++ t :: r, SectTx x) ∧
      ∀ x ∈ l ++ t :: r, ∀ b ∈ visitList x.bops, ∀ p, b = .plugin p ∨ b = .pluginPtr p → ¬ ElseName p.name := by
  have hs : s ∈ l ++ s :: r := by simp
  obtain ⟨k1, k2, k3, k4, k5, k6⟩ := pass_section h (h1 s hs).2.1 (h2 s hs).1 (h3 s hs)
  have key : ∀ {P : Section → Prop}, (∀ x ∈ l ++ s :: r, P x) → P t → ∀ x ∈ l ++ t :: r, P x := by
    intro P hp ht x hx
    simp only [List.mem_append, List.mem_cons] at hx hp
    rcases hx with hx | rfl | hx
    · exact hp x (.inl hx)
    · exact ht
    · exact hp x (.inr (.inr hx))
  refine ⟨key h1 ?_, key h2 ?_, key h3 k3⟩
  · rw [k4, k5, k6]; exact ⟨(h1 s hs).1, k1, (h1 s hs).2.2⟩
  · unfold SectTx; rw [k5, k6]; exact ⟨k2, (h2 s hs).2⟩

theorem edits_ready {c d : Config} (h : Edits c d) (hc : Ready c) : Ready d := by
  induction h with
  | done => exact hc
  | @input d l r s t _ he hp ih =>
    obtain ⟨⟨i1, i2, i3, i4⟩, ⟨j1, j2, j3, j4⟩, k⟩ := ih
    rw [he] at i1 j1
    have := pass_sections hp i1 j1 fun x hx => k x (by rw [he]; simp only [List.mem_append] at hx ⊢; grind)
    refine ⟨⟨this.1, i2, i3, i4⟩, ⟨this.2.1, j2, j3, j4⟩, fun x hx => ?_⟩
    simp only [List.append_assoc, List.mem_append] at hx
    by_cases hx' : x ∈ l ++ t :: r
    · exact this.2.2 x hx'
    · exact k x (by simp only [List.mem_append] at hx' ⊢; grind)
  | @filter d l r s t _ he hp ih =>
    obtain ⟨⟨i1, i2, i3, i4⟩, ⟨j1, j2, j3, j4⟩, k⟩ := ih
    rw [he] at i2 j2
    have := pass_sections hp i2 j2 fun x hx => k x (by rw [he]; simp only [List.mem_append] at hx ⊢; grind)
    refine ⟨⟨i1, this.1, i3, i4⟩, ⟨j1, this.2.1, j3, j4⟩, fun x hx => ?_⟩
    simp only [List.append_assoc, List.mem_append] at hx
    by_cases hx' : x ∈ l ++ t :: r
    · exact this.2.2 x hx'
    · exact k x (by simp only [List.mem_append] at hx' ⊢; grind)
  | @output d l r s t _ he hp ih =>
    obtain ⟨⟨i1, i2, i3, i4⟩, ⟨j1, j2, j3, j4⟩, k⟩ := ih
    rw [he] at i3 j3
    have := pass_sections hp i3 j3 fun x hx => k x (by rw [he]; simp only [List.mem_append] at hx ⊢; grind)
    refine ⟨⟨i1, i2, this.1, i4⟩, ⟨j1, j2, this.2.1, j4⟩, fun x hx => ?_⟩
    simp only [List.append_assoc, List.mem_append] at hx
    by_cases hx' : x ∈ l ++ t :: r
    · exact this.2.2 x hx'
    · exact k x (by simp only [List.mem_append] at hx' ⊢; grind)

theorem parsed_tx {o : Opts} {f data : Bytes} {ff : List FF} {c : Config} (ho : o.allowInvalid = false)
    (h : (parse o f data ff).1 = .done (.config c) []) : ConfigTx c := by
  have hv := C03_valid o f data ff ho (by rw [h]; rfl)
  obtain ⟨k, c', h1, h2, h3, h4⟩ := C02_sentence o f data ff (by rw [h]; rfl)
  rw [h] at h3
  injection h3 with h3
  injection h3 with h3
  subst h3
  rw [← h2] at hv
  have ht := file_tx o.ignoreComments h1 hv
  rw [← h4] at ht
  exact (configTx_content c).1 ht

/-- **C76** A printable configuration, read from a file and edited with any number of calls of `ApplyPlugins` whose callbacks
delete plugins and put fitting plugins in, is printable, and its text is valid UTF-8. -/
theorem C76_printable (o : Opts) (f data : Bytes) (ff : List FF) (c d : Config) (ho : o.allowInvalid = false)
    (h : (parse o f data ff).1 = .done (.config c) []) (hc : Printable c) (hn : NoElseNames c) (he : Edits c d) :
    Printable d ∧ ValidUTF8 d.str := by
  obtain ⟨h1, h2, -⟩ := edits_ready he ⟨hc, parsed_tx ho h, hn⟩
  exact ⟨h1, config_valid h1 h2⟩

/-- **C76** The text of the edited configuration is accepted by `Parse`, and the result is the edited configuration, up to
positions and the marks for blank lines around comments (`settle`; C20 says when it keeps all comments). -/
theorem C76_edited (o o' : Opts) (f f' data : Bytes) (ff ff' : List FF) (c d : Config) (ho : o.allowInvalid = false)
    (h : (parse o f data ff).1 = .done (.config c) []) (hc : Printable c) (hn : NoElseNames c) (he : Edits c d)
    (hm : o'.maxExpr = none) (hi : o'.ignoreComments = false) :
    ∃ d', (parse o' f' d.str ff').1 = .done (.config d') [] ∧ content d' = settle d ∧ skeleton d' = skeleton (deref d) := by
  obtain ⟨h1, h2⟩ := C76_printable o f data ff c d ho h hc hn he
  obtain ⟨d', h3, h4⟩ := C16_roundtrip o' f' ff' d hm hi (.inr h2) h1
  refine ⟨d', h3, h4, ?_⟩
  obtain ⟨d'', h5, h6⟩ := C16_configuration o' f' ff' d hm (.inr h2) h1
  rw [h3] at h5
  injection h5 with h5
  injection h5 with h5
  subst h5
  exact h6

/-! ### An example -/

mutual
theorem visitOne_map (m : AMap) : ∀ b, visitOne (m.bop b) = (visitOne b).map m.bop
  | .nil => rfl
  | .plugin p => rfl
  | .pluginPtr p => rfl
  | .branch st c b cm ft ei (.mk est eb ecm eft) => by
    simp [AMap.bop, AMap.elseB, visitOne, visitList_map m b, visitList_map m eb, visitElifs_map m ei]
theorem visitList_map (m : AMap) : ∀ l, visitList (m.bops l) = (visitList l).map m.bop
  | [] => rfl
  | b :: l => by simp [AMap.bops, visitList, visitOne_map m b, visitList_map m l]
theorem visitElifs_map (m : AMap) : ∀ l, visitElifs (m.elifs l) = (visitElifs l).map m.bop
  | [] => rfl
  | .mk st c b cm ft :: l => by simp [AMap.elifs, AMap.elif, visitElifs, visitList_map m b, visitElifs_map m l]
end

theorem noElseNames_content {c : Config} (h : NoElseNames (content c)) : NoElseNames c := by
  intro s hs b hb p hp hn
  have h1 : AMap.noPos.sect s ∈ (content c).input ++ (content c).filter ++ (content c).output := by
    simp only [content, AMap.config, List.mem_append, List.mem_map] at hs ⊢
    rcases hs with (hs | hs) | hs
    · exact .inl (.inl ⟨s, hs, rfl⟩)
    · exact .inl (.inr ⟨s, hs, rfl⟩)
    · exact .inr ⟨s, hs, rfl⟩
  have h2 : AMap.noPos.bop b ∈ visitList (AMap.noPos.sect s).bops := by
    rw [AMap.sect, visitList_map]; exact List.mem_map_of_mem hb
  refine h _ h1 _ h2 (AMap.noPos.plugin p) (hp.imp ?_ ?_) ?_
  · rintro rfl; rfl
  · rintro rfl; rfl
  · cases p; exact hn

private theorem name_of {n : Bytes} (h : n ≠ [] ∧ n.all isNameChar = true := by decide) : Name n := ⟨h.1, by simpa using h.2⟩

private theorem pname_of {n : Bytes} (h : (n ≠ [] ∧ n.all isNameChar = true) ∧ ifNumber n = false ∧ n ≠ b!"else" ∧
    (n.take 4 = b!"else" → ifNumber (n.drop 4) = false) := by decide) : PluginName n := by
  refine ⟨⟨h.1.1, by simpa using h.1.2⟩, h.2.1, h.2.2.1, ?_⟩
  rintro r rfl
  exact h.2.2.2 rfl

theorem plain_item {n : Bytes} (h : PluginName n) : Item (plainPlugin n) := .plugin (.mk h.1 fun _ h => (nomatch h)) h

theorem plain_fit {n : Bytes} (h : PluginName n) : Fit (.mk Pos.zero n [] [] []) := by
  have g := Bld.item_ok (plain_item h)
  exact nice_plugin.1 ⟨g.ok, g.tx, by
    intro x hx p hp
    obtain rfl := List.mem_singleton.1 hx
    rcases hp with hp | hp <;> cases hp
    exact (Bld.pname_ok h).2⟩

/-- The callback of the example of C31 replaces `a`, deletes `b` and inserts two plugins around `c`. -/
theorem demo_fit : FitCallback demo := by
  intro s c s' ops h
  refine ⟨demo_disciplined s c s' ops h, fun _ o ho b hb => ?_⟩
  simp only [demo] at h
  have key : ∀ n, PluginName n → ∃ p, plainPlugin n = .plugin p ∧ Fit p := fun n hn => ⟨_, rfl, plain_fit hn⟩
  split at h
  · split at h
    · simp at h; subst h
      obtain rfl := List.mem_singleton.1 ho
      rcases hb with hb | hb | hb <;> cases hb
      exact key _ pname_of
    · split at h
      · simp at h; subst h
        obtain rfl := List.mem_singleton.1 ho
        rcases hb with hb | hb | hb <;> cases hb
      · split at h
        · simp at h; subst h
          simp only [List.mem_cons, List.not_mem_nil, or_false] at ho
          rcases ho with rfl | rfl <;> rcases hb with hb | hb | hb <;> cases hb <;> exact key _ pname_of
        · simp at h; subst h; cases ho
  · simp at h; subst h; cases ho

/-- The configuration of the example. -/
def editSample : Config := New.config [] (New.pluginSections .filter [plainPlugin b!"a", plainPlugin b!"b",
  New.branch (New.ifBlock (New.condition [New.rvalueExpression (op .noOp) (.sel (New.selectorFromNames [b!"x"]))])
    [plainPlugin b!"c", plainPlugin b!"b"]) (New.elseBlock [plainPlugin b!"a"]) []]) []

theorem editSample_isConfig : IsConfig editSample := by
  refine ⟨_, _, _, rfl, fun _ h => (nomatch h), ?_, fun _ h => (nomatch h)⟩
  simp only [Sections, New.pluginSections, List.mem_singleton, forall_eq]
  refine ⟨_, rfl, ?_⟩
  simp only [List.mem_cons, List.not_mem_nil, or_false, forall_eq_or_imp, forall_eq]
  refine ⟨plain_item pname_of, plain_item pname_of, .branch (.mk (.rval (.sel ?_)) fun _ h => (nomatch h)) ?_ ?_ fun _ h => (nomatch h)⟩
  · refine ⟨by decide, ?_⟩
    simp only [List.mem_singleton, forall_eq]
    exact ⟨by decide, ⟨validUTF8_ascii (by decide), balanced_of_plain (by decide)⟩, by decide⟩
  · simp only [List.mem_cons, List.not_mem_nil, or_false, forall_eq_or_imp, forall_eq]
    exact ⟨plain_item pname_of, plain_item pname_of⟩
  · simp only [List.mem_singleton, forall_eq]
    exact plain_item pname_of

/-- The hypotheses are met: a configuration read from its text, and edited with the callback `demo`. -/
example : ∃ c d, (parse {} [] editSample.str []).1 = .done (.config c) [] ∧ Printable c ∧ NoElseNames c ∧ Edits c d ∧
    content c = editSample := by
  obtain ⟨c, h1, h2, -⟩ := C74_roundtrip {} [] [] editSample rfl editSample_isConfig
  have hp : Printable c := (configOk_content _ _).1 (by rw [h2]; exact (Bld.config_ok editSample_isConfig).1)
  have hn : NoElseNames c := by
    apply noElseNames_content
    rw [h2]
    intro s hs
    simp only [editSample, New.config, New.pluginSections, List.append_nil, List.nil_append, List.mem_singleton] at hs
    subst hs
    simp only [New.pluginSection, plainPlugin, New.branch, New.ifBlock, New.elseBlock, visitList, visitOne, visitElifs,
      List.append_nil, List.cons_append, List.nil_append, List.mem_cons, List.not_mem_nil, or_false, forall_eq_or_imp, forall_eq]
    have key : ∀ n, PluginName n → ∀ p, BOP.plugin (.mk Pos.zero n [] [] []) = .plugin p ∨ BOP.plugin (.mk Pos.zero n [] [] []) = .pluginPtr p →
        ¬ ElseName p.name := by
      intro n hn p hp
      rcases hp with hp | hp <;> cases hp
      exact (Bld.pname_ok hn).2
    exact ⟨key _ pname_of, key _ pname_of, key _ pname_of, key _ pname_of, key _ pname_of⟩
  have hf : ∃ s, c.filter = [] ++ s :: [] := by
    have h3 : c.filter.map AMap.noPos.sect = editSample.filter := by rw [← h2]; rfl
    cases hc : c.filter with
    | nil => rw [hc] at h3; cases h3
    | cons s l =>
      cases l with
      | nil => exact ⟨s, rfl⟩
      | cons t l => rw [hc] at h3; simp [editSample, New.config, New.pluginSections] at h3
  obtain ⟨s, hs⟩ := hf
  have hptr : ∀ p, BOP.pluginPtr p ∉ visitList s.bops := by
    intro p hpp
    have h3 : AMap.noPos.sect s = New.pluginSection .filter (editSample.filter.flatMap (·.bops)) := by
      have h3 : c.filter.map AMap.noPos.sect = editSample.filter := by rw [← h2]; rfl
      rw [hs] at h3
      simp only [List.nil_append, List.map_cons, List.map_nil] at h3
      have h4 := List.head_eq_of_cons_eq h3
      rw [h4]; rfl
    have h4 : AMap.noPos.bop (.pluginPtr p) ∈ visitList (AMap.noPos.sect s).bops := by
      rw [AMap.sect, visitList_map]; exact List.mem_map_of_mem hpp
    rw [h3] at h4
    simp [New.pluginSection, editSample, New.config, New.pluginSections, plainPlugin, New.branch, New.ifBlock, New.elseBlock, visitList,
      visitOne, visitElifs, AMap.bop] at h4
  obtain ⟨y, r, hr⟩ := (C30_terminates demo demo_disciplined s.bops () _ (Nat.le_refl _)).2 (by
    intro s c
    simp only [demo]
    split
    · split
      · rfl
      · split
        · rfl
        · split <;> rfl
    · rfl) hptr
  exact ⟨c, _, h1, hp, hn, .filter .done hs ⟨Unit, demo, (), y, _, r, demo_fit, Nat.le_refl _, hr, rfl⟩, h2⟩

/-- The text before and after the edit. -/
example : editSample.str = b!"filter {\n  a {}\n\n  b {}\n\n  if [x] {\n    c {}\n\n    b {}\n  } else {\n    a {}\n  }\n}\n" ∧
    ∃ r, applyPlugins demo 100 () (editSample.filter.flatMap (·.bops)) = .done () r ∧
      (New.config [] (New.pluginSections .filter r) []).str =
        b!"filter {\n  A {}\n\n  if [x] {\n    before {}\n\n    c {}\n\n    after {}\n  } else {\n    A {}\n  }\n}\n" :=
  ⟨by decide +kernel, _, rfl, by decide +kernel⟩

/-! ### A plugin named else -/

/-- Deletes the plugin `b`. -/
def deleteB : Callback Unit := fun _ c =>
  match c.plugin with
  | some (.mk _ n _ _ _) => if n = b!"b" then some ((), [.delete]) else some ((), [])
  | none => some ((), [])

theorem deleteB_fit : FitCallback deleteB := by
  intro s c s' ops h
  simp only [deleteB] at h
  split at h
  · split at h <;> (simp at h; subst h)
    · refine ⟨⟨[], [], by simp, by simp, .inr rfl⟩, fun _ o ho b hb => ?_⟩
      obtain rfl := List.mem_singleton.1 ho
      rcases hb with hb | hb | hb <;> cases hb
    · exact ⟨⟨[], [], by simp, by simp, .inl rfl⟩, fun _ o ho => nomatch ho⟩
  · simp at h; subst h
    exact ⟨⟨[], [], by simp, by simp, .inl rfl⟩, fun _ o ho => nomatch ho⟩

/-- The blocks of a section: `if [x] { c {} }`, `b {}`, and a plugin with the name `else`. -/
def elseBlockSample : List BOP := [New.branch (New.ifBlock (New.condition [New.rvalueExpression (op .noOp)
  (.sel (New.selectorFromNames [b!"x"]))]) [plainPlugin b!"c"]) (New.elseBlock []) [], plainPlugin b!"b", plainPlugin b!"else"]

/-- The text that is read back for a section of filters. -/
def reread (l : List BOP) : Option Bytes :=
  match (parse {} [] (New.config [] (New.pluginSections .filter l) []).str []).1 with
  | .done (.config c) [] => some c.str
  | _ => none

/-- **C76** fails without the condition on names: the file with `if [x] { c {} }`, `b {}` and a plugin with the name `else` is
read back as written; when `b` is deleted, the plugin is taken for an (empty) else block of the branch, and it is lost. -/
theorem C76_violated_else : ∃ r, applyPlugins deleteB 100 () elseBlockSample = .done () r ∧
    reread elseBlockSample = some (New.config [] (New.pluginSections .filter elseBlockSample) []).str ∧
    r = elseBlockSample.take 1 ++ elseBlockSample.drop 2 ∧ reread r = some (New.config [] (New.pluginSections .filter (r.take 1)) []).str :=
  ⟨_, rfl, by decide +kernel, rfl, by decide +kernel⟩

end Verif.Props
