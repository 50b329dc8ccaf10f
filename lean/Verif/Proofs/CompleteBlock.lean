import Verif.Proofs.NumTri
/-
Completeness of the grammar, continued: blocks, branches, sections, files.
-/
namespace Verif
open Spec

section
variable {o : Opts}

/-! ### Plugins are not branches -/

theorem name_cases {n : StrLit} (h : n.Name) : (n.text.all isNameChar = true ∧ n.text ≠ []) ∨
    (∃ t, n.text = 34 :: t) ∨ ∃ t, n.text = 39 :: t := by
  obtain ⟨sat, body⟩ := n
  rcases h with ⟨h, h1, h2⟩ | ⟨h, _⟩ | ⟨h, _⟩ <;> simp only at h <;> subst h
  · exact .inl ⟨by simpa [StrLit.text, StrLit.quote] using h2, by simpa [StrLit.text, StrLit.quote] using h1⟩
  · exact .inr (.inl ⟨_, rfl⟩)
  · exact .inr (.inr ⟨_, rfl⟩)

theorem name_prefix {n : StrLit} (h : n.Name) {g : Gap} (hg : g.Ok) {Y tok : Bytes} (ht : tok.all isNameChar = true) (hne : tok ≠ [])
    (hp : tok <+: n.text ++ (g.text ++ (b!"{" ++ Y))) : ∃ r, n.text = tok ++ r ∧ r.all isNameChar = true := by
  rcases name_cases h with ⟨h1, _⟩ | ⟨t, h1⟩ | ⟨t, h1⟩
  · obtain ⟨r, h2⟩ := prefix_all ht (gap_takeWhile gapChar_name hg (by simp; decide)) hp
    rw [← h2, List.all_append, Bool.and_eq_true] at h1
    exact ⟨r, h2.symm, h1.2⟩
  all_goals
    cases tok with
    | nil => exact absurd rfl hne
    | cons c t' =>
      rw [h1] at hp
      have : c = _ := (List.cons_prefix_cons.1 hp).1
      subst this
      simp at ht
      exact absurd ht.1 (by decide)

/-- Whatever follows the name in a plugin. -/
theorem plugin_text (p : CPlugin) (h : p.Ok) : ∃ (n : StrLit) (g : Gap) (Y : Bytes), n.Name ∧ g.Ok ∧ n.text = p.name ∧
    ∀ X, p.text ++ X = n.text ++ (g.text ++ (b!"{" ++ (Y ++ X))) := by
  obtain ⟨n, g, as, ft⟩ := p
  exact ⟨n, g, attrsText true as ++ (ft.text ++ b!"}"), h.1, h.2.1, rfl, fun X => by simp [CPlugin.text]⟩

theorem ifCond_fail_plugin {p : CPlugin} (h : p.Ok) (hc : ¬ IfLike p.name) (X : Bytes) : Fails o G.ifCond (p.text ++ X) := by
  obtain ⟨n, g, Y, hn, hg, he, ht⟩ := plugin_text p h
  rw [ht]
  refine actF ?_
  by_cases hp : b!"if" <+: n.text ++ (g.text ++ (b!"{" ++ (Y ++ X)))
  · obtain ⟨r, h1, h2⟩ := name_prefix hn hg (by decide) (by simp) hp
    rw [h1, List.append_assoc]
    refine seqA (tok_append (by decide) _ _) (afterIf_fail h2 ?_ hg _)
    rw [← he, h1] at hc
    exact hc
  · exact seqF ((tok_fail (by decide)).2 hp)

theorem plugin_stop {p : CPlugin} (h : p.Ok) (X : Bytes) : Stop (p.text ++ X) := by
  obtain ⟨n, g, Y, hn, hg, he, ht⟩ := plugin_text p h
  rw [ht]; exact name_stop hn _

/-- What follows a branch without an else block. -/
def BranchEnd (o : Opts) (X : Bytes) : Prop := Fails o elifEx X ∧ Fails o elseEx X

theorem branchEnd_of {g : Gap} (hg : g.Ok) {T : Bytes} (hs : Stop T) (h1 : Fails o G.elseIf T) (h2 : Fails o G.elseCond T) :
    BranchEnd o (g.text ++ T) :=
  ⟨actF (seqA (labA (gapA hg hs)) (seqF (labeled_fail.2 (refF h1)))), actF (seqA (labA (gapA hg hs)) (seqF (labeled_fail.2 (refF h2))))⟩

theorem branchEnd_head {g : Gap} (hg : g.Ok) {T : Bytes} (hs : Stop T) (h1 : T.head? ≠ some 101) : BranchEnd o (g.text ++ T) :=
  branchEnd_of hg hs (actF (seqF (tokF (by decide) h1))) (actF (seqF (tokF (by decide) h1)))

theorem branchEnd_plugin {g : Gap} (hg : g.Ok) {p : CPlugin} (h : p.Ok) (hc : p.name ≠ b!"else" ∧ ∀ t, IfLike t → p.name ≠ b!"else" ++ t)
    (X : Bytes) : BranchEnd o (g.text ++ (p.text ++ X)) := by
  have hs := plugin_stop h X
  obtain ⟨n, g', Y, hn, hg', he, ht⟩ := plugin_text p h
  by_cases hp : b!"else" <+: n.text ++ (g'.text ++ (b!"{" ++ (Y ++ X)))
  case neg =>
    refine branchEnd_of hg hs (actF (seqF ?_)) (actF (seqF ?_))
    · rw [ht]; exact (tok_fail (by decide)).2 hp
    · rw [ht]; exact (tok_fail (by decide)).2 hp
  obtain ⟨r, h1, h2⟩ := name_prefix hn hg' (by decide) (by simp) hp
  rw [ht] at hs ⊢
  rw [← he] at hc
  rw [h1] at hs hc ⊢
  rw [List.append_assoc] at hs ⊢
  cases r with
  | nil => exact absurd (List.append_nil _) hc.1
  | cons c r =>
    have hc' : isNameChar c = true := by
      rw [List.all_cons, Bool.and_eq_true] at h2; exact h2.1
    have hs2 : Stop (c :: r ++ (g'.text ++ (b!"{" ++ (Y ++ X)))) := stop_cons (nameChar_stop c hc')
    refine branchEnd_of hg hs (actF (seqA (tok_append (by decide) _ _) ?_)) (actF (seqA (tok_append (by decide) _ _) ?_))
    · refine gapSW (g := Gap.empty) gap_empty_ok hs2 ?_
      by_cases hp2 : b!"if" <+: c :: r ++ (g'.text ++ (b!"{" ++ (Y ++ X)))
      · obtain ⟨r', h3⟩ := prefix_all (p := isNameChar) (by decide) (gap_takeWhile gapChar_name hg' (by simp; decide)) hp2
        show SeqP _ _ _ ((c :: r) ++ (g'.text ++ (b!"{" ++ (Y ++ X)))) _
        rw [← h3] at h2 hc ⊢
        rw [List.all_append, Bool.and_eq_true] at h2
        rw [List.append_assoc]
        refine seqA (tok_append (by decide) _ _) (afterIf_fail h2.2 ?_ hg' _)
        exact fun hl => hc.2 _ hl rfl
      · exact seqF ((tok_fail (by decide)).2 hp2)
    · exact gapSW (g := Gap.empty) gap_empty_ok hs2 (seqF (tokF (by decide) (by simpa using nameChar_brace c hc')))

theorem branch_fail {g : Gap} (hg : g.Ok) {T : Bytes} (hs : Stop T) (h : Fails o G.ifCond T) : Fails o G.branch (g.text ++ T) :=
  actF (seqA (labA (gapA hg hs)) (seqF (labeled_fail.2 (refF h))))

theorem bop_fail {g : Gap} (hg : g.Ok) (X : Bytes) : Fails o G.branchOrPlugin (g.text ++ (b!"}" ++ X)) := by
  unfold Fails; rw [G.branchOrPlugin, run_choice]
  refine choice2 (refF (branch_fail hg (stop_cons (by decide)) (actF (seqF (tokF (by decide) (by simp)))))) (choice2 (refF (actF ?_)) (by rw [choiceR]))
  exact seqA (labA (gapA hg (stop_cons (by decide)))) (seqF (labeled_fail.2 name_fail_close))

theorem item_fail {g : Gap} (hg : g.Ok) (X : Bytes) : Fails o itemEx (g.text ++ (b!"}" ++ X)) :=
  actF (seqA (labA (gapA hg (stop_cons (by decide)))) (seqF (labeled_fail.2 (refF (bop_fail gap_empty_ok X)))))

theorem secItem_fail {g : Gap} (hg : g.Ok) (X : Bytes) : Fails o secItemEx (g.text ++ (b!"}" ++ X)) :=
  action_fail.2 (labeled_fail.2 (refF (bop_fail hg X)))

/-! ### Blocks -/

theorem items_end {is : List CItem} (hok : itemsOk is) (hc : notElse is) {g : Gap} (hg : g.Ok) (X : Bytes) :
    BranchEnd o (itemsText is ++ (g.text ++ (b!"}" ++ X))) := by
  cases is with
  | nil => exact branchEnd_head hg (stop_cons (by decide)) (by simp)
  | cons i is =>
    cases i with
    | plugin com p =>
      simp only [itemsText, CItem.text, List.append_assoc]
      exact branchEnd_plugin hok.1.1 hok.1.2 hc _
    | branch com g1 c g2 items foot elifs els =>
      simp only [itemsText, CItem.text, List.append_assoc]
      exact branchEnd_head hok.1.1 (stop_cons (by decide)) (by simp)

theorem setCom_ok {i : CItem} (h : i.Ok) {g : Gap} (hg : g.Ok) : (i.setCom g).Ok := by
  cases i with
  | plugin com p => exact ⟨hg, h.2⟩
  | branch => exact ⟨hg, h.2⟩

theorem setCom_com (i : CItem) : i.setCom i.com = i := by cases i <;> rfl

theorem item_text (i : CItem) (X : Bytes) : i.text ++ X = i.com.text ++ ((i.setCom .empty).text ++ X) := by
  cases i <;> simp [CItem.text, CItem.com, CItem.setCom, Gap.text, Gap.empty]

theorem item_stop {i : CItem} (h : i.Ok) (X : Bytes) : Stop ((i.setCom .empty).text ++ X) := by
  cases i with
  | plugin com p => exact plugin_stop h.2 X
  | branch => simp only [CItem.setCom, CItem.text, List.append_assoc]; exact stop_cons (by decide)

/-- Completeness for one block element, with any gap in front of it. -/
def BopComplete (o : Opts) (i : CItem) (X : Bytes) : Prop :=
  ∀ g : Gap, g.Ok → Runs o G.branchOrPlugin ((i.setCom g).text ++ X) (bopVal ((i.setCom g).ast o.ignoreComments)) X

theorem item_ok_com {i : CItem} (h : i.Ok) : i.com.Ok := by cases i <;> exact h.1

theorem item_complete {i : CItem} (h : i.Ok) {X : Bytes} (hb : BopComplete o i X) :
    Runs o itemEx (i.text ++ X) (bopVal (i.ast o.ignoreComments)) X := by
  rw [item_text]
  refine actA _ (seqA (labA (gapA (item_ok_com h) (item_stop h X))) (seqA (labA (refA (hb .empty gap_empty_ok))) seqEnd)) ?_
  simp only [runAct, Frame.get, if_true, reduceCtorEq, if_false, gap_block (item_ok_com h)]
  cases i with
  | plugin com p =>
    obtain ⟨nm, g, as, ft⟩ := p
    rfl
  | branch =>
    simp [CItem.setCom, CItem.ast, bopVal, CItem.com]

theorem secItem_complete {i : CItem} (h : i.Ok) {X : Bytes} (hb : BopComplete o i X) :
    Runs o secItemEx (i.text ++ X) (bopVal (i.ast o.ignoreComments)) X := by
  have := hb i.com (item_ok_com h)
  rw [setCom_com] at this
  refine ⟨_, action_ok.2 ⟨_, labA (refA this), ?_⟩⟩
  simp only [runAct, Frame.get, if_true]

theorem blockA {is : List CItem} {X : Bytes} (h : Steps o itemEx (itemsText is ++ X) ((itemsAst o.ignoreComments is).map bopVal) X)
    (hf : Fails o itemEx X) (fr : Frame) : run o G.block (itemsText is ++ X) fr =
      .ok (.list ((itemsAst o.ignoreComments is).map bopVal)) X ((.bops, .list ((itemsAst o.ignoreComments is).map bopVal)) :: fr) :=
  labA ⟨[], star_of_steps _ h hf⟩

theorem if_complete {g1 g2 : Gap} {c : CCond} {is : List CItem} {ft : Gap} {X : Bytes} (h1 : g1.Ok) (hc : c.Ok) (h2 : g2.Ok) (hf : ft.Ok)
    (h : Steps o itemEx (itemsText is ++ (ft.text ++ (b!"}" ++ X))) ((itemsAst o.ignoreComments is).map bopVal) (ft.text ++ (b!"}" ++ X))) :
    Runs o G.ifCond (b!"if" ++ (g1.text ++ (c.text ++ (g2.text ++ (b!"{" ++ (itemsText is ++ (ft.text ++ (b!"}" ++ X))))))))
      (.ifBlock Pos.zero (c.ast o.ignoreComments) (itemsAst o.ignoreComments is) [] (ft.block o.ignoreComments false false)) X := by
  refine actA _ (seqA (tok_append (by decide) _ _) (gapSW h1 (cond_stop hc _)
    (seqA (labA (refA (condition_complete o c hc _ (condFollow_brace h2 _)))) (gapTok h2 (by decide) (by decide)
    (seqA (blockA h (item_fail hf X) _) (gapClose hf (by decide) (by simp) (by decide))))))) ?_
  simp only [runAct, Frame.get, if_true, reduceCtorEq, if_false, gap_block hf, branchOrPlugins_bop]

theorem elseIf_complete {g0 g1 g2 : Gap} {c : CCond} {is : List CItem} {ft : Gap} {X : Bytes} (h0 : g0.Ok) (h1 : g1.Ok) (hc : c.Ok)
    (h2 : g2.Ok) (hf : ft.Ok)
    (h : Steps o itemEx (itemsText is ++ (ft.text ++ (b!"}" ++ X))) ((itemsAst o.ignoreComments is).map bopVal) (ft.text ++ (b!"}" ++ X))) :
    Runs o G.elseIf (b!"else" ++ (g0.text ++ (b!"if" ++ (g1.text ++ (c.text ++ (g2.text ++ (b!"{" ++ (itemsText is ++ (ft.text ++ (b!"}" ++ X))))))))))
      (.elif (.mk Pos.zero (c.ast o.ignoreComments) (itemsAst o.ignoreComments is) [] (ft.block o.ignoreComments false false))) X := by
  refine actA _ (seqA (tok_append (by decide) _ _) (gapTok h0 (by decide) (by decide) (gapSW h1 (cond_stop hc _)
    (seqA (labA (refA (condition_complete o c hc _ (condFollow_brace h2 _)))) (gapTok h2 (by decide) (by decide)
    (seqA (blockA h (item_fail hf X) _) (gapClose hf (by decide) (by simp) (by decide)))))))) ?_
  simp only [runAct, Frame.get, if_true, reduceCtorEq, if_false, gap_block hf, branchOrPlugins_bop]

theorem else_complete {g : Gap} {is : List CItem} {ft : Gap} {X : Bytes} (hg : g.Ok) (hf : ft.Ok)
    (h : Steps o itemEx (itemsText is ++ (ft.text ++ (b!"}" ++ X))) ((itemsAst o.ignoreComments is).map bopVal) (ft.text ++ (b!"}" ++ X))) :
    Runs o G.elseCond (b!"else" ++ (g.text ++ (b!"{" ++ (itemsText is ++ (ft.text ++ (b!"}" ++ X))))))
      (.elseB (.mk Pos.zero (itemsAst o.ignoreComments is) [] (ft.block o.ignoreComments false false))) X := by
  refine actA _ (seqA (tok_append (by decide) _ _) (gapTok hg (by decide) (by decide)
    (seqA (blockA h (item_fail hf X) _) (gapClose hf (by decide) (by simp) (by decide))))) ?_
  simp only [runAct, Frame.get, if_true, reduceCtorEq, if_false, gap_block hf, branchOrPlugins_bop]

theorem elif_complete {com g0 g1 g2 : Gap} {c : CCond} {is : List CItem} {ft : Gap} {X : Bytes} (hok : elifsOk [.mk com g0 g1 c g2 is ft])
    (h : Steps o itemEx (itemsText is ++ (ft.text ++ (b!"}" ++ X))) ((itemsAst o.ignoreComments is).map bopVal) (ft.text ++ (b!"}" ++ X))) :
    Runs o elifEx (elifsText [.mk com g0 g1 c g2 is ft] ++ X)
      (.elif (.mk Pos.zero (c.ast o.ignoreComments) (itemsAst o.ignoreComments is) (com.block o.ignoreComments false false)
        (ft.block o.ignoreComments false false))) X := by
  obtain ⟨hm, h0, h1, hc, h2, _, hf, _⟩ := hok
  simp only [elifsText, List.append_assoc, List.nil_append]
  refine actA _ (seqA (labA (gapA hm (stop_cons (by decide)))) (seqA (labA (refA (elseIf_complete h0 h1 hc h2 hf h))) seqEnd)) ?_
  simp only [runAct, Frame.get, if_true, reduceCtorEq, if_false, gap_block hm]

/-- The value of the optional else block. -/
def optElse (ign : Bool) : CElse → Val
  | .none => .nil
  | e => .elseB (e.ast ign)

theorem elseA {com g : Gap} {is : List CItem} {ft : Gap} {X : Bytes} (hok : (CElse.mk com g is ft).Ok)
    (h : Steps o itemEx (itemsText is ++ (ft.text ++ (b!"}" ++ X))) ((itemsAst o.ignoreComments is).map bopVal) (ft.text ++ (b!"}" ++ X))) :
    Runs o (.opt elseEx) ((CElse.mk com g is ft).text ++ X) (optElse o.ignoreComments (.mk com g is ft)) X := by
  obtain ⟨hm, hg, _, hf⟩ := hok
  simp only [CElse.text, List.append_assoc]
  refine optA (actA _ (seqA (labA (gapA hm (stop_cons (by decide)))) (seqA (labA (refA (else_complete hg hf h))) seqEnd)) ?_)
  simp only [runAct, Frame.get, if_true, reduceCtorEq, if_false, gap_block hm, optElse, CElse.ast]

/-- An else block is not an else-if block. -/
theorem elif_fail {els : CElse} (hok : els.Ok) {X : Bytes} (hX : els = .none → BranchEnd o X) : Fails o elifEx (els.text ++ X) := by
  cases els with
  | none => exact (hX rfl).1
  | mk com g is ft =>
    obtain ⟨hm, hg, _, hf⟩ := hok
    simp only [CElse.text, List.append_assoc]
    exact actF (seqA (labA (gapA hm (stop_cons (by decide)))) (seqF (labeled_fail.2 (refF (actF (seqA (tok_append (by decide) _ _)
      (gapSW hg (stop_cons (by decide)) (seqF (tokF (by decide) (by simp))))))))))

theorem branch_complete {com g1 g2 : Gap} {c : CCond} {is : List CItem} {ft : Gap} {es : List CElif} {el : CElse} {X : Bytes}
    (hok : (CItem.branch com g1 c g2 is ft es el).Ok) (hX : el = .none → BranchEnd o X)
    (h : ∀ Y, Steps o itemEx (itemsText is ++ (ft.text ++ (b!"}" ++ Y))) ((itemsAst o.ignoreComments is).map bopVal) (ft.text ++ (b!"}" ++ Y)))
    (he : Steps o elifEx (elifsText es ++ (el.text ++ X)) ((elifsAst o.ignoreComments es).map Val.elif) (el.text ++ X))
    (hl : Runs o (.opt elseEx) (el.text ++ X) (optElse o.ignoreComments el) X) :
    BopComplete o (.branch com g1 c g2 is ft es el) X := by
  intro g hg
  obtain ⟨_, h1, hc, h2, _, hf, _, hel⟩ := hok
  simp only [CItem.setCom, CItem.text, List.append_assoc]
  refine choiceA fun _ => choice1 (refA (actA _ (seqA (labA (gapA hg (stop_cons (by decide)))) (seqA (labA (refA (if_complete h1 hc h2 hf (h _))))
    (seqA (labA ⟨[], star_of_steps _ he (elif_fail hel hX)⟩) (seqA (labA hl) seqEnd)))) ?_))
  simp only [runAct, Frame.get, if_true, reduceCtorEq, if_false, toIfaceSlice, collectElifs_elif, gap_block hg]
  cases el <;> simp [CItem.ast, bopVal, CElse.ast, ElseB.zero, optElse]

theorem pluginItem_complete {com : Gap} {p : CPlugin} (h : (CItem.plugin com p).Ok) (hc : (CItem.plugin com p).Clear) (X : Bytes) :
    BopComplete o (.plugin com p) X := by
  intro g hg
  simp only [CItem.setCom, CItem.text, List.append_assoc]
  exact choiceA fun _ => choice2 (refF (branch_fail hg (plugin_stop h.2 X) (ifCond_fail_plugin h.2 hc X))) (choice1 (refA (plugin_complete hg h.2 X)))

theorem none_open {com g1 g2 : Gap} {c : CCond} {is : List CItem} {ft : Gap} {es : List CElif} {el : CElse} (h : el = .none) :
    (CItem.branch com g1 c g2 is ft es el).isOpen = true := by subst h; rfl

mutual
/-- Completeness of the rule `branchOrPlugin`. -/
theorem bop_complete (o : Opts) : (i : CItem) → i.Ok → i.Clear → (X : Bytes) → (i.isOpen = true → BranchEnd o X) → BopComplete o i X
  | .plugin _ _, h, hc, X, _ => pluginItem_complete h hc X
  | .branch _ _ _ _ is ft es el, h, hc, X, hX => branch_complete h (fun he => hX (none_open he))
      (fun Y => items_complete o is h.2.2.2.2.1 hc.1 ft h.2.2.2.2.2.1 Y)
      (elifs_complete o es h.2.2.2.2.2.2.1 hc.2.1 _) (optElse_complete o el h.2.2.2.2.2.2.2 hc.2.2 X (fun he => hX (none_open he)))
/-- Blocks of branches. -/
theorem items_complete (o : Opts) : (is : List CItem) → itemsOk is → itemsClear is → (g : Gap) → g.Ok → (X : Bytes) →
    Steps o itemEx (itemsText is ++ (g.text ++ (b!"}" ++ X))) ((itemsAst o.ignoreComments is).map bopVal) (g.text ++ (b!"}" ++ X))
  | [], _, _, _, _, _ => .nil _
  | i :: r, h, hc, g, hg, X => by
    rw [itemsText, List.append_assoc, itemsAst, List.map_cons]
    exact .cons (item_complete h.1 (bop_complete o i h.1 hc.1 _ fun hi => items_end h.2 (hc.2.1 hi) hg X))
      (items_complete o r h.2 hc.2.2 g hg X)
/-- Else-if blocks. -/
theorem elifs_complete (o : Opts) : (es : List CElif) → elifsOk es → elifsClear es → (X : Bytes) →
    Steps o elifEx (elifsText es ++ X) ((elifsAst o.ignoreComments es).map Val.elif) X
  | [], _, _, _ => .nil _
  | .mk com g0 g1 c g2 is ft :: r, h, hc, X => by
    have h1 := (elifsOk_append _ _).1 h
    rw [elifsText_append, List.append_assoc]
    have := elif_complete (o := o) h1.1 (items_complete o is h.2.2.2.2.2.1 hc.1 ft h.2.2.2.2.2.2.1 (elifsText r ++ X))
    simp only [elifsAst, List.map_cons]
    exact .cons this (elifs_complete o r h.2.2.2.2.2.2.2 hc.2 X)
/-- Else blocks. -/
theorem optElse_complete (o : Opts) : (e : CElse) → e.Ok → e.Clear → (X : Bytes) → (e = .none → BranchEnd o X) →
    Runs o (.opt elseEx) (e.text ++ X) (optElse o.ignoreComments e) X
  | .none, _, _, _, hX => optN (hX rfl).2
  | .mk com g is ft, h, hc, X, _ => elseA h (items_complete o is h.2.2.1 hc ft h.2.2.2 X)
end

/-! ### Sections and files -/

theorem secItems_complete (is : List CItem) (h : itemsOk is) (hc : itemsClear is) {g : Gap} (hg : g.Ok) (X : Bytes) :
    Steps o secItemEx (itemsText is ++ (g.text ++ (b!"}" ++ X))) ((itemsAst o.ignoreComments is).map bopVal) (g.text ++ (b!"}" ++ X)) := by
  induction is with
  | nil => exact .nil _
  | cons i r ih =>
    rw [itemsText, List.append_assoc, itemsAst, List.map_cons]
    exact .cons (secItem_complete h.1 (bop_complete o i h.1 hc.1 _ fun hi => items_end h.2 (hc.2.1 hi) hg X))
      (ih h.2 hc.2.2)

theorem ptype_stop {t : PluginType} (h : t ≠ .undefined) (X : Bytes) : Stop (ptypeText t ++ X) := by
  cases t <;> simp_all [ptypeText] <;> exact stop_cons (by decide)

theorem section_complete {s : CSection} (h : s.Ok) (hc : itemsClear s.items) (X : Bytes) :
    Runs o G.pluginSection (ptypeText s.ptype ++ (s.g.text ++ (b!"{" ++ (itemsText s.items ++ (s.foot.text ++ (b!"}" ++ X))))))
      (.sect ⟨Pos.zero, s.ptype, itemsAst o.ignoreComments s.items, [], s.foot.block o.ignoreComments false false⟩) X := by
  obtain ⟨_, h1, h2, h3, h4⟩ := h
  refine actA _ (seqA (labA (runs_ptype.2 ⟨_, h1, rfl, rfl⟩)) (gapTok h2 (by decide) (by decide)
    (seqA (labA ⟨[], star_of_steps _ (secItems_complete s.items h3 hc h4 X) (secItem_fail h4 X)⟩)
      (gapClose h4 (by decide) (by simp) (by decide))))) ?_
  simp only [runAct, Frame.get, if_true, reduceCtorEq, if_false, gap_block h4, toIfaceSlice, collectBOPs_bop]

theorem sec_text (s : CSection) (X : Bytes) : s.text ++ X = s.com.text ++ (ptypeText s.ptype ++ (s.g.text ++ (b!"{" ++ (itemsText s.items ++
    (s.foot.text ++ (b!"}" ++ X)))))) := by
  simp [CSection.text]

theorem sec_complete {s : CSection} (h : s.Ok) (hc : itemsClear s.items) (X : Bytes) :
    Runs o secEx (s.text ++ X) (.sect (s.ast o.ignoreComments false)) X := by
  rw [sec_text]
  refine actA _ (seqA (labA (gapA h.1 (ptype_stop h.2.1 _))) (seqA (labA (refA (section_complete h hc X))) seqEnd)) ?_
  simp only [runAct, Frame.get, if_true, reduceCtorEq, if_false, gap_block h.1]
  rfl

theorem section_fail_nil : Fails o G.pluginSection [] := actF (seqF (labeled_fail.2 (fails_ptype.2 (by simp))))

theorem gapEnd {g : Gap} (h : g.OkEnd) : Runs o G.gap g.text (gapVal o g) [] := by
  rw [runs_gap, gapOf_end h]; exact ⟨rfl, rfl⟩
theorem gapEnd_block {g : Gap} (h : g.OkEnd) (sb sa : Bool) :
    commentBlock (gapVal o g) sb sa = g.block o.ignoreComments sb sa := by
  have := block_gap (o := o) g.text sb sa
  rwa [gapOf_end h] at this

theorem secs_complete (ss : List CSection) (h : ∀ s ∈ ss, s.Ok) (hc : ∀ s ∈ ss, itemsClear s.items) (X : Bytes) :
    Steps o secEx (ss.flatMap CSection.text ++ X) ((ss.map (CSection.ast o.ignoreComments false)).map Val.sect) X := by
  induction ss with
  | nil => exact .nil _
  | cons s ss ih =>
    rw [List.flatMap_cons, List.append_assoc]
    exact .cons (sec_complete (h s (by simp)) (hc s (by simp)) _) (ih (fun t ht => h t (by simp [ht])) (fun t ht => hc t (by simp [ht])))

theorem eofA {fr : Frame} : run o G.eof [] fr = .ok .nil [] fr := by rw [run_eof]; rfl

/-- Completeness of the rule `config`. -/
theorem config_complete {s : CSection} {ss : List CSection} {ft : Gap} (h : (CFile.config s ss ft).Ok) (hc : (CFile.config s ss ft).Clear) :
    Runs o G.config (CFile.config s ss ft).text (.config ((CFile.config s ss ft).ast o.ignoreComments)) [] := by
  obtain ⟨h1, h2, h3⟩ := h
  have hf : Fails o secEx ft.text := actF (seqA (labA (gapEnd h3)) (seqF (labeled_fail.2 (refF section_fail_nil))))
  simp only [CFile.text, List.append_assoc]
  rw [sec_text]
  refine actA _ (seqA (labA (gapA h1.1 (ptype_stop h1.2.1 _))) (seqA (labA (refA (section_complete h1 hc.1 _)))
    (seqA (labA ⟨[], star_of_steps _ (secs_complete ss h2 hc.2 _) hf⟩) (seqA (labA (gapEnd h3)) (seqA eofA seqEnd))))) ?_
  simp only [runAct, Frame.get, if_true, reduceCtorEq, if_false, gapEnd_block h3, gap_block h1.1, toIfaceSlice]
  rw [show ∀ (x : Section) (l : List Section), [Val.sect x] ++ l.map Val.sect = (x :: l).map Val.sect from fun _ _ => rfl]
  rw [configLoop_first _ _ _ _ (by simpa using ⟨h1.2.1, fun s hs => (h2 s hs).2.1⟩), configLoop_rest _ _ _ (by
      simpa [CSection.ast] using ⟨h1.2.1, fun s hs => (h2 s hs).2.1⟩)]
  simp [CFile.ast, CFile.sections, Config.empty, CSection.ast]

/-- Completeness of the rule `init`. -/
theorem init_complete {k : CFile} (h : k.Ok) (hc : k.Clear) : Runs o G.init k.text (.config (k.ast o.ignoreComments)) [] := by
  have key : Runs o (.choice [.action (.ret .conf) (.seq [.labeled .conf (.ref .config), G.eof]),
      .action .newConfig (.seq [G.gap, G.eof])]) k.text (.config (k.ast o.ignoreComments)) [] := by
    cases k with
    | config s ss ft =>
      refine choiceA fun _ => choice1 (actA _ (seqA (labA (refA (config_complete h hc))) (seqA eofA seqEnd)) ?_)
      simp only [runAct, Frame.get, if_true]
    | empty g =>
      refine choiceA fun _ => choice2 (actF (seqF (labeled_fail.2 (refF (actF ?_))))) (choice1 (actA [] (seqA (v := gapVal o g) (b1 := []) (fr1 := []) ?_ (seqA eofA seqEnd)) ?_))
      · exact seqA (labA (gapEnd h)) (seqF (labeled_fail.2 (refF section_fail_nil)))
      · rw [CFile.text, run_gap, gapOf_end h]
      · simp only [runAct]; rfl
  refine actA _ (seqA (run_state ..) (seqA (run_initParser ..) (seqA (labA key) seqEnd))) ?_
  simp only [runAct, Frame.get, if_true]
  cases k <;> rfl

end
end Verif
