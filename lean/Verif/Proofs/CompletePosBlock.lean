import Verif.Proofs.CompletePosCond
/-
Completeness with positions and warnings: blocks, branches, sections, files.
-/
namespace Verif
open Spec

section
variable {o : Opts} {pf : Bytes → Pos} {pos : Nat → Pos} {D : Nat}

/-- Completeness for one block element at offset `k`, with any gap in front of it. -/
def BopQ (o : Opts) (pf : Bytes → Pos) (pos : Nat → Pos) (D : Nat) (i : CItem) (X : Bytes) : Prop :=
  ∀ (g : Gap), g.Ok → ∀ k, k + ((i.setCom g).text ++ X).length = D → ∀ ws, RunsP o pf G.branchOrPlugin ((i.setCom g).text ++ X) ws
    (bopVal ((i.setCom g).astAt o.ignoreComments pos k)) X (ws ++ wl o pos ((i.setCom g).exc k))

theorem setCom_setCom (i : CItem) (g h : Gap) : (i.setCom g).setCom h = i.setCom h := by cases i <;> rfl
theorem setCom_com' (i : CItem) (g : Gap) : (i.setCom g).com = g := by cases i <;> rfl

theorem itemQ {i : CItem} (h : i.Ok) {X : Bytes} (hb : BopQ o pf pos D i X) (k : Nat) (hk : k + (i.text ++ X).length = D) (ws : List Bytes) :
    RunsP o pf itemEx (i.text ++ X) ws (bopVal (i.astAt o.ignoreComments pos k)) X (ws ++ wl o pos (i.exc k)) := by
  rw [item_text] at hk ⊢
  refine (actQ _ (seqQ (labQ (gapQ (item_ok_com h) (item_stop h X)))
    (seqQ (labQ (refQ (r := .branchOrPlugin) (hb .empty gap_empty_ok (k + i.com.text.length) (by len) _))) endQ)) ?_).w ?_
  · simp only [runAct, Frame.get, if_true, reduceCtorEq, if_false, gap_block (item_ok_com h)]
    cases i with
    | plugin com p =>
      obtain ⟨nm, g, as, ft⟩ := p
      simp [CItem.setCom, CItem.astAt, bopVal, CItem.com, CPlugin.astAt, Gap.text, Gap.empty]
    | branch =>
      simp [CItem.setCom, CItem.astAt, bopVal, CItem.com, Gap.text, Gap.empty]
  · have := setCom_exc k i.com (i.setCom .empty) (setCom_com' i .empty)
    rw [setCom_setCom, setCom_com] at this
    rw [this]

theorem secItemQ {i : CItem} (h : i.Ok) {X : Bytes} (hb : BopQ o pf pos D i X) (k : Nat) (hk : k + (i.text ++ X).length = D) (ws : List Bytes) :
    RunsP o pf secItemEx (i.text ++ X) ws (bopVal (i.astAt o.ignoreComments pos k)) X (ws ++ wl o pos (i.exc k)) := by
  have := hb i.com (item_ok_com h)
  rw [setCom_com] at this
  refine ⟨_, .action (labQ (refQ (r := .branchOrPlugin) (this k hk ws))) ?_⟩
  simp only [runAct, Frame.get, if_true]

/-- Completeness of a block at offset `k`. -/
def ItemsQ (o : Opts) (pf : Bytes → Pos) (pos : Nat → Pos) (k : Nat) (is : List CItem) (X : Bytes) : Prop :=
  ∀ ws, StepsP o pf itemEx (itemsText is ++ X) ws ((itemsAt o.ignoreComments pos k is).map bopVal) X (ws ++ wl o pos (itemsExc k is))

theorem blockQ {is : List CItem} {X : Bytes} {k : Nat} (h : ItemsQ o pf pos k is X) (hf : Fails o itemEx X) (fr : Frame) (ws : List Bytes) :
    RP o pf G.block (itemsText is ++ X) fr ws (.list ((itemsAt o.ignoreComments pos k is).map bopVal)) X
      ((.bops, .list ((itemsAt o.ignoreComments pos k is).map bopVal)) :: fr) (ws ++ wl o pos (itemsExc k is)) :=
  labQ (starQ (h ws) hf)

theorem ifQ (hp : PosFn pf pos D) {g1 g2 : Gap} {c : CCond} {is : List CItem} {ft : Gap} {X : Bytes} (h1 : g1.Ok) (hc : c.Ok) (h2 : g2.Ok) (hf : ft.Ok)
    (k : Nat) (hk : k + (b!"if" ++ (g1.text ++ (c.text ++ (g2.text ++ (b!"{" ++ (itemsText is ++ (ft.text ++ (b!"}" ++ X)))))))).length = D)
    (h : ItemsQ o pf pos (k + 2 + g1.text.length + c.text.length + g2.text.length + 1) is (ft.text ++ (b!"}" ++ X))) (ws : List Bytes) :
    RunsP o pf G.ifCond (b!"if" ++ (g1.text ++ (c.text ++ (g2.text ++ (b!"{" ++ (itemsText is ++ (ft.text ++ (b!"}" ++ X)))))))) ws
      (.ifBlock (pos k) (c.astAt o.ignoreComments pos (k + 2 + g1.text.length))
        (itemsAt o.ignoreComments pos (k + 2 + g1.text.length + c.text.length + g2.text.length + 1) is) []
        (ft.block o.ignoreComments false false)) X
      (ws ++ wl o pos ([(k + 2, g1)] ++ c.exc (k + 2 + g1.text.length) ++
        [(k + 2 + g1.text.length + c.text.length, g2)] ++ itemsExc (k + 2 + g1.text.length + c.text.length + g2.text.length + 1) is)) := by
  refine (actQ _ (seqQ (litQ (by decide)) (gapSWQ hp (k + 2) (by len) h1 (cond_stop hc _)
    (seqQ (labQ (refQ (r := .condition) (conditionQ o hp c hc _ (condFollow_brace h2 _) (k + 2 + g1.text.length) (by len) _)))
    (gapTokQ hp (k + 2 + g1.text.length + c.text.length) (by len) h2 (by decide) (by decide)
    (seqQ (blockQ h (item_fail hf X) _ _) (gapCloseQ hf (by decide) (by simp) (by decide))))))) ?_).w ?_
  · simp only [runAct, Frame.get, if_true, reduceCtorEq, if_false, gap_block hf, branchOrPlugins_at, hp _ _ hk]
  · warns

theorem elseIfQ (hp : PosFn pf pos D) {g0 g1 g2 : Gap} {c : CCond} {is : List CItem} {ft : Gap} {X : Bytes} (h0 : g0.Ok) (h1 : g1.Ok) (hc : c.Ok)
    (h2 : g2.Ok) (hf : ft.Ok) (k : Nat)
    (hk : k + (b!"else" ++ (g0.text ++ (b!"if" ++ (g1.text ++ (c.text ++ (g2.text ++ (b!"{" ++ (itemsText is ++ (ft.text ++ (b!"}" ++ X)))))))))).length = D)
    (h : ItemsQ o pf pos (k + 4 + g0.text.length + 2 + g1.text.length + c.text.length + g2.text.length + 1) is (ft.text ++ (b!"}" ++ X)))
    (ws : List Bytes) :
    RunsP o pf G.elseIf (b!"else" ++ (g0.text ++ (b!"if" ++ (g1.text ++ (c.text ++ (g2.text ++ (b!"{" ++ (itemsText is ++ (ft.text ++ (b!"}" ++ X)))))))))) ws
      (.elif (.mk (pos k) (c.astAt o.ignoreComments pos (k + 4 + g0.text.length + 2 + g1.text.length))
        (itemsAt o.ignoreComments pos (k + 4 + g0.text.length + 2 + g1.text.length + c.text.length + g2.text.length + 1) is) []
        (ft.block o.ignoreComments false false))) X
      (ws ++ wl o pos ([(k + 4, g0), (k + 4 + g0.text.length + 2, g1)] ++ c.exc (k + 4 + g0.text.length + 2 + g1.text.length) ++
        [(k + 4 + g0.text.length + 2 + g1.text.length + c.text.length, g2)] ++
        itemsExc (k + 4 + g0.text.length + 2 + g1.text.length + c.text.length + g2.text.length + 1) is)) := by
  refine (actQ _ (seqQ (litQ (by decide)) (gapTokQ hp (k + 4) (by len) h0 (by decide) (by decide)
    (gapSWQ hp (k + 4 + g0.text.length + 2) (by len) h1 (cond_stop hc _)
    (seqQ (labQ (refQ (r := .condition) (conditionQ o hp c hc _ (condFollow_brace h2 _) (k + 4 + g0.text.length + 2 + g1.text.length) (by len) _)))
    (gapTokQ hp (k + 4 + g0.text.length + 2 + g1.text.length + c.text.length) (by len) h2 (by decide) (by decide)
    (seqQ (blockQ h (item_fail hf X) _ _) (gapCloseQ hf (by decide) (by simp) (by decide)))))))) ?_).w ?_
  · simp only [runAct, Frame.get, if_true, reduceCtorEq, if_false, gap_block hf, branchOrPlugins_at, hp _ _ hk]
  · warns

theorem elseCondQ (hp : PosFn pf pos D) {g : Gap} {is : List CItem} {ft : Gap} {X : Bytes} (hg : g.Ok) (hf : ft.Ok) (k : Nat)
    (hk : k + (b!"else" ++ (g.text ++ (b!"{" ++ (itemsText is ++ (ft.text ++ (b!"}" ++ X)))))).length = D)
    (h : ItemsQ o pf pos (k + 4 + g.text.length + 1) is (ft.text ++ (b!"}" ++ X))) (ws : List Bytes) :
    RunsP o pf G.elseCond (b!"else" ++ (g.text ++ (b!"{" ++ (itemsText is ++ (ft.text ++ (b!"}" ++ X)))))) ws
      (.elseB (.mk (pos k) (itemsAt o.ignoreComments pos (k + 4 + g.text.length + 1) is) [] (ft.block o.ignoreComments false false))) X
      (ws ++ wl o pos ([(k + 4, g)] ++ itemsExc (k + 4 + g.text.length + 1) is)) := by
  refine (actQ _ (seqQ (litQ (by decide)) (gapTokQ hp (k + 4) (by len) hg (by decide) (by decide)
    (seqQ (blockQ h (item_fail hf X) _ _) (gapCloseQ hf (by decide) (by simp) (by decide))))) ?_).w ?_
  · simp only [runAct, Frame.get, if_true, reduceCtorEq, if_false, gap_block hf, branchOrPlugins_at, hp _ _ hk]
  · warns

theorem elifQ (hp : PosFn pf pos D) {com g0 g1 g2 : Gap} {c : CCond} {is : List CItem} {ft : Gap} {X : Bytes} (hok : elifsOk [.mk com g0 g1 c g2 is ft])
    (k : Nat) (hk : k + (elifsText [.mk com g0 g1 c g2 is ft] ++ X).length = D)
    (h : ItemsQ o pf pos (k + com.text.length + 4 + g0.text.length + 2 + g1.text.length + c.text.length + g2.text.length + 1) is (ft.text ++ (b!"}" ++ X)))
    (ws : List Bytes) :
    RunsP o pf elifEx (elifsText [.mk com g0 g1 c g2 is ft] ++ X) ws
      (.elif (.mk (pos (k + com.text.length)) (c.astAt o.ignoreComments pos (k + com.text.length + 4 + g0.text.length + 2 + g1.text.length))
        (itemsAt o.ignoreComments pos (k + com.text.length + 4 + g0.text.length + 2 + g1.text.length + c.text.length + g2.text.length + 1) is)
        (com.block o.ignoreComments false false)
        (ft.block o.ignoreComments false false))) X (ws ++ wl o pos (elifsExc k [.mk com g0 g1 c g2 is ft])) := by
  obtain ⟨hm, h0, h1, hc, h2, _, hf, _⟩ := hok
  simp only [elifsText, List.append_assoc, List.nil_append] at hk ⊢
  refine (actQ _ (seqQ (labQ (gapQ hm (stop_cons (by decide))))
    (seqQ (labQ (refQ (r := .elseIf) (elseIfQ hp h0 h1 hc h2 hf (k + com.text.length) (by len) h _))) endQ)) ?_).w ?_
  · simp only [runAct, Frame.get, if_true, reduceCtorEq, if_false, gap_block hm]
  · simp only [elifsExc]
    warns

/-- The value of the optional else block. -/
def optElseAt (ign : Bool) (pos : Nat → Pos) (k : Nat) : CElse → Val
  | .none => .nil
  | e => .elseB (e.astAt ign pos k)

theorem elseQ (hp : PosFn pf pos D) {com g : Gap} {is : List CItem} {ft : Gap} {X : Bytes} (hok : (CElse.mk com g is ft).Ok)
    (k : Nat) (hk : k + ((CElse.mk com g is ft).text ++ X).length = D)
    (h : ItemsQ o pf pos (k + com.text.length + 4 + g.text.length + 1) is (ft.text ++ (b!"}" ++ X))) (ws : List Bytes) :
    RunsP o pf (.opt elseEx) ((CElse.mk com g is ft).text ++ X) ws (optElseAt o.ignoreComments pos k (.mk com g is ft)) X
      (ws ++ wl o pos ((CElse.mk com g is ft).exc k)) := by
  obtain ⟨hm, hg, _, hf⟩ := hok
  simp only [CElse.text, List.append_assoc] at hk ⊢
  refine optQ ((actQ _ (seqQ (labQ (gapQ hm (stop_cons (by decide))))
    (seqQ (labQ (refQ (r := .elseCond) (elseCondQ hp hg hf (k + com.text.length) (by len) h _))) endQ)) ?_).w ?_)
  · simp only [runAct, Frame.get, if_true, reduceCtorEq, if_false, gap_block hm, optElseAt, CElse.astAt]
  · simp only [CElse.exc]

theorem branchQ (hp : PosFn pf pos D) {com g1 g2 : Gap} {c : CCond} {is : List CItem} {ft : Gap} {es : List CElif} {el : CElse} {X : Bytes}
    (hok : (CItem.branch com g1 c g2 is ft es el).Ok) (hX : el = .none → BranchEnd o X)
    (h : ∀ k Y, k + (itemsText is ++ (ft.text ++ (b!"}" ++ Y))).length = D → ItemsQ o pf pos k is (ft.text ++ (b!"}" ++ Y)))
    (he : ∀ k, k + (elifsText es ++ (el.text ++ X)).length = D → ∀ ws, StepsP o pf elifEx (elifsText es ++ (el.text ++ X)) ws
      ((elifsAt o.ignoreComments pos k es).map Val.elif) (el.text ++ X) (ws ++ wl o pos (elifsExc k es)))
    (hl : ∀ k, k + (el.text ++ X).length = D → ∀ ws, RunsP o pf (.opt elseEx) (el.text ++ X) ws (optElseAt o.ignoreComments pos k el) X
      (ws ++ wl o pos (el.exc k))) :
    BopQ o pf pos D (.branch com g1 c g2 is ft es el) X := by
  intro g hg k hk ws
  obtain ⟨_, h1, hc, h2, _, hf, _, hel⟩ := hok
  simp only [CItem.setCom, CItem.text, List.append_assoc] at hk ⊢
  refine choice1Q (refQ (r := .branch) ((actQ _ (seqQ (labQ (gapQ hg (stop_cons (by decide))))
    (seqQ (labQ (refQ (r := .ifCond) (ifQ hp h1 hc h2 hf (k + g.text.length) (by len) (h _ _ (by len)) _)))
    (seqQ (labQ (starQ (he (k + g.text.length + 2 + g1.text.length + c.text.length + g2.text.length + 1 + (itemsText is).length + ft.text.length + 1) (by len) _) (elif_fail hel hX)))
    (seqQ (labQ (hl (k + g.text.length + 2 + g1.text.length + c.text.length + g2.text.length + 1 + (itemsText is).length + ft.text.length + 1 + (elifsText es).length) (by len) _)) endQ)))) ?_).w ?_))
  · simp only [runAct, Frame.get, if_true, reduceCtorEq, if_false, toIfaceSlice, collectElifs_elif, gap_block hg]
    cases el <;> simp [CItem.astAt, bopVal, CElse.astAt, ElseB.zero, optElseAt]
  · simp only [CItem.exc]
    warns

theorem pluginItemQ (hp : PosFn pf pos D) {com : Gap} {p : CPlugin} (h : (CItem.plugin com p).Ok) (hc : (CItem.plugin com p).Clear) (X : Bytes) :
    BopQ o pf pos D (.plugin com p) X := by
  intro g hg k hk ws
  simp only [CItem.setCom, CItem.text, List.append_assoc] at hk ⊢
  exact choice2Q (refF (branch_fail hg (plugin_stop h.2 X) (ifCond_fail_plugin h.2 hc X))) (choice1Q (refQ (r := .plugin) (pluginQ hp hg h.2 X hk)))

mutual
/-- Completeness of the rule `branchOrPlugin`. -/
theorem bopQ (o : Opts) (hp : PosFn pf pos D) : (i : CItem) → i.Ok → i.Clear → (X : Bytes) → (i.isOpen = true → BranchEnd o X) → BopQ o pf pos D i X
  | .plugin _ _, h, hc, X, _ => pluginItemQ hp h hc X
  | .branch _ _ _ _ is ft es el, h, hc, X, hX => branchQ hp h (fun he => hX (none_open he))
      (fun k Y hk => itemsQ o hp is h.2.2.2.2.1 hc.1 ft h.2.2.2.2.2.1 Y k hk)
      (fun k hk => elifsQ o hp es h.2.2.2.2.2.2.1 hc.2.1 _ k hk)
      (fun k hk => optElseQ o hp el h.2.2.2.2.2.2.2 hc.2.2 X (fun he => hX (none_open he)) k hk)
/-- Blocks of branches. -/
theorem itemsQ (o : Opts) (hp : PosFn pf pos D) : (is : List CItem) → itemsOk is → itemsClear is → (g : Gap) → g.Ok → (X : Bytes) → (k : Nat) →
    k + (itemsText is ++ (g.text ++ (b!"}" ++ X))).length = D → ItemsQ o pf pos k is (g.text ++ (b!"}" ++ X))
  | [], _, _, _, _, _, _, _ => fun ws => by
    simp only [itemsExc, wl_nil, List.append_nil]
    exact .nil
  | i :: r, h, hc, g, hg, X, k, hk => fun ws => by
    rw [itemsText, List.append_assoc] at hk
    rw [itemsText, List.append_assoc, itemsAt, List.map_cons, itemsExc, wl_append, ← List.append_assoc ws]
    exact .cons (itemQ h.1 (bopQ o hp i h.1 hc.1 _ fun hi => items_end h.2 (hc.2.1 hi) hg X) k hk ws)
      (itemsQ o hp r h.2 hc.2.2 g hg X _ (by rw [List.length_append] at hk; omega) _)
/-- Else-if blocks. -/
theorem elifsQ (o : Opts) (hp : PosFn pf pos D) : (es : List CElif) → elifsOk es → elifsClear es → (X : Bytes) → (k : Nat) →
    k + (elifsText es ++ X).length = D → ∀ ws,
    StepsP o pf elifEx (elifsText es ++ X) ws ((elifsAt o.ignoreComments pos k es).map Val.elif) X (ws ++ wl o pos (elifsExc k es))
  | [], _, _, _, _, _ => fun ws => by
    simp only [elifsExc, wl_nil, List.append_nil]
    exact .nil
  | .mk com g0 g1 c g2 is ft :: r, h, hc, X, k, hk => fun ws => by
    have h1 := (elifsOk_append _ _).1 h
    rw [elifsText_append, List.append_assoc] at hk
    rw [elifsText_append, List.append_assoc, elifsAt_append, elifsExc_append, wl_append, ← List.append_assoc ws]
    have hk2 := hk
    simp only [elifsText, List.append_assoc, List.nil_append] at hk2
    exact .cons (elifQ hp h1.1 k hk (itemsQ o hp is h.2.2.2.2.2.1 hc.1 ft h.2.2.2.2.2.2.1 (elifsText r ++ X) _ (by clear hk; have hk := hk2; len)) ws)
      (elifsQ o hp r h.2.2.2.2.2.2.2 hc.2 X _ (by rw [List.length_append] at hk; omega) _)
/-- Else blocks. -/
theorem optElseQ (o : Opts) (hp : PosFn pf pos D) : (e : CElse) → e.Ok → e.Clear → (X : Bytes) → (e = .none → BranchEnd o X) → (k : Nat) →
    k + (e.text ++ X).length = D → ∀ ws,
    RunsP o pf (.opt elseEx) (e.text ++ X) ws (optElseAt o.ignoreComments pos k e) X (ws ++ wl o pos (e.exc k))
  | .none, _, _, _, hX, _, _ => fun ws => by
    simp only [CElse.exc, wl_nil, List.append_nil]
    exact optNQ (hX rfl).2
  | .mk com g is ft, h, hc, X, _, k, hk => elseQ hp h k hk (itemsQ o hp is h.2.2.1 hc ft h.2.2.2 X _ (by
      simp only [CElse.text, List.append_assoc] at hk; len))
end

/-! ### Sections and files -/

theorem secItemsQ (hp : PosFn pf pos D) (is : List CItem) (h : itemsOk is) (hc : itemsClear is) {g : Gap} (hg : g.Ok) (X : Bytes) (k : Nat)
    (hk : k + (itemsText is ++ (g.text ++ (b!"}" ++ X))).length = D) (ws : List Bytes) :
    StepsP o pf secItemEx (itemsText is ++ (g.text ++ (b!"}" ++ X))) ws ((itemsAt o.ignoreComments pos k is).map bopVal) (g.text ++ (b!"}" ++ X))
      (ws ++ wl o pos (itemsExc k is)) := by
  induction is generalizing k ws with
  | nil =>
    simp only [itemsExc, wl_nil, List.append_nil]
    exact .nil
  | cons i r ih =>
    rw [itemsText, List.append_assoc] at hk
    rw [itemsText, List.append_assoc, itemsAt, List.map_cons, itemsExc, wl_append, ← List.append_assoc ws]
    exact .cons (secItemQ h.1 (bopQ o hp i h.1 hc.1 _ fun hi => items_end h.2 (hc.2.1 hi) hg X) k hk ws)
      (ih h.2 hc.2.2 _ (by rw [List.length_append] at hk; omega) _)

theorem sectionQ (hp : PosFn pf pos D) {s : CSection} (h : s.Ok) (hc : itemsClear s.items) (X : Bytes) (k : Nat)
    (hk : k + (ptypeText s.ptype ++ (s.g.text ++ (b!"{" ++ (itemsText s.items ++ (s.foot.text ++ (b!"}" ++ X)))))).length = D) (ws : List Bytes) :
    RunsP o pf G.pluginSection (ptypeText s.ptype ++ (s.g.text ++ (b!"{" ++ (itemsText s.items ++ (s.foot.text ++ (b!"}" ++ X)))))) ws
      (.sect ⟨pos k, s.ptype, itemsAt o.ignoreComments pos (k + (ptypeText s.ptype).length + s.g.text.length + 1) s.items, [],
        s.foot.block o.ignoreComments false false⟩) X
      (ws ++ wl o pos ([(k + (ptypeText s.ptype).length, s.g)] ++ itemsExc (k + (ptypeText s.ptype).length + s.g.text.length + 1) s.items)) := by
  obtain ⟨_, h1, h2, h3, h4⟩ := h
  refine (actQ _ (seqQ (labQ (ptypeQ h1)) (gapTokQ hp (k + (ptypeText s.ptype).length) (by len) h2 (by decide) (by decide)
    (seqQ (labQ (starQ (secItemsQ hp s.items h3 hc h4 X (k + (ptypeText s.ptype).length + s.g.text.length + 1) (by len) _) (secItem_fail h4 X)))
      (gapCloseQ h4 (by decide) (by simp) (by decide))))) ?_).w ?_
  · simp only [runAct, Frame.get, if_true, reduceCtorEq, if_false, gap_block h4, toIfaceSlice, collectBOPs_at, hp _ _ hk]
  · warns

theorem secQ (hp : PosFn pf pos D) {s : CSection} (h : s.Ok) (hc : itemsClear s.items) (X : Bytes) (k : Nat) (hk : k + (s.text ++ X).length = D)
    (ws : List Bytes) :
    RunsP o pf secEx (s.text ++ X) ws (.sect (s.astAt o.ignoreComments pos k false)) X (ws ++ wl o pos (s.exc k)) := by
  rw [sec_text] at hk ⊢
  refine (actQ _ (seqQ (labQ (gapQ h.1 (ptype_stop h.2.1 _)))
    (seqQ (labQ (refQ (r := .pluginSection) (sectionQ hp h hc X (k + s.com.text.length) (by len) _))) endQ)) ?_).w ?_
  · simp only [runAct, Frame.get, if_true, reduceCtorEq, if_false, gap_block h.1]
    rfl
  · simp only [CSection.exc]

theorem secsQ (hp : PosFn pf pos D) (ss : List CSection) (h : ∀ s ∈ ss, s.Ok) (hc : ∀ s ∈ ss, itemsClear s.items) (X : Bytes) (k : Nat)
    (hk : k + (ss.flatMap CSection.text ++ X).length = D) (ws : List Bytes) :
    StepsP o pf secEx (ss.flatMap CSection.text ++ X) ws ((sectionsAt o.ignoreComments pos k ss).map Val.sect) X
      (ws ++ wl o pos (sectionsExc k ss)) := by
  induction ss generalizing k ws with
  | nil =>
    simp only [sectionsExc, wl_nil, List.append_nil]
    exact .nil
  | cons s ss ih =>
    rw [List.flatMap_cons, List.append_assoc] at hk
    rw [List.flatMap_cons, List.append_assoc, sectionsAt, List.map_cons, sectionsExc, wl_append, ← List.append_assoc ws]
    exact .cons (secQ hp (h s (by simp)) (hc s (by simp)) _ k hk ws)
      (ih (fun t ht => h t (by simp [ht])) (fun t ht => hc t (by simp [ht])) _ (by rw [List.length_append] at hk; omega) _)

theorem eofQ {fr : Frame} {ws : List Bytes} : RP o pf G.eof [] fr ws .nil [] fr ws := by
  obtain ⟨v, fr', h⟩ := quiet_rp (o := o) (pf := pf) G.eof (by decide) [] fr _ _ _ ws eofA
  obtain ⟨_, _, rfl, _⟩ := eof_rp h
  obtain ⟨_, rfl, _⟩ := not_rp.1 h
  exact h

/-- Completeness of the rule `config`. -/
theorem configQ (hp : PosFn pf pos D) {s : CSection} {ss : List CSection} {ft : Gap} (h : (CFile.config s ss ft).Ok)
    (hc : (CFile.config s ss ft).Clear) (hk : 0 + (CFile.config s ss ft).text.length = D) :
    RunsP o pf G.config (CFile.config s ss ft).text []
      (.config { (CFile.config s ss ft).astAt o.ignoreComments o.excWarn pos with warnings := [] }) []
      (wl o pos (CFile.config s ss ft).exc) := by
  obtain ⟨h1, h2, h3⟩ := h
  have hf : Fails o secEx ft.text := actF (seqA (labA (gapEnd h3)) (seqF (labeled_fail.2 (refF section_fail_nil))))
  have hl : (s.text ++ (ss.flatMap CSection.text ++ ft.text)).length = D := by
    rw [← hk, CFile.text, List.append_assoc]; omega
  have hk2 := hl
  simp only [CFile.text, List.append_assoc]
  rw [sec_text] at hk2 ⊢
  refine (actQ _ (seqQ (labQ (gapQ h1.1 (ptype_stop h1.2.1 _)))
    (seqQ (labQ (refQ (r := .pluginSection) (sectionQ hp h1 hc.1 _ s.com.text.length (by clear hk; have hk := hk2; len) _)))
    (seqQ (labQ (starQ (secsQ hp ss h2 hc.2 _ s.text.length (by clear hk; have hk := hl; len) _) hf))
    (seqQ (labQ (gapEndQ h3)) (seqQ eofQ endQ))))) ?_).w ?_
  · simp only [runAct, Frame.get, if_true, reduceCtorEq, if_false, gapEnd_block h3, gap_block h1.1, toIfaceSlice]
    rw [show ∀ (x : Section) (l : List Section), [Val.sect x] ++ l.map Val.sect = (x :: l).map Val.sect from fun _ _ => rfl]
    have hq := sectionsAt_ptype (ign := o.ignoreComments) (pos := pos) (k := s.text.length) h2
    rw [configLoop_first _ _ _ _ (by simpa using ⟨h1.2.1, hq⟩), configLoop_rest _ _ _ (by simpa using ⟨h1.2.1, hq⟩)]
    simp [CFile.astAt, CFile.sectionsAt, Config.empty, CSection.astAt]
  · simp only [CFile.exc, sectionsExc, CSection.exc, wl_append, List.append_assoc, Nat.zero_add, List.nil_append]

/-- Completeness of the rule `init`. -/
theorem initQ (hp : PosFn pf pos D) {k : CFile} (h : k.Ok) (hc : k.Clear) (hk : 0 + k.text.length = D) :
    ∃ ws, RunsP o pf G.init k.text [] (.config (k.astAt o.ignoreComments o.excWarn pos)) [] ws := by
  have key : RunsP o pf (.choice [.action (.ret .conf) (.seq [.labeled .conf (.ref .config), G.eof]),
      .action .newConfig (.seq [G.gap, G.eof])]) k.text [] (.config { k.astAt o.ignoreComments o.excWarn pos with warnings := [] }) []
      (wl o pos k.exc) := by
    cases k with
    | config s ss ft =>
      refine choice1Q (actQ _ (seqQ (labQ (refQ (r := .config) (configQ hp h hc hk))) (seqQ eofQ endQ)) ?_)
      simp only [runAct, Frame.get, if_true]
    | empty g =>
      obtain ⟨fg, hg⟩ := gapEndQ (o := o) (pf := pf) (ws := []) h
      have hg2 : fg = [] := by
        obtain ⟨_, _, h3⟩ := gap_ok.1 hg.run
        cases fg with
        | nil => rfl
        | cons a as => cases h3
      subst hg2
      refine choice2Q (actF (seqF (labeled_fail.2 (refF (actF ?_))))) (choice1Q ((actQ [] (seqQ hg (seqQ eofQ endQ)) ?_).w ?_))
      · exact seqA (labA (gapEnd h)) (seqF (labeled_fail.2 (refF section_fail_nil)))
      · simp only [runAct]; rfl
      · simp [CFile.exc, wl_nil]
  refine ⟨wl o pos k.exc, actQ _ (seqQ .initState (seqQ .initParser (seqQ (labQ key) endQ))) ?_⟩
  simp only [runAct, Frame.get, if_true]
  rfl

end
end Verif
