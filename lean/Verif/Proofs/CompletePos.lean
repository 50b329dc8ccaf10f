import Verif.Proofs.CompletePosTok
/-
Completeness with positions and warnings: values and plugins.
-/
namespace Verif
open Spec

section
variable {o : Opts} {pf : Bytes → Pos} {pos : Nat → Pos} {D : Nat}

set_option hygiene false in
/-- Offsets: from `hk`. -/
macro "len" : tactic => `(tactic| (simp only [List.length_append, List.length_cons, List.length_nil] at hk ⊢; omega))

/-- Join the warnings. -/
macro "warns" : tactic => `(tactic| (simp only [wl_append, wl_cons2, wl_nil, List.append_assoc, List.append_nil, List.nil_append]))

theorem wordStart_num : ∀ c : UInt8, isWordStart c = true → c ≠ 45 ∧ Spec.isDigit c = false := by decide +kernel

/-- Completeness of the rule `value` at offset `k`. -/
def ValQ (o : Opts) (pf : Bytes → Pos) (pos : Nat → Pos) (k : Nat) (v : CVal) (X : Bytes) : Prop :=
  ∀ ws, RunsP o pf G.value (v.text ++ X) ws (cvalAt o.ignoreComments pos k v) X (ws ++ wl o pos (v.exc k))

theorem attrQ (hp : PosFn pf pos D) {n : StrLit} {g1 g2 : Gap} {v : CVal} {X : Bytes} {k : Nat} {ws : List Bytes}
    (hk : k + (n.text ++ (g1.text ++ (b!"=>" ++ (g2.text ++ (v.text ++ X))))).length = D)
    (hn : n.Name) (h1 : g1.Ok) (h2 : g2.Ok) (hv : v.Ok)
    (h : ValQ o pf pos (k + n.text.length + g1.text.length + 2 + g2.text.length) v X) :
    RunsP o pf G.attr (n.text ++ (g1.text ++ (b!"=>" ++ (g2.text ++ (v.text ++ X))))) ws
      (.attr (withNameAt (pos k) n.text (v.astAt o.ignoreComments pos (k + n.text.length + g1.text.length + 2 + g2.text.length)))) X
      (ws ++ wl o pos ([(k + n.text.length, g1), (k + n.text.length + g1.text.length + 2, g2)] ++
        v.exc (k + n.text.length + g1.text.length + 2 + g2.text.length))) := by
  refine (actQ _ (seqQ (labQ (nameQ hp hn (gap_takeWhile gapChar_name h1 (by simp; decide)) hk))
    (gapTokQ hp (k + n.text.length) (by len) h1 (by decide) (by decide)
    (gapSWQ hp (k + n.text.length + g1.text.length + 2) (by len) h2 (cval_stop hv X) (seqQ (labQ (refQ (r := .value) (h _))) endQ)))) ?_).w ?_
  · simp only [runAct, Frame.get, if_true, reduceCtorEq, if_false]
    rw [attribute_cvalAt hn, hp _ _ hk]
  · warns

theorem attrStepQ (hp : PosFn pf pos D) {sep : Bytes} {com : Gap} {n : StrLit} {g1 g2 : Gap} {v : CVal} {X : Bytes} {k : Nat} {ws : List Bytes}
    (hok : attrsOk false [.mk sep com n g1 g2 v])
    (hk : k + (attrsText false [.mk sep com n g1 g2 v] ++ X).length = D)
    (h : ValQ o pf pos (k + sep.length + com.text.length + n.text.length + g1.text.length + 2 + g2.text.length) v X) :
    ∃ x, RunsP o pf attrStepEx (attrsText false [.mk sep com n g1 g2 v] ++ X) ws (.attr x) X
      (ws ++ wl o pos (attrsExc false k [.mk sep com n g1 g2 v])) ∧
      attrsAt o.ignoreComments pos false k [.mk sep com n g1 g2 v] = [x] := by
  obtain ⟨h0, h1, hn, h2, h3, hv, _⟩ := hok
  have h0 := h0 rfl
  simp only [attrsText, Bool.false_eq_true, if_false, List.append_assoc, List.nil_append] at hk ⊢
  have hw := sep_takeWhile h0 (X := n.text ++ (g1.text ++ (b!"=>" ++ (g2.text ++ (v.text ++ X))))) (fun c hc => (name_brace hn _ c hc).1)
  obtain ⟨wv, hwv⟩ := wsQ (o := o) (pf := pf) (fr := []) (ws := ws)
    (b := sep ++ (com.text ++ (n.text ++ (g1.text ++ (b!"=>" ++ (g2.text ++ (v.text ++ X))))))) (by rw [hw.1]; exact h0.1)
  rw [hw.2] at hwv
  refine ⟨withComment (com.block o.ignoreComments true false) (withNameAt (pos (k + sep.length + com.text.length)) n.text
      (v.astAt o.ignoreComments pos (k + sep.length + com.text.length + n.text.length + g1.text.length + 2 + g2.text.length))),
    (actQ _ (seqQ hwv (seqQ (labQ (gapQ h1 (name_stop hn _)))
    (seqQ (labQ (refQ (r := .attribute) (attrQ hp (k := k + sep.length + com.text.length) (by len) hn h2 h3 hv h))) endQ))) ?_).w ?_, ?_⟩
  · simp only [runAct, Frame.get, if_true, reduceCtorEq, if_false, attributeComment_named, gap_block h1]
  · simp [attrsExc]
  · simp [attrsAt]

theorem attrsQ (hp : PosFn pf pos D) {com : Gap} {n : StrLit} {g1 g2 : Gap} {v : CVal} {r : List CAttr} {Y X : Bytes} {k : Nat} {ws : List Bytes}
    (hk : k + (attrsText true (.mk Y com n g1 g2 v :: r) ++ X).length = D)
    (h1 : com.Ok) (hn : n.Name) (h2 : g1.Ok) (h3 : g2.Ok) (hv : v.Ok)
    (h : ValQ o pf pos (k + com.text.length + n.text.length + g1.text.length + 2 + g2.text.length) v (attrsText false r ++ X))
    (hr : ∀ ws, StepsP o pf attrStepEx (attrsText false r ++ X) ws
      ((attrsAt o.ignoreComments pos false (k + com.text.length + n.text.length + g1.text.length + 2 + g2.text.length + v.text.length) r).map Val.attr) X
      (ws ++ wl o pos (attrsExc false (k + com.text.length + n.text.length + g1.text.length + 2 + g2.text.length + v.text.length) r)))
    (hf : Fails o attrStepEx X) :
    RunsP o pf attrsEx (attrsText true (.mk Y com n g1 g2 v :: r) ++ X) ws
      (.attrs (attrsAt o.ignoreComments pos true k (.mk Y com n g1 g2 v :: r))) X
      (ws ++ wl o pos (attrsExc true k (.mk Y com n g1 g2 v :: r))) := by
  simp only [attrsText, if_true, List.append_assoc, List.nil_append] at hk ⊢
  refine (actQ _ (seqQ (labQ (gapQ h1 (name_stop hn _))) (seqQ (labQ (refQ (r := .attribute) (attrQ hp (k := k + com.text.length) (by len) hn h2 h3 hv h)))
    (seqQ (labQ (starQ (hr _) hf)) endQ))) ?_).w ?_
  · simp only [runAct, Frame.get, if_true, reduceCtorEq, if_false, attributeComment_named, gap_block h1, toIfaceSlice]
    rw [show ∀ (x : Attr) (l : List Attr), [Val.attr x] ++ l.map Val.attr = (x :: l).map Val.attr from fun _ _ => rfl,
      collectAttrs_attr]
    simp [attrsAt]
  · simp only [attrsExc, if_true, Nat.add_zero]
    warns

/-- The value of an optional list of attributes. -/
def optAttrsAt (ign : Bool) (pos : Nat → Pos) (k : Nat) (as : List CAttr) : Val :=
  if as.isEmpty then .nil else .attrs (attrsAt ign pos true k as)

theorem pluginQ_of (hp : PosFn pf pos D) {com : Gap} {nm : StrLit} {g : Gap} {as : List CAttr} {foot : Gap} {X : Bytes} {k : Nat} {ws : List Bytes}
    (hk : k + (com.text ++ ((CPlugin.mk nm g as foot).text ++ X)).length = D)
    (hc : com.Ok) (hn : nm.Name) (hg : g.Ok) (hf : foot.Ok)
    (h : ∀ ws, RunsP o pf (.opt attrsEx) (attrsText true as ++ (foot.text ++ ([125] ++ X))) ws
      (optAttrsAt o.ignoreComments pos (k + com.text.length + nm.text.length + g.text.length + 1) as) (foot.text ++ ([125] ++ X))
      (ws ++ wl o pos (attrsExc true (k + com.text.length + nm.text.length + g.text.length + 1) as))) :
    RunsP o pf G.plugin (com.text ++ ((CPlugin.mk nm g as foot).text ++ X)) ws
      (.plugin (CPlugin.astAt o.ignoreComments pos (k + com.text.length) (com.block o.ignoreComments false false) (.mk nm g as foot))) X
      (ws ++ wl o pos (CPlugin.exc (k + com.text.length) (.mk nm g as foot))) := by
  simp only [CPlugin.text, List.append_assoc] at hk ⊢
  refine (actQ _ (seqQ (labQ (gapQ hc (name_stop hn _))) (seqQ (labQ (nameQ hp (k := k + com.text.length) hn (gap_takeWhile gapChar_name hg (by simp; decide)) (by len)))
    (gapTokQ hp (k + com.text.length + nm.text.length) (by len) hg (by decide) (by decide)
      (seqQ (labQ (h _)) (gapCloseQ hf (by decide) (by simp) (by decide)))))) ?_).w ?_
  · simp only [runAct, Frame.get, if_true, reduceCtorEq, if_false, optAttrsAt]
    cases as with
    | nil => simp only [List.isEmpty_nil, if_true, strLit_valueStrAt hn, gap_block hc, gap_block hf]; rfl
    | cons a as => simp only [List.isEmpty_cons, Bool.false_eq_true, if_false, strLit_valueStrAt hn, gap_block hc, gap_block hf]; rfl
  · simp only [CPlugin.exc]
    rw [List.append_assoc, ← wl_cons]

/-! ### Arrays -/

theorem elemStepQ (hp : PosFn pf pos D) {pre com : Gap} {v : CVal} {X : Bytes} {k : Nat} {ws : List Bytes} (hok : elemsOk false [.mk pre com v])
    (hk : k + (elemsText false [.mk pre com v] ++ X).length = D)
    (h : ValQ o pf pos (k + (pre.text.length + 1) + com.text.length) v X) :
    RunsP o pf elemStepEx (elemsText false [.mk pre com v] ++ X) ws
      (.attr (withComment (com.block o.ignoreComments true false) (v.astAt o.ignoreComments pos (k + (pre.text.length + 1) + com.text.length)))) X
      (ws ++ wl o pos (elemsExc false k [.mk pre com v])) := by
  obtain ⟨h0, h1, hv, hp', _⟩ := hok
  have hp' := hp' rfl
  simp only [elemsText, Bool.false_eq_true, if_false, List.append_assoc, List.nil_append] at hk ⊢
  refine (actQ _ (gapTokQ hp k hk h0 (by decide) (by decide) (seqQ (labQ (gapQ h1 (cval_stop hv _))) (seqQ (labQ (refQ (r := .value) (h _))) endQ))) ?_).w ?_
  · simp only [runAct, Frame.get, if_true, reduceCtorEq, if_false, attributeComment_cvalAt, hp', gap_block h1, Bool.false_eq_true]
  · simp only [elemsExc, Bool.false_eq_true, if_false]
    warns

theorem elemsQ {pre com : Gap} {v : CVal} {r : List CElem} {X : Bytes} {k : Nat} {ws : List Bytes} (h1 : com.Ok) (hv : v.Ok)
    (h : ValQ o pf pos (k + com.text.length) v (elemsText false r ++ X))
    (hr : ∀ ws, StepsP o pf elemStepEx (elemsText false r ++ X) ws
      ((elemsAt o.ignoreComments pos false (k + com.text.length + v.text.length) r).map Val.attr) X
      (ws ++ wl o pos (elemsExc false (k + com.text.length + v.text.length) r)))
    (hf : Fails o elemStepEx X) :
    RunsP o pf elemsEx (elemsText true (.mk pre com v :: r) ++ X) ws
      (.attrs (elemsAt o.ignoreComments pos true k (.mk pre com v :: r))) X
      (ws ++ wl o pos (elemsExc true k (.mk pre com v :: r))) := by
  simp only [elemsText, if_true, List.append_assoc, List.nil_append]
  refine (actQ _ (seqQ (labQ (gapQ h1 (cval_stop hv _))) (seqQ (labQ (refQ (r := .value) (h _)))
    (seqQ (labQ (starQ (hr _) hf)) endQ))) ?_).w ?_
  · simp only [runAct, Frame.get, if_true, reduceCtorEq, if_false, attributeComment_cvalAt, gap_block h1, toIfaceSlice]
    cases hp : v.isPlug with
    | true => simp [collectAttrs_attr, elemsAt, hp]
    | false =>
      simp only [Bool.false_eq_true, if_false]
      rw [show ∀ (x : Attr) (l : List Attr), [Val.attr x] ++ l.map Val.attr = (x :: l).map Val.attr from fun _ _ => rfl,
        collectAttrs_attr]
      simp [elemsAt, hp]
  · simp only [elemsExc, if_true, Nat.add_zero]
    warns

/-- The value of an optional list of elements. -/
def optElemsAt (ign : Bool) (pos : Nat → Pos) (k : Nat) (as : List CElem) : Val :=
  if as.isEmpty then .nil else .attrs (elemsAt ign pos true k as)

theorem arrayQ_of {as : List CElem} {foot : Gap} {X : Bytes} {k : Nat} {ws : List Bytes} (hf : foot.Ok)
    (h : ∀ ws, RunsP o pf (.opt elemsEx) (elemsText true as ++ (foot.text ++ ([93] ++ X))) ws (optElemsAt o.ignoreComments pos (k + 1) as)
      (foot.text ++ ([93] ++ X)) (ws ++ wl o pos (elemsExc true (k + 1) as))) :
    RunsP o pf G.array ((CVal.arr as foot).text ++ X) ws (.attr (CVal.astAt o.ignoreComments pos k (.arr as foot))) X
      (ws ++ wl o pos ((CVal.arr as foot).exc k)) := by
  simp only [CVal.text, List.append_assoc]
  refine (actQ _ (seqQ (litQ (by decide)) (seqQ (labQ (h _)) (gapCloseQ hf (by decide) (by simp) (by decide)))) ?_).w ?_
  · simp only [runAct, Frame.get, if_true, reduceCtorEq, if_false, optElemsAt]
    cases as with
    | nil => simp only [List.isEmpty_nil, if_true, gap_block hf]; rfl
    | cons a as => simp only [List.isEmpty_cons, Bool.false_eq_true, if_false, gap_block hf]; rfl
  · rfl

/-! ### Hashes -/

theorem keyQ (hp : PosFn pf pos D) {key : CKey} (hkey : key.Ok) {g : Gap} (hg : g.Ok) {X : Bytes}
    (hX : ∀ c, X.head? = some c → isNumChar c = false ∧ isWordChar c = false) {k : Nat} {ws : List Bytes}
    (hk : k + (key.text ++ (g.text ++ X)).length = D) :
    ∃ v, RunsP o pf (.choice [G.number, G.bareword, G.stringValue]) (key.text ++ (g.text ++ X)) ws v (g.text ++ X) ws ∧
      toHKey v = some (key.astAt pos k) := by
  cases key with
  | num t => exact ⟨_, choice1Q (numberQ hkey (gap_takeWhile gapChar_num hg fun c hc => (hX c hc).1)), rfl⟩
  | str s =>
    obtain ⟨sat, body⟩ := s
    rcases hkey with ⟨h1, c, r, h2, h3, h4, h5⟩ | h
    · simp only at h1 h2; subst h1 h2
      have e : (CKey.str ⟨.bareword, c :: r⟩).text ++ (g.text ++ X) = (c :: r) ++ (g.text ++ X) := by
        simp [CKey.text, StrLit.text, StrLit.quote]
      rw [e] at hk ⊢
      refine ⟨_, choice2Q ?_ (choice1Q (barewordQ hp ⟨c, r, rfl, h3, h4, h5⟩
        (gap_takeWhile gapChar_word hg fun c hc => (hX c hc).2) hk)), rfl⟩
      have : c ≠ 45 ∧ Spec.isDigit c = false := wordStart_num c h3
      exact number_fail_head this.1 this.2
    · refine ⟨_, choice2Q ?_ (choice2Q ?_ (choice1Q (stringQ hp h hk))), rfl⟩
      · rcases h with ⟨h, _⟩ | ⟨h, _⟩ <;> simp only at h <;> subst h <;>
          exact number_fail_head (by decide) (by decide)
      · rcases h with ⟨h, _⟩ | ⟨h, _⟩ <;> simp only at h <;> subst h <;>
          exact bareword_fail_head (by simp [CKey.text, StrLit.text, StrLit.quote]; decide)

theorem hashentryQ (hp : PosFn pf pos D) {com : Gap} {key : CKey} {g1 g2 : Gap} {v : CVal} {X : Bytes} {k : Nat} {ws : List Bytes}
    (hk : k + (com.text ++ (key.text ++ (g1.text ++ (b!"=>" ++ (g2.text ++ (v.text ++ X)))))).length = D)
    (hc : com.Ok) (hkey : key.Ok) (h1 : g1.Ok) (h2 : g2.Ok)
    (hv : v.Ok) (hpl : v.isPlug = false)
    (h : ValQ o pf pos (k + com.text.length + key.text.length + g1.text.length + 2 + g2.text.length) v X) :
    RunsP o pf G.hashentry (com.text ++ (key.text ++ (g1.text ++ (b!"=>" ++ (g2.text ++ (v.text ++ X)))))) ws
      (.hentry (.mk (pos k) (key.astAt pos (k + com.text.length))
        (v.astAt o.ignoreComments pos (k + com.text.length + key.text.length + g1.text.length + 2 + g2.text.length))
        (com.block o.ignoreComments true false))) X
      (ws ++ wl o pos ([(k + com.text.length + key.text.length, g1), (k + com.text.length + key.text.length + g1.text.length + 2, g2)] ++
        v.exc (k + com.text.length + key.text.length + g1.text.length + 2 + g2.text.length))) := by
  obtain ⟨kv, k1, k2⟩ := keyQ (o := o) hp hkey h1 (X := b!"=>" ++ (g2.text ++ (v.text ++ X))) (by simp; decide)
    (k := k + com.text.length) (ws := ws) (by len)
  refine (actQ _ (seqQ (labQ (gapQ hc (stop_head fun c h => (key_head hkey _ c h).1))) (seqQ (labQ k1)
    (gapTokQ hp (k + com.text.length + key.text.length) (by len) h1 (by decide) (by decide)
      (gapSWQ hp (k + com.text.length + key.text.length + g1.text.length + 2) (by len) h2 (cval_stop hv X)
        (seqQ (labQ (refQ (r := .value) (h _))) endQ))))) ?_).w ?_
  · have hv : ∀ k, toAttr (cvalAt o.ignoreComments pos k v) = some (v.astAt o.ignoreComments pos k) := by
      intro k
      cases v <;> first | rfl | (simp [CVal.isPlug] at hpl)
    simp only [runAct, Frame.get, if_true, reduceCtorEq, if_false, k2, gap_block hc, hv, hp _ _ hk]
  · warns

theorem entryStepQ (hp : PosFn pf pos D) {sep : Bytes} {com : Gap} {key : CKey} {g1 g2 : Gap} {v : CVal} {X : Bytes} {k : Nat} {ws : List Bytes}
    (hok : entriesOk false [.mk sep com key g1 g2 v])
    (hk : k + (entriesText false [.mk sep com key g1 g2 v] ++ X).length = D)
    (h : ValQ o pf pos (k + sep.length + com.text.length + key.text.length + g1.text.length + 2 + g2.text.length) v X) :
    ∃ x, RunsP o pf entryStepEx (entriesText false [.mk sep com key g1 g2 v] ++ X) ws (.hentry x) X
      (ws ++ wl o pos (entriesExc false k [.mk sep com key g1 g2 v])) ∧
      entriesAt o.ignoreComments pos false k [.mk sep com key g1 g2 v] = [x] := by
  obtain ⟨h0, h1, hkey, h2, h3, hv, hpl, _⟩ := hok
  have h0 := h0 rfl
  simp only [entriesText, Bool.false_eq_true, if_false, List.append_assoc, List.nil_append] at hk ⊢
  have hw := sep_takeWhile h0 (X := key.text ++ (g1.text ++ (b!"=>" ++ (g2.text ++ (v.text ++ X))))) (fun c hc => (key_head hkey _ c hc).1)
  obtain ⟨wv, hwv⟩ := wsQ (o := o) (pf := pf) (fr := []) (ws := ws)
    (b := sep ++ (com.text ++ (key.text ++ (g1.text ++ (b!"=>" ++ (g2.text ++ (v.text ++ X))))))) (by rw [hw.1]; exact h0.1)
  rw [hw.2] at hwv
  refine ⟨.mk (pos (k + sep.length)) (key.astAt pos (k + sep.length + com.text.length))
      (v.astAt o.ignoreComments pos (k + sep.length + com.text.length + key.text.length + g1.text.length + 2 + g2.text.length))
      (com.block o.ignoreComments true false), (actQ _ (seqQ hwv
    (seqQ (labQ (refQ (r := .hashentry) (hashentryQ hp (k := k + sep.length) (by len) h1 hkey h2 h3 hv hpl h))) endQ)) ?_).w ?_, ?_⟩
  · simp only [runAct, Frame.get, if_true]
  · simp [entriesExc]
  · simp [entriesAt, markFirst_block]

theorem entriesQ (hp : PosFn pf pos D) {sep : Bytes} {com : Gap} {key : CKey} {g1 g2 : Gap} {v : CVal} {r : List CEntry} {X : Bytes} {k : Nat} {ws : List Bytes}
    (hk : k + (entriesText true (.mk sep com key g1 g2 v :: r) ++ X).length = D)
    (h1 : com.Ok) (hkey : key.Ok) (h2 : g1.Ok) (h3 : g2.Ok) (hv : v.Ok) (hpl : v.isPlug = false)
    (h : ValQ o pf pos (k + com.text.length + key.text.length + g1.text.length + 2 + g2.text.length) v (entriesText false r ++ X))
    (hr : ∀ ws, StepsP o pf entryStepEx (entriesText false r ++ X) ws
      ((entriesAt o.ignoreComments pos false (k + com.text.length + key.text.length + g1.text.length + 2 + g2.text.length + v.text.length) r).map Val.hentry) X
      (ws ++ wl o pos (entriesExc false (k + com.text.length + key.text.length + g1.text.length + 2 + g2.text.length + v.text.length) r)))
    (hf : Fails o entryStepEx X) :
    RunsP o pf G.hashentries (entriesText true (.mk sep com key g1 g2 v :: r) ++ X) ws
      (.hentries (entriesAt o.ignoreComments pos true k (.mk sep com key g1 g2 v :: r))) X
      (ws ++ wl o pos (entriesExc true k (.mk sep com key g1 g2 v :: r))) := by
  simp only [entriesText, if_true, List.append_assoc, List.nil_append] at hk ⊢
  refine (actQ _ (seqQ (labQ (refQ (r := .hashentry) (hashentryQ hp hk h1 hkey h2 h3 hv hpl h)))
    (seqQ (labQ (starQ (hr _) hf)) endQ)) ?_).w ?_
  · simp only [runAct, Frame.get, if_true, reduceCtorEq, if_false, toIfaceSlice]
    rw [show ∀ (x : HEntry) (l : List HEntry), Val.hentry x :: l.map Val.hentry = (x :: l).map Val.hentry from fun _ _ => rfl,
        collectHEntries_hentry]
    simp only [setFirst_eq]
    simp [entriesAt]
  · simp only [entriesExc, if_true, Nat.add_zero]
    warns

/-- The value of an optional list of entries. -/
def optEntriesAt (ign : Bool) (pos : Nat → Pos) (k : Nat) (as : List CEntry) : Val :=
  if as.isEmpty then .nil else .hentries (entriesAt ign pos true k as)

theorem hashQ_of {as : List CEntry} {foot : Gap} {X : Bytes} {k : Nat} {ws : List Bytes} (hf : foot.Ok)
    (h : ∀ ws, RunsP o pf (.opt (.ref .hashentries)) (entriesText true as ++ (foot.text ++ ([125] ++ X))) ws (optEntriesAt o.ignoreComments pos (k + 1) as)
      (foot.text ++ ([125] ++ X)) (ws ++ wl o pos (entriesExc true (k + 1) as))) :
    RunsP o pf G.hash ((CVal.hash as foot).text ++ X) ws (.attr (CVal.astAt o.ignoreComments pos k (.hash as foot))) X
      (ws ++ wl o pos ((CVal.hash as foot).exc k)) := by
  simp only [CVal.text, List.append_assoc]
  refine (actQ _ (seqQ (litQ (by decide)) (seqQ (labQ (h _)) (gapCloseQ hf (by decide) (by simp) (by decide)))) ?_).w ?_
  · simp only [runAct, Frame.get, if_true, reduceCtorEq, if_false, optEntriesAt]
    cases as with
    | nil => simp only [List.isEmpty_nil, if_true, gap_block hf]; rfl
    | cons a as => simp only [List.isEmpty_cons, Bool.false_eq_true, if_false, gap_block hf]; rfl
  · rfl

/-! ### Values -/

theorem strQ (hp : PosFn pf pos D) {s : StrLit} {X : Bytes} {k : Nat} (hk : k + (s.text ++ X).length = D) (h : s.Value) (hX : ValFollow X) :
    ValQ o pf pos k (.str s) X := by
  intro ws
  simp only [CVal.exc, wl_nil, List.append_nil, CVal.text]
  refine choice2Q (refF (str_plugin_fail h hX)) ?_
  obtain ⟨sat, body⟩ := s
  rcases h with ⟨h1, c, r, h2, h3, h4, h5⟩ | h
  · simp only at h1 h2; subst h1 h2
    have e : StrLit.text ⟨.bareword, c :: r⟩ ++ X = (c :: r) ++ X := by simp [StrLit.text, StrLit.quote]
    rw [e] at hk ⊢
    exact choice1Q (barewordQ hp ⟨c, r, rfl, h3, h4, h5⟩ hX.word hk)
  · refine choice2Q ?_ (choice1Q (stringQ hp h hk))
    rcases h with ⟨h, _⟩ | ⟨h, _⟩ <;> simp only at h <;> subst h <;>
      exact bareword_fail_head (by simp [StrLit.text, StrLit.quote]; decide)

theorem numQ {t X : Bytes} {k : Nat} (h : NumOk t) (hX : ValFollow X) : ValQ o pf pos k (.num t) X := by
  intro ws
  simp only [CVal.exc, wl_nil, List.append_nil, CVal.text]
  obtain ⟨c, r, h1, h2⟩ := num_head h X
  have hc : isWordStart c = false ∧ c ≠ 34 ∧ c ≠ 39 := by
    rcases h2 with rfl | h2
    · decide
    · clear h1; revert h2; revert c; decide +kernel
  refine choice2Q (refF (num_plugin_fail h hX)) (choice2Q (bareword_fail_head ?_) (choice2Q ?_
    (choice1Q (numberQ h hX.num))))
  · rw [h1]; simpa using hc.1
  · rw [h1, fails_stringValue]; simpa using hc.2

theorem val_arrQ {as : List CElem} {foot : Gap} {X : Bytes} {v : Val} {ws ws'} (h : RunsP o pf G.array ((CVal.arr as foot).text ++ X) ws v X ws') :
    RunsP o pf G.value ((CVal.arr as foot).text ++ X) ws v X ws' := by
  have e : (CVal.arr as foot).text ++ X = 91 :: (elemsText true as ++ (foot.text ++ ([93] ++ X))) := by simp [CVal.text]
  rw [e] at h ⊢
  refine choice2Q (refF (open_plugin_fail (.inl rfl))) (choice2Q (bareword_fail_head ?_) (choice2Q ?_
    (choice2Q (number_fail_head (by decide) (by decide)) (choice1Q (refQ h)))))
  · simp; decide
  · rw [fails_stringValue]; simp

theorem val_hashQ {as : List CEntry} {foot : Gap} {X : Bytes} {v : Val} {ws ws'} (h : RunsP o pf G.hash ((CVal.hash as foot).text ++ X) ws v X ws') :
    RunsP o pf G.value ((CVal.hash as foot).text ++ X) ws v X ws' := by
  have e : (CVal.hash as foot).text ++ X = 123 :: (entriesText true as ++ (foot.text ++ ([125] ++ X))) := by simp [CVal.text]
  rw [e] at h ⊢
  refine choice2Q (refF (open_plugin_fail (.inr rfl))) (choice2Q (bareword_fail_head ?_) (choice2Q ?_
    (choice2Q (number_fail_head (by decide) (by decide)) (choice2Q (refF (array_fail (by simp))) (choice1Q (refQ h))))))
  · simp; decide
  · rw [fails_stringValue]; simp

mutual
/-- Completeness of the rule `value`. -/
theorem valQ (o : Opts) (hp : PosFn pf pos D) : (v : CVal) → v.Ok → (X : Bytes) → ValFollow X → (k : Nat) → k + (v.text ++ X).length = D →
    ValQ o pf pos k v X
  | .str _, h, _, hX, _, hk => strQ hp hk h hX
  | .num _, h, _, hX, _, _ => numQ h hX
  | .arr es g, h, X, _, k, hk => fun ws => val_arrQ (arrayQ_of h.2 (optElemsQ o hp es h.1 g h.2 X (k + 1) (by
      simp only [CVal.text, List.append_assoc] at hk ⊢; len)))
  | .hash es g, h, X, _, k, hk => fun ws => val_hashQ (hashQ_of h.2 (optEntriesQ o hp es h.1 g h.2 X (k + 1) (by
      simp only [CVal.text, List.append_assoc] at hk ⊢; len)))
  | .plug (.mk nm g as ft), h, X, _, k, hk => fun ws => by
    have h1 := pluginQ_of (o := o) hp (com := .empty) (nm := nm) (g := g) (as := as) (foot := ft) (X := X) (k := k) (ws := ws) hk
      gap_empty_ok h.1 h.2.1 h.2.2.2
      (by
        have h2 := optAttrsQ o hp as h.2.2.1 ft h.2.2.2 X (k + nm.text.length + g.text.length + 1) (by
          simp only [CVal.text, CPlugin.text, List.append_assoc] at hk ⊢; len)
        simpa only [show Gap.empty.text = [] from rfl, List.length_nil, Nat.add_zero] using h2)
    rw [block_empty] at h1
    exact choice1Q (refQ h1)
/-- Elements of an array. -/
theorem optElemsQ (o : Opts) (hp : PosFn pf pos D) : (es : List CElem) → elemsOk true es → (g : Gap) → g.Ok → (X : Bytes) → (k : Nat) →
    k + (elemsText true es ++ (g.text ++ ([93] ++ X))).length = D → ∀ ws,
    RunsP o pf (.opt elemsEx) (elemsText true es ++ (g.text ++ ([93] ++ X))) ws (optElemsAt o.ignoreComments pos k es) (g.text ++ ([93] ++ X))
      (ws ++ wl o pos (elemsExc true k es))
  | [], _, _, hg, X, _, _ => fun ws => by
    simp only [elemsExc, wl_nil, List.append_nil]
    exact optNQ (elems_none hg X)
  | .mk _ com v :: r, h, g, hg, X, k, hk => fun ws => by
    simp only [elemsText, if_true, List.append_assoc, List.nil_append] at hk
    exact optQ (elemsQ h.2.1 h.2.2.1
      (valQ o hp v h.2.2.1 _ (follow_elems h.2.2.2.2 hg X) _ (by len)) (elemStepsQ o hp r h.2.2.2.2 g hg X _ (by len)) (elemStep_fail hg X))
/-- Further elements of an array. -/
theorem elemStepsQ (o : Opts) (hp : PosFn pf pos D) : (es : List CElem) → elemsOk false es → (g : Gap) → g.Ok → (X : Bytes) → (k : Nat) →
    k + (elemsText false es ++ (g.text ++ ([93] ++ X))).length = D → ∀ ws,
    StepsP o pf elemStepEx (elemsText false es ++ (g.text ++ ([93] ++ X))) ws ((elemsAt o.ignoreComments pos false k es).map Val.attr) (g.text ++ ([93] ++ X))
      (ws ++ wl o pos (elemsExc false k es))
  | [], _, _, _, _, _, _ => fun ws => by
    simp only [elemsExc, wl_nil, List.append_nil]
    exact .nil
  | .mk pre com v :: r, h, g, hg, X, k, hk => fun ws => by
    have h1 := (elemsOk_append _ _).1 h
    rw [elemsText_append, List.append_assoc] at hk
    rw [elemsText_append, List.append_assoc, elemsAt_append, elemsExc_append, wl_append, ← List.append_assoc ws]
    have hk2 := hk
    simp only [elemsText, Bool.false_eq_true, if_false, List.append_assoc, List.nil_append] at hk2
    have := elemStepQ (o := o) (ws := ws) hp h1.1 hk (valQ o hp v h.2.2.1 _ (follow_elems h.2.2.2.2 hg X) _ (by
      clear hk; have hk := hk2; len))
    have e : elemsAt o.ignoreComments pos false k [.mk pre com v] =
        [withComment (com.block o.ignoreComments true false) (v.astAt o.ignoreComments pos (k + (pre.text.length + 1) + com.text.length))] := by
      simp only [elemsAt, h.2.2.2.1 rfl, Bool.false_eq_true, if_false, Bool.not_false]
    rw [e]
    exact .cons this (elemStepsQ o hp r h.2.2.2.2 g hg X _ (by
      rw [List.length_append] at hk; omega) _)
/-- Entries of a hash. -/
theorem optEntriesQ (o : Opts) (hp : PosFn pf pos D) : (es : List CEntry) → entriesOk true es → (g : Gap) → g.Ok → (X : Bytes) → (k : Nat) →
    k + (entriesText true es ++ (g.text ++ ([125] ++ X))).length = D → ∀ ws,
    RunsP o pf (.opt (.ref .hashentries)) (entriesText true es ++ (g.text ++ ([125] ++ X))) ws (optEntriesAt o.ignoreComments pos k es) (g.text ++ ([125] ++ X))
      (ws ++ wl o pos (entriesExc true k es))
  | [], _, _, hg, X, _, _ => fun ws => by
    simp only [entriesExc, wl_nil, List.append_nil]
    exact optNQ (entries_none hg X)
  | .mk _ _ _ _ _ v :: r, h, g, hg, X, k, hk => fun ws => by
    have hk2 := hk
    simp only [entriesText, if_true, List.append_assoc, List.nil_append] at hk2
    exact optQ (refQ (entriesQ hp hk h.2.1 h.2.2.1 h.2.2.2.1 h.2.2.2.2.1 h.2.2.2.2.2.1 h.2.2.2.2.2.2.1
      (valQ o hp v h.2.2.2.2.2.1 _ (follow_entries h.2.2.2.2.2.2.2 hg X) _ (by clear hk; have hk := hk2; len))
      (entryStepsQ o hp r h.2.2.2.2.2.2.2 g hg X _ (by clear hk; have hk := hk2; len)) (entryStep_fail hg X)))
/-- Further entries of a hash. -/
theorem entryStepsQ (o : Opts) (hp : PosFn pf pos D) : (es : List CEntry) → entriesOk false es → (g : Gap) → g.Ok → (X : Bytes) → (k : Nat) →
    k + (entriesText false es ++ (g.text ++ ([125] ++ X))).length = D → ∀ ws,
    StepsP o pf entryStepEx (entriesText false es ++ (g.text ++ ([125] ++ X))) ws ((entriesAt o.ignoreComments pos false k es).map Val.hentry) (g.text ++ ([125] ++ X))
      (ws ++ wl o pos (entriesExc false k es))
  | [], _, _, _, _, _, _ => fun ws => by
    simp only [entriesExc, wl_nil, List.append_nil]
    exact .nil
  | .mk sep com key g1 g2 v :: r, h, g, hg, X, k, hk => fun ws => by
    have h1 := (entriesOk_append _ _).1 h
    rw [entriesText_append, List.append_assoc] at hk
    rw [entriesText_append, List.append_assoc, entriesAt_append, entriesExc_append, wl_append, ← List.append_assoc ws]
    have hk2 := hk
    simp only [entriesText, Bool.false_eq_true, if_false, List.append_assoc, List.nil_append] at hk2
    obtain ⟨x, hx, ex⟩ := entryStepQ (o := o) (ws := ws) hp h1.1 hk (valQ o hp v h.2.2.2.2.2.1 _ (follow_entries h.2.2.2.2.2.2.2 hg X) _ (by
      clear hk; have hk := hk2; len))
    rw [ex]
    exact .cons hx (entryStepsQ o hp r h.2.2.2.2.2.2.2 g hg X _ (by
      rw [List.length_append] at hk; omega) _)
/-- Attributes of a plugin. -/
theorem optAttrsQ (o : Opts) (hp : PosFn pf pos D) : (es : List CAttr) → attrsOk true es → (g : Gap) → g.Ok → (X : Bytes) → (k : Nat) →
    k + (attrsText true es ++ (g.text ++ ([125] ++ X))).length = D → ∀ ws,
    RunsP o pf (.opt attrsEx) (attrsText true es ++ (g.text ++ ([125] ++ X))) ws (optAttrsAt o.ignoreComments pos k es) (g.text ++ ([125] ++ X))
      (ws ++ wl o pos (attrsExc true k es))
  | [], _, _, hg, X, _, _ => fun ws => by
    simp only [attrsExc, wl_nil, List.append_nil]
    exact optNQ (attrs_none hg X)
  | .mk _ _ _ _ _ v :: r, h, g, hg, X, k, hk => fun ws => by
    have hk2 := hk
    simp only [attrsText, if_true, List.append_assoc, List.nil_append] at hk2
    exact optQ (attrsQ hp hk h.2.1 h.2.2.1 h.2.2.2.1 h.2.2.2.2.1 h.2.2.2.2.2.1
      (valQ o hp v h.2.2.2.2.2.1 _ (follow_attrs h.2.2.2.2.2.2 hg X) _ (by clear hk; have hk := hk2; len))
      (attrStepsQ o hp r h.2.2.2.2.2.2 g hg X _ (by clear hk; have hk := hk2; len)) (attrStep_fail hg X))
/-- Further attributes of a plugin. -/
theorem attrStepsQ (o : Opts) (hp : PosFn pf pos D) : (es : List CAttr) → attrsOk false es → (g : Gap) → g.Ok → (X : Bytes) → (k : Nat) →
    k + (attrsText false es ++ (g.text ++ ([125] ++ X))).length = D → ∀ ws,
    StepsP o pf attrStepEx (attrsText false es ++ (g.text ++ ([125] ++ X))) ws ((attrsAt o.ignoreComments pos false k es).map Val.attr) (g.text ++ ([125] ++ X))
      (ws ++ wl o pos (attrsExc false k es))
  | [], _, _, _, _, _, _ => fun ws => by
    simp only [attrsExc, wl_nil, List.append_nil]
    exact .nil
  | .mk sep com n g1 g2 v :: r, h, g, hg, X, k, hk => fun ws => by
    have h1 := (attrsOk_append _ _).1 h
    rw [attrsText_append, List.append_assoc] at hk
    rw [attrsText_append, List.append_assoc, attrsAt_append, attrsExc_append, wl_append, ← List.append_assoc ws]
    have hk2 := hk
    simp only [attrsText, Bool.false_eq_true, if_false, List.append_assoc, List.nil_append] at hk2
    obtain ⟨x, hx, ex⟩ := attrStepQ (o := o) (ws := ws) hp h1.1 hk (valQ o hp v h.2.2.2.2.2.1 _ (follow_attrs h.2.2.2.2.2.2 hg X) _ (by
      clear hk; have hk := hk2; len))
    rw [ex]
    exact .cons hx (attrStepsQ o hp r h.2.2.2.2.2.2 g hg X _ (by
      rw [List.length_append] at hk; omega) _)
end

/-- Completeness of the rule `plugin`. -/
theorem pluginQ (hp : PosFn pf pos D) {com : Gap} {p : CPlugin} (hc : com.Ok) (h : p.Ok) (X : Bytes) {k : Nat} {ws : List Bytes}
    (hk : k + (com.text ++ (p.text ++ X)).length = D) :
    RunsP o pf G.plugin (com.text ++ (p.text ++ X)) ws
      (.plugin (p.astAt o.ignoreComments pos (k + com.text.length) (com.block o.ignoreComments false false))) X
      (ws ++ wl o pos (p.exc (k + com.text.length))) := by
  obtain ⟨nm, g, as, ft⟩ := p
  refine pluginQ_of hp hk hc h.1 h.2.1 h.2.2.2 (optAttrsQ o hp as h.2.2.1 ft h.2.2.2 X _ ?_)
  simp only [CPlugin.text, List.append_assoc] at hk ⊢
  len

/-- Completeness of the rule `array`. -/
theorem arrayQ (hp : PosFn pf pos D) {es : List CElem} {g : Gap} (h : (CVal.arr es g).Ok) (X : Bytes) {k : Nat} {ws : List Bytes}
    (hk : k + ((CVal.arr es g).text ++ X).length = D) :
    RunsP o pf G.array ((CVal.arr es g).text ++ X) ws (.attr (CVal.astAt o.ignoreComments pos k (.arr es g))) X
      (ws ++ wl o pos ((CVal.arr es g).exc k)) := by
  refine arrayQ_of h.2 (optElemsQ o hp es h.1 g h.2 X _ ?_)
  simp only [CVal.text, List.append_assoc] at hk ⊢
  len

end
end Verif
