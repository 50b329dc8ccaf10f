import Verif.Spec.App
import Verif.Spec.Printable
import Verif.Proofs.Texts
import Verif.Proofs.FloatFmt
import Verif.Proofs.OkMap
/-
Giving ids to plugins keeps a configuration printable, and the ids of a configuration do not depend
on positions and comments.
-/
namespace Verif
open Verif.Spec

/-! ### The added attribute -/

/-- The plugin has an id or a name that can stand between double quotes. -/
def FixOk (p : Plugin) : Prop := idOf p = none → QuotesEscaped 34 p.name

theorem quotesEscaped_append {q : UInt8} {a b : Bytes} (ha : QuotesEscaped q a) (hb : ∀ c ∈ b, c ≠ q) :
    QuotesEscaped q (a ++ b) := by
  intro l r h
  rcases List.append_eq_append_iff.1 h with ⟨x, rfl, h2⟩ | ⟨x, rfl, h2⟩
  · exact absurd rfl (hb q (by rw [h2]; simp))
  · cases x with
    | nil => simp at h2; exact absurd rfl (hb q (by rw [← h2]; simp))
    | cons y x =>
      simp at h2
      obtain ⟨rfl, rfl⟩ := h2
      exact ha l x rfl

theorem getLast_append {a b : Bytes} (h : b ≠ []) : (a ++ b).getLast? = b.getLast? := by
  obtain ⟨b', c, rfl⟩ := List.eq_nil_or_concat b |>.resolve_left h
  rw [List.concat_eq_append, ← List.append_assoc]
  simp

theorem madeUp_body {k : Nat} {p : Plugin} (h : QuotesEscaped 34 p.name) : StringBody 34 (madeUpID k p) := by
  have hd := natToBytes_digits k
  unfold madeUpID
  constructor
  · refine quotesEscaped_append (quotesEscaped_append h (by simp)) ?_
    rintro c hc rfl
    exact absurd (hd _ hc).1 (by decide)
  · rw [getLast_append (natToBytes_ne k)]
    intro hl
    exact absurd (hd _ (List.mem_of_getLast? hl)).2 (by decide)

theorem idName : NameOk b!"id" := ⟨⟨.bareword, b!"id"⟩, .inl ⟨rfl, by decide, by decide⟩, rfl⟩

theorem attrsFix_append {t : Bool} : ∀ {as bs : List Attr}, AttrsOk t as → AttrsOk t bs → AttrsOk t (as ++ bs)
  | [], _, _, h => h
  | a :: as, bs, h1, h2 => by
    rw [AttrsOk] at h1
    rw [List.cons_append, AttrsOk]
    exact ⟨h1.1, h1.2.1, h1.2.2.1, attrsFix_append h1.2.2.2 h2⟩

theorem attrsTx_append : ∀ {as bs : List Attr}, AttrsTx as → AttrsTx bs → AttrsTx (as ++ bs)
  | [], _, _, h => h
  | a :: as, bs, h1, h2 => by
    rw [AttrsTx] at h1
    rw [List.cons_append, AttrsTx]
    exact ⟨h1.1, h1.2.1, h1.2.2.1, attrsTx_append h1.2.2.2 h2⟩

theorem addedOk {t : Bool} {i : Bytes} {p : Plugin} (hi : StringBody 34 i) (h : PluginOk t p) : PluginOk t (appendID i p) := by
  obtain ⟨st, n, as, c, f⟩ := p
  rw [PluginOk] at h
  rw [appendID, PluginOk]
  refine ⟨h.1, attrsFix_append h.2.1 ?_, h.2.2⟩
  rw [AttrsOk, AttrsOk, ValueOk]
  exact ⟨.inr (.inl ⟨rfl, hi⟩), idName, by simp [CommentsOk, Attr.comment], trivial⟩

theorem addedTx {i : Bytes} {p : Plugin} (hi : ValidUTF8 i) (h : PlugTx p) : PlugTx (appendID i p) := by
  obtain ⟨st, n, as, c, f⟩ := p
  rw [PlugTx] at h
  rw [appendID, PlugTx]
  refine ⟨h.1, attrsTx_append h.2.1 ?_, h.2.2⟩
  rw [AttrsTx, AttrsTx, ValTx]
  exact ⟨validUTF8_ascii (b := b!"id") (by decide), by simp [ComsTx, Attr.comment], hi, trivial⟩

theorem madeUp_valid {k : Nat} {p : Plugin} (h : PlugTx p) : ValidUTF8 (madeUpID k p) := by
  obtain ⟨st, n, as, c, f⟩ := p
  rw [PlugTx] at h
  refine validUTF8_append (validUTF8_append h.1 (validUTF8_ascii (by decide))) (validUTF8_ascii ?_)
  simp only [asciiB, List.all_eq_true, decide_eq_true_eq]
  intro c hc
  have := (natToBytes_digits k c hc).2
  exact UInt8.lt_of_le_of_lt this (by decide)

theorem appendID_name (i : Bytes) (p : Plugin) : (appendID i p).name = p.name := by cases p; rfl

/-! ### In the tree -/

/-- What a block element is named. -/
def fixName (k : Nat) (p : Plugin) : (fixPlugin k p = .plugin p) ∨
    ∃ q, fixPlugin k p = .pluginPtr q ∧ q.name = p.name := by
  unfold fixPlugin
  split
  · exact .inl rfl
  · exact .inr ⟨_, rfl, appendID_name _ _⟩

theorem isOpen_number (k : Nat) (b : BOP) : (numberOne fixPlugin k b).isOpen = b.isOpen := by
  cases b with
  | nil => rfl
  | plugin p => rw [numberOne]; rcases fixName (k + 1) p with h | ⟨q, h, -⟩ <;> rw [h] <;> rfl
  | pluginPtr p => rw [numberOne]; rcases fixName (k + 1) p with h | ⟨q, h, -⟩ <;> rw [h] <;> rfl
  | branch st cond block cm ft elifs el =>
    obtain ⟨est, eblock, ecm, eft⟩ := el
    rw [numberOne]
    cases eblock with
    | nil => rw [numberList]; cases ecm <;> cases eft <;> rfl
    | cons b bs => rw [numberList]; rfl

theorem noElse_number (k : Nat) (bs : List BOP) (h : NoElse bs) : NoElse (numberList fixPlugin k bs) := by
  cases bs with
  | nil => rw [numberList]; trivial
  | cons b bs =>
    rw [numberList]
    cases b with
    | nil => rw [numberOne]; trivial
    | plugin p =>
      rw [numberOne]
      rcases fixName (k + 1) p with h' | ⟨q, h', hn⟩ <;> rw [h']
      · exact h
      · simp only [NoElse, hn]; exact h
    | pluginPtr p =>
      rw [numberOne]
      rcases fixName (k + 1) p with h' | ⟨q, h', hn⟩ <;> rw [h']
      · exact h
      · simp only [NoElse, hn]; exact h
    | branch st cond block cm ft elifs el => cases el; rw [numberOne]; trivial

theorem fixed_ok {t : Bool} {k : Nat} {p : Plugin} (hp : FixOk p) (h : PluginOk t p ∧ (t = true → ¬ IfLike p.name)) :
    BopOk t (fixPlugin k p) := by
  unfold fixPlugin
  split
  · rw [BopOk]; exact h
  · rename_i hn
    rw [BopOk]
    exact ⟨addedOk (madeUp_body (hp hn)) h.1, by rw [appendID_name]; exact h.2⟩

theorem fixed_tx {k : Nat} {p : Plugin} (h : PlugTx p) : BopTx (fixPlugin k p) := by
  unfold fixPlugin
  split
  · rw [BopTx]; exact h
  · rw [BopTx]
    exact addedTx (madeUp_valid h) h

mutual
theorem numberOne_ok {t : Bool} : ∀ (b : BOP) (k : Nat), (∀ p ∈ pluginsOne b, FixOk p) → BopOk t b →
    BopOk t (numberOne fixPlugin k b)
  | .nil, _, _, h => by rw [BopOk] at h; exact h.elim
  | .plugin p, k, hp, h => by
    rw [BopOk] at h
    exact fixed_ok (hp p (by simp [pluginsOne])) h
  | .pluginPtr p, k, hp, h => by
    rw [BopOk] at h
    exact fixed_ok (hp p (by simp [pluginsOne])) h
  | .branch st c b cm f ei (.mk est eb ecm ef), k, hp, h => by
    rw [BopOk, ElseOk] at h
    obtain ⟨h1, h2, h3, h4, h5, h6, h7⟩ := h
    simp only [pluginsOne, List.mem_append] at hp
    rw [numberOne, BopOk, ElseOk]
    exact ⟨h1, numberList_ok b k (fun p h => hp p (.inl (.inl h))) h2, h3, h4,
      numberElifs_ok ei _ (fun p h => hp p (.inl (.inr h))) h5, numberList_ok eb _ (fun p h => hp p (.inr h)) h6, h7⟩
theorem numberList_ok {t : Bool} : ∀ (bs : List BOP) (k : Nat), (∀ p ∈ pluginsList bs, FixOk p) → BlockOk t bs →
    BlockOk t (numberList fixPlugin k bs)
  | [], _, _, h => by rw [numberList]; exact h
  | b :: bs, k, hp, h => by
    rw [BlockOk] at h
    simp only [pluginsList, List.mem_append] at hp
    rw [numberList, BlockOk]
    refine ⟨numberOne_ok b k (fun p h => hp p (.inl h)) h.1, ?_, numberList_ok bs _ (fun p h => hp p (.inr h)) h.2.2⟩
    intro ht ho
    rw [isOpen_number] at ho
    exact noElse_number _ _ (h.2.1 ht ho)
theorem numberElifs_ok {t : Bool} : ∀ (es : List Elif) (k : Nat), (∀ p ∈ pluginsElifs es, FixOk p) → ElifsOk t es →
    ElifsOk t (numberElifs fixPlugin k es)
  | [], _, _, h => by rw [numberElifs]; exact h
  | .mk st c b cm f :: es, k, hp, h => by
    rw [ElifsOk] at h
    simp only [pluginsElifs, List.mem_append] at hp
    rw [numberElifs, ElifsOk]
    exact ⟨h.1, numberList_ok b k (fun p h => hp p (.inl h)) h.2.1, h.2.2.1, h.2.2.2.1,
      numberElifs_ok es _ (fun p h => hp p (.inr h)) h.2.2.2.2⟩
end

theorem numberSections_ok {t : Bool} {pt : PluginType} : ∀ (ss : List Section) (k : Nat),
    (∀ p ∈ pluginsSections ss, FixOk p) → SectionsOk t pt ss → SectionsOk t pt (numberSections fixPlugin k ss)
  | [], _, _, h => h
  | s :: ss, k, hp, h => by
    simp only [pluginsSections, List.flatMap_cons, List.mem_append] at hp
    have h1 := h s (by simp)
    have h2 := numberSections_ok (t := t) (pt := pt) ss (k + (pluginsList s.bops).length) (fun p h => hp p (.inr h))
      (fun s hs => h s (List.mem_cons_of_mem _ hs))
    intro s' hs
    rw [numberSections] at hs
    rcases List.mem_cons.1 hs with rfl | hs
    · exact ⟨h1.1, numberList_ok _ _ (fun p h => hp p (.inl h)) h1.2.1, h1.2.2⟩
    · exact h2 s' hs

theorem fixIDs_ok {t : Bool} {c : Config} (hp : ∀ p ∈ plugins c, FixOk p) (h : ConfigOk t c) : ConfigOk t (fixIDs c) := by
  simp only [plugins, List.mem_append] at hp
  exact ⟨numberSections_ok _ _ (fun p h => hp p (.inl (.inl h))) h.1,
    numberSections_ok _ _ (fun p h => hp p (.inl (.inr h))) h.2.1,
    numberSections_ok _ _ (fun p h => hp p (.inr h)) h.2.2.1, h.2.2.2⟩

mutual
theorem numberOne_tx : ∀ (b : BOP) (k : Nat), BopTx b → BopTx (numberOne fixPlugin k b)
  | .nil, _, h => by rw [numberOne]; exact h
  | .plugin p, k, h => by
    rw [BopTx] at h
    exact fixed_tx h
  | .pluginPtr p, k, h => by
    rw [BopTx] at h
    exact fixed_tx h
  | .branch st c b cm f ei (.mk est eb ecm ef), k, h => by
    rw [BopTx, ElseTx] at h
    rw [numberOne, BopTx, ElseTx]
    obtain ⟨h1, h2, h3, h4, h5, h6, h7⟩ := h
    exact ⟨h1, numberList_tx b k h2, h3, h4, numberElifs_tx ei _ h5, numberList_tx eb _ h6, h7⟩
theorem numberList_tx : ∀ (bs : List BOP) (k : Nat), BlockTx bs → BlockTx (numberList fixPlugin k bs)
  | [], _, h => by rw [numberList]; exact h
  | b :: bs, k, h => by
    rw [BlockTx] at h
    rw [numberList, BlockTx]
    exact ⟨numberOne_tx b k h.1, numberList_tx bs _ h.2⟩
theorem numberElifs_tx : ∀ (es : List Elif) (k : Nat), ElifsTx es → ElifsTx (numberElifs fixPlugin k es)
  | [], _, h => by rw [numberElifs]; exact h
  | .mk st c b cm f :: es, k, h => by
    rw [ElifsTx] at h
    rw [numberElifs, ElifsTx]
    exact ⟨h.1, numberList_tx b k h.2.1, h.2.2.1, h.2.2.2.1, numberElifs_tx es _ h.2.2.2.2⟩
end

theorem numberSections_tx : ∀ (ss : List Section) (k : Nat),
    (∀ s ∈ ss, SectTx s) → ∀ s ∈ numberSections fixPlugin k ss, SectTx s
  | [], _, h => h
  | s :: ss, k, h => by
    have h1 := h s (by simp)
    have h2 := numberSections_tx ss (k + (pluginsList s.bops).length) (fun s hs => h s (List.mem_cons_of_mem _ hs))
    intro s' hs
    rw [numberSections] at hs
    rcases List.mem_cons.1 hs with rfl | hs
    · exact ⟨numberList_tx _ _ h1.1, h1.2⟩
    · exact h2 s' hs

theorem fixIDs_tx {c : Config} (h : ConfigTx c) : ConfigTx (fixIDs c) :=
  ⟨numberSections_tx _ _ h.1, numberSections_tx _ _ h.2.1, numberSections_tx _ _ h.2.2.1, h.2.2.2⟩

/-! ### Ids -/

theorem idLoop_map (m : AMap) : ∀ as, idLoop (m.attrs as) = idLoop as
  | [] => rfl
  | a :: as => by
    simp only [AMap.attrs, idLoop, idLoop_map m as]
    cases a <;> rfl

theorem idOf_map (m : AMap) (p : Plugin) : idOf (m.plugin p) = idOf p := by
  obtain ⟨st, n, as, c, f⟩ := p
  simp only [AMap.plugin, idOf, Plugin.id, Plugin.attrs, idLoop_map]
  cases idLoop as <;> rfl

mutual
theorem pluginsOne_map (m : AMap) : ∀ b, pluginsOne (m.bop b) = (pluginsOne b).map m.plugin
  | .nil => rfl
  | .plugin p => rfl
  | .pluginPtr p => rfl
  | .branch st c b cm f ei (.mk est eb ecm ef) => by
    simp only [AMap.bop, AMap.elseB, pluginsOne, pluginsList_map m b, pluginsElifs_map m ei, pluginsList_map m eb, List.map_append]
theorem pluginsList_map (m : AMap) : ∀ bs, pluginsList (m.bops bs) = (pluginsList bs).map m.plugin
  | [] => rfl
  | b :: bs => by simp only [AMap.bops, pluginsList, pluginsOne_map m b, pluginsList_map m bs, List.map_append]
theorem pluginsElifs_map (m : AMap) : ∀ es, pluginsElifs (m.elifs es) = (pluginsElifs es).map m.plugin
  | [] => rfl
  | .mk st c b cm f :: es => by
    simp only [AMap.elifs, AMap.elif, pluginsElifs, pluginsList_map m b, pluginsElifs_map m es, List.map_append]
end

theorem pluginsSections_map (m : AMap) (ss : List Section) : pluginsSections (ss.map m.sect) = (pluginsSections ss).map m.plugin := by
  simp only [pluginsSections, List.flatMap_map, AMap.sect, pluginsList_map, List.map_flatMap]

theorem plugins_map (m : AMap) (c : Config) (w : List Bytes) :
    plugins { m.config c with warnings := w } = (plugins c).map m.plugin := by
  simp only [plugins, AMap.config, pluginsSections_map, List.map_append]

theorem ids_skeleton (c : Config) : (plugins (skeleton c)).map idOf = (plugins c).map idOf := by
  rw [skeleton, plugins_map, List.map_map]
  exact List.map_congr_left fun p _ => idOf_map _ p

mutual
theorem pluginsOne_deref : ∀ b, pluginsOne (derefBop b) = pluginsOne b
  | .nil => rfl
  | .plugin p => rfl
  | .pluginPtr p => rfl
  | .branch st c b cm f ei (.mk est eb ecm ef) => by
    simp only [derefBop, derefElse, pluginsOne, pluginsList_deref b, pluginsElifs_deref ei, pluginsList_deref eb]
theorem pluginsList_deref : ∀ bs, pluginsList (derefBlock bs) = pluginsList bs
  | [] => rfl
  | b :: bs => by simp only [derefBlock, pluginsList, pluginsOne_deref b, pluginsList_deref bs]
theorem pluginsElifs_deref : ∀ es, pluginsElifs (derefElifs es) = pluginsElifs es
  | [] => rfl
  | .mk st c b cm f :: es => by
    simp only [derefElifs, pluginsElifs, pluginsList_deref b, pluginsElifs_deref es]
end

theorem plugins_deref (c : Config) : plugins (deref c) = plugins c := by
  simp only [plugins, deref, derefSects, pluginsSections, List.flatMap_map, pluginsList_deref]

/-! ### Positions do not matter for validity -/

mutual
theorem valTx_map : ∀ a, ValTx (AMap.noPos.attr a) ↔ ValTx a
  | .nil => by rw [AMap.attr]
  | .str a => by rw [AMap.attr, ValTx, ValTx]; exact Iff.rfl
  | .num a => by rw [AMap.attr, ValTx, ValTx]
  | .arr p n as c f => by rw [AMap.attr, ValTx, ValTx, attrsTx_map as]; exact Iff.rfl
  | .hash p n es c f => by rw [AMap.attr, ValTx, ValTx, entriesTx_map es]; exact Iff.rfl
  | .plug p n v c => by rw [AMap.attr, ValTx, ValTx, plugTx_map v]
theorem attrsTx_map : ∀ as, AttrsTx (AMap.noPos.attrs as) ↔ AttrsTx as
  | [] => by rw [AMap.attrs]
  | a :: as => by
    have h := noPos_attr a
    rw [AMap.attrs, AttrsTx, AttrsTx, valTx_map a, attrsTx_map as, h.2.1, h.2.2]
theorem entriesTx_map : ∀ es, EntriesTx (AMap.noPos.hentries es) ↔ EntriesTx es
  | [] => by rw [AMap.hentries]
  | .mk p k v c :: es => by
    have : KeyTx (AMap.noPos.hkey k) ↔ KeyTx k := by cases k <;> exact Iff.rfl
    rw [AMap.hentries, AMap.hentry, EntriesTx, EntriesTx, valTx_map v, entriesTx_map es, this]; exact Iff.rfl
theorem plugTx_map : ∀ p, PlugTx (AMap.noPos.plugin p) ↔ PlugTx p
  | .mk p n as c f => by rw [AMap.plugin, PlugTx, PlugTx, attrsTx_map as]; exact Iff.rfl
end

theorem selTx_map (s : Selector) : SelTx (AMap.noPos.selector s) ↔ SelTx s := by
  simp only [SelTx, AMap.selector, List.mem_map, forall_exists_index, and_imp, forall_apply_eq_imp_iff₂]; exact Iff.rfl

theorem rvTx_map (r : Rvalue) : RvTx (AMap.noPos.rvalue r) ↔ RvTx r := by
  cases r with
  | arr p n as c f => rw [AMap.rvalue, RvTx, RvTx, attrsTx_map]; exact Iff.rfl
  | sel s => exact selTx_map s
  | _ => exact Iff.rfl

mutual
theorem exprTx_map : ∀ e, ExprTx (AMap.noPos.expr e) ↔ ExprTx e
  | .nil => by rw [AMap.expr]
  | .cond p b c => by rw [AMap.expr, ExprTx, ExprTx, condTx_map c]
  | .negCond p b c => by rw [AMap.expr, ExprTx, ExprTx, condTx_map c]
  | .negSel p b s => by rw [AMap.expr, ExprTx, ExprTx, selTx_map]
  | .inE p b l r => by rw [AMap.expr, ExprTx, ExprTx, rvTx_map, rvTx_map]
  | .notIn p b l r => by rw [AMap.expr, ExprTx, ExprTx, rvTx_map, rvTx_map]
  | .rval p b r => by rw [AMap.expr, ExprTx, ExprTx, rvTx_map]
  | .cmp p b l o r => by rw [AMap.expr, ExprTx, ExprTx, rvTx_map, rvTx_map]
  | .re p b l o r => by rw [AMap.expr, ExprTx, ExprTx, rvTx_map, rvTx_map]
theorem condTx_map : ∀ es, CondTx (AMap.noPos.cond es) ↔ CondTx es
  | [] => by rw [AMap.cond]
  | e :: es => by rw [AMap.cond, CondTx, CondTx, exprTx_map e, condTx_map es]
end

mutual
theorem bopTx_map : ∀ b, BopTx (AMap.noPos.bop b) ↔ BopTx b
  | .nil => by rw [AMap.bop]
  | .plugin p => by rw [AMap.bop, BopTx, BopTx, plugTx_map]
  | .pluginPtr p => by rw [AMap.bop, BopTx, BopTx, plugTx_map]
  | .branch p c b cm f ei el => by
    rw [AMap.bop, BopTx, BopTx, condTx_map, blockTx_map b, elifsTx_map ei, elseTx_map el]; exact Iff.rfl
theorem blockTx_map : ∀ bs, BlockTx (AMap.noPos.bops bs) ↔ BlockTx bs
  | [] => by rw [AMap.bops]
  | b :: bs => by rw [AMap.bops, BlockTx, BlockTx, bopTx_map b, blockTx_map bs]
theorem elifsTx_map : ∀ es, ElifsTx (AMap.noPos.elifs es) ↔ ElifsTx es
  | [] => by rw [AMap.elifs]
  | .mk p c b cm f :: es => by
    rw [AMap.elifs, AMap.elif, ElifsTx, ElifsTx, condTx_map, blockTx_map b, elifsTx_map es]; exact Iff.rfl
theorem elseTx_map : ∀ e, ElseTx (AMap.noPos.elseB e) ↔ ElseTx e
  | .mk p b cm f => by rw [AMap.elseB, ElseTx, ElseTx, blockTx_map b]; exact Iff.rfl
end

theorem sectTx_map (l : List Section) : (∀ s ∈ l.map AMap.noPos.sect, SectTx s) ↔ ∀ s ∈ l, SectTx s := by
  simp only [List.mem_map, forall_exists_index, and_imp, forall_apply_eq_imp_iff₂]
  refine forall_congr' fun s => imp_congr Iff.rfl ?_
  simp only [SectTx, AMap.sect, blockTx_map]
  exact Iff.rfl

theorem configTx_content (c : Config) : ConfigTx (content c) ↔ ConfigTx c := by
  unfold ConfigTx content AMap.config
  simp only [sectTx_map]
  exact Iff.rfl

end Verif
