import Verif.Spec.Edited
import Verif.Proofs.TextsPrint
import Verif.Proofs.PrintCstBlock
/-
Edits with fitting plugins keep a configuration printable.
-/
namespace Verif
open Spec

/-! ### The texts of a plugin are valid if its text is -/

theorem comsTx_unfirst {b : Bool} {cs : CommentBlock} (h : ComsTx (markFirst b cs)) : ComsTx cs := by
  cases cs with
  | nil => exact h
  | cons c cs =>
    intro x hx
    rcases List.mem_cons.1 hx with rfl | hx
    · exact h { x with spaceBefore := b } (by simp [markFirst])
    · exact h x (by simp [markFirst, hx])

theorem valTx_uncom {c : CommentBlock} {a : Attr} (h : ValTx (withComment c a)) : ValTx a := by
  cases a <;> simp_all [withComment, ValTx]

theorem setv_name (a : Attr) : (settleVal a).name = a.name := by cases a <;> rw [settleVal] <;> rfl
theorem setv_comment (a : Attr) : (settleVal a).comment = a.comment := by cases a <;> rw [settleVal] <;> rfl

theorem withComment_com {c : CommentBlock} {a : Attr} (h : a ≠ .nil) : (withComment c a).comment = c := by
  cases a <;> first | rfl | exact absurd rfl h

mutual
theorem unset_val : ∀ a, ValTx (settleVal a) → ValTx a
  | .nil, h => h
  | .str _, h => h
  | .num _, h => h
  | .arr _ n as c f, h => by rw [settleVal, ValTx] at h; rw [ValTx]; exact ⟨unset_attrs as true h.1, comsTx_unfirst h.2⟩
  | .hash _ n es c f, h => by rw [settleVal, ValTx] at h; rw [ValTx]; exact ⟨unset_entries es true h.1, comsTx_unfirst h.2⟩
  | .plug _ n p c, h => by rw [settleVal, ValTx] at h; rw [ValTx]; exact unset_plugin p h
theorem unset_attrs : ∀ (as : List Attr) (b : Bool), AttrsTx (settleAttrs b as) → AttrsTx as
  | [], _, h => h
  | a :: as, b, h => by
    rw [settleAttrs, AttrsTx] at h
    rw [AttrsTx]
    obtain ⟨h1, h2, h3, h4⟩ := h
    refine ⟨by rw [withComment_name, setv_name] at h1; exact h1, ?_, unset_val a (valTx_uncom h3), unset_attrs as false h4⟩
    cases a with
    | nil => exact comsTx_nil
    | _ =>
      rw [withComment_com (by rw [settleVal]; intro h; cases h)] at h2
      exact comsTx_unfirst h2
theorem unset_entries : ∀ (es : List HEntry) (b : Bool), EntriesTx (settleEntries b es) → EntriesTx es
  | [], _, h => h
  | .mk _ k v c :: es, b, h => by
    rw [settleEntries, EntriesTx] at h
    rw [EntriesTx]
    exact ⟨by cases k <;> exact h.1, unset_val v h.2.1, comsTx_unfirst h.2.2.1, unset_entries es false h.2.2.2⟩
theorem unset_plugin : ∀ p, PlugTx (settlePlugin p) → PlugTx p
  | .mk _ n as c f, h => by
    rw [settlePlugin, PlugTx] at h
    rw [PlugTx]
    exact ⟨h.1, unset_attrs as true h.2.1, comsTx_unfirst h.2.2.1, comsTx_unfirst h.2.2.2⟩
end

theorem plugTx_iff {p : Plugin} (hp : PluginOk true p) : ValidUTF8 p.str ↔ PlugTx p := by
  have hc := plugin_comment hp
  constructor
  · intro h
    obtain ⟨t1, t2, t3⟩ := plugC_ok p 0 hp
    have ht : p.str = (mkGap [] 0 p.comment (indB 0)).text ++ (plugC 0 p).text := by
      rw [plugStr p hp, t1, mkGap_text, commentsStr_render]; simp [indB]
    have hg : (mkGap [] 0 p.comment (indB 0)).Ok := mkGap_ok rfl (indB_ws 0) fun c h => (hc c h).1
    have hgs := gap_sp false false false hg
    have hps := plugin_sp false (plugC 0 p) ((mkGap [] 0 p.comment (indB 0)).block false false false)
    rw [ht] at h
    have hx : HeadA (plugC 0 p).text := by
      have := plugin_sp false (plugC 0 p) [] comsTx_nil t2
      exact this.1
    have h1 := (validUTF8_split hx h)
    have h2 := (hps (hgs.2 h1.1) t2).2 h1.2
    rw [mkGap_block _ rfl hc, t3, pluginComment_settle] at h2
    exact unset_plugin p h2
  · intro h
    rw [plugStr p hp, commentsStr_render]
    have h1 := v_coms 0 (comsTx_plug h)
    exact validUTF8_append h1 (v_plug p 0 hp h)

/-! ### Blocks of nice elements -/

/-- What is kept of an element of a block. -/
def Nice (b : BOP) : Prop :=
  BopOk true b ∧ BopTx b ∧ ∀ x ∈ visitOne b, ∀ p, x = .plugin p ∨ x = .pluginPtr p → ¬ ElseName p.name

/-- The same of else-if blocks. -/
def NiceEs (es : List Elif) : Prop :=
  ElifsOk true es ∧ ElifsTx es ∧ ∀ x ∈ visitElifs es, ∀ p, x = .plugin p ∨ x = .pluginPtr p → ¬ ElseName p.name

theorem nice_plugin {p : Plugin} : Nice (.plugin p) ↔ Fit p := by
  unfold Nice Fit
  rw [BopOk, BopTx, visitOne]
  constructor
  · rintro ⟨⟨h1, h2⟩, h3, h4⟩
    exact ⟨h1, (plugTx_iff h1).2 h3, h2 rfl, h4 _ (by simp) p (.inl rfl)⟩
  · rintro ⟨h1, h2, h3, h4⟩
    refine ⟨⟨h1, fun _ => h3⟩, (plugTx_iff h1).1 h2, ?_⟩
    intro x hx q hq
    obtain rfl := List.mem_singleton.1 hx
    rcases hq with hq | hq <;> cases hq
    exact h4

theorem nice_block : ∀ {l : List BOP}, (∀ x ∈ l, Nice x) →
    BlockOk true l ∧ BlockTx l ∧ (∀ x ∈ visitList l, ∀ p, x = .plugin p ∨ x = .pluginPtr p → ¬ ElseName p.name) ∧ NoElse l
  | [], _ => by simp [BlockOk, BlockTx, visitList, NoElse]
  | b :: l, h => by
    obtain ⟨h1, h2, h3, h4⟩ := nice_block (l := l) fun x hx => h x (List.mem_cons_of_mem _ hx)
    have g := h b List.mem_cons_self
    refine ⟨by rw [BlockOk]; exact ⟨g.1, fun _ _ => h4, h1⟩, by rw [BlockTx]; exact ⟨g.2.1, h2⟩, ?_, ?_⟩
    · intro x hx
      rw [visitList, List.mem_append] at hx
      rcases hx with hx | hx
      · exact g.2.2 x hx
      · exact h3 x hx
    · cases b with
      | plugin p => exact g.2.2 _ (by simp [visitOne]) p (.inl rfl)
      | pluginPtr p => exact g.2.2 _ (by simp [visitOne]) p (.inr rfl)
      | nil => trivial
      | branch => trivial

theorem block_nice : ∀ {l : List BOP}, BlockOk true l → BlockTx l →
    (∀ x ∈ visitList l, ∀ p, x = .plugin p ∨ x = .pluginPtr p → ¬ ElseName p.name) → ∀ x ∈ l, Nice x
  | [], _, _, _ => by simp
  | b :: l, h1, h2, h3 => by
    rw [BlockOk] at h1
    rw [BlockTx] at h2
    rw [visitList] at h3
    intro x hx
    rcases List.mem_cons.1 hx with rfl | hx
    · exact ⟨h1.1, h2.1, fun y hy => h3 y (List.mem_append_left _ hy)⟩
    · exact block_nice h1.2.2 h2.2 (fun y hy => h3 y (List.mem_append_right _ hy)) x hx

/-! ### A rewriting with fitting plugins -/

section
variable {σ : Type} {f : Callback σ} (hf : FitCallback f)
include hf

theorem edit_nice {left right : List BOP} {b : BOP} {s s' : σ} {e : Edit} (hb : Nice b) (hl : ∀ x ∈ left, Nice x)
    (hr : ∀ x ∈ right, Nice x) (h : visitorOf f s left b right = some (s', e)) : ∀ x ∈ e.all, Nice x := by
  simp only [visitorOf, Option.map_eq_some_iff] at h
  obtain ⟨⟨s1, ops⟩, h1, h2⟩ := h
  simp only [Prod.mk.injEq] at h2
  obtain ⟨-, rfl⟩ := h2
  have hops := (hf _ _ _ _ h1).2 (by
    intro p hp
    rw [← nice_plugin]
    rcases List.mem_append.1 hp with hp | hp
    · exact hl _ hp
    · rcases List.mem_cons.1 hp with rfl | hp
      · exact hb
      · exact hr _ hp)
  have hput : ∀ o ∈ ops, ∀ x, Puts o x → Nice x := by
    intro o ho x hx
    obtain ⟨p, rfl, hp⟩ := hops o ho x hx
    exact nice_plugin.2 hp
  have hrep : ∀ (os : List CurOp) (y : BOP), Nice y → (∀ o ∈ os, ∀ x, Puts o x → Nice x) → Nice (replacedBy y os) := by
    intro os
    induction os with
    | nil => intro y hy _; exact hy
    | cons o os ih =>
      intro y hy ho
      unfold replacedBy
      rw [List.foldl_cons]
      refine ih _ ?_ fun o' ho' => ho o' (List.mem_cons_of_mem _ ho')
      cases o with
      | replace p => exact ho _ List.mem_cons_self _ (.inl rfl)
      | _ => exact hy
  intro x hx
  simp only [Edit.all, editOf, List.mem_append] at hx
  rcases hx with (hx | hx) | hx
  · simp only [beforesOf, List.mem_reverse, List.mem_filterMap] at hx
    obtain ⟨o, ho, hx⟩ := hx
    cases o <;> simp at hx
    subst hx
    exact hput _ ho _ (.inr (.inl rfl))
  · split at hx
    · cases hx
    · obtain rfl := List.mem_singleton.1 hx
      exact hrep ops b hb hput
  · simp only [aftersOf, List.mem_reverse, List.mem_filterMap] at hx
    obtain ⟨o, ho, hx⟩ := hx
    cases o <;> simp at hx
    subst hx
    exact hput _ ho _ (.inr (.inr rfl))

mutual
theorem one_nice : ∀ (b : BOP) (left right : List BOP) (s s' : σ) (l : List BOP), Nice b → (∀ x ∈ left, Nice x) →
    (∀ x ∈ right, Nice x) → rewriteOne (visitorOf f) s left b right = some (s', l) → ∀ x ∈ l, Nice x
  | .branch st c b cm ft ei (.mk est eb ecm eft), left, right, s, s', l, hb, hl, hr, h => by
    rw [rewriteOne] at h
    split at h
    · cases h
    next s1 b' h1 =>
    split at h
    · cases h
    next s2 ei' h2 =>
    split at h
    · cases h
    next s3 eb' h3 =>
    simp only [Option.some.injEq, Prod.mk.injEq] at h
    obtain ⟨-, rfl⟩ := h
    obtain ⟨k1, k2, k3⟩ := hb
    rw [BopOk, ElseOk] at k1
    rw [BopTx, ElseTx] at k2
    rw [visitOne] at k3
    have n1 := nice_block (list_nice b [] s s1 b' (by simp) (block_nice k1.2.1 k2.2.1 fun x hx => k3 x (by simp [hx])) h1)
    have n2 := elifs_nice ei s1 s2 ei' ⟨k1.2.2.2.2.1, k2.2.2.2.2.1, fun x hx => k3 x (by simp [hx])⟩ h2
    have n3 := nice_block (list_nice eb [] s2 s3 eb' (by simp) (block_nice k1.2.2.2.2.2.1 k2.2.2.2.2.2.1 fun x hx => k3 x (by simp [hx])) h3)
    intro x hx
    obtain rfl := List.mem_singleton.1 hx
    refine ⟨?_, ?_, ?_⟩
    · rw [BopOk, ElseOk]; exact ⟨k1.1, n1.1, k1.2.2.1, k1.2.2.2.1, n2.1, n3.1, k1.2.2.2.2.2.2⟩
    · rw [BopTx, ElseTx]; exact ⟨k2.1, n1.2.1, k2.2.2.1, k2.2.2.2.1, n2.2.1, n3.2.1, k2.2.2.2.2.2.2⟩
    · intro y hy
      rw [visitOne, List.mem_append, List.mem_append] at hy
      rcases hy with (hy | hy) | hy
      · exact n1.2.2.1 y hy
      · exact n2.2.2 y hy
      · exact n3.2.2.1 y hy
  | .pluginPtr p, left, right, s, s', l, hb, hl, hr, h => by rw [rewriteOne] at h; cases h
  | .plugin p, left, right, s, s', l, hb, hl, hr, h => by
    rw [rewriteOne, Option.map_eq_some_iff] at h
    obtain ⟨⟨s1, e⟩, h1, h2⟩ := h
    simp only [Prod.mk.injEq] at h2
    obtain ⟨-, rfl⟩ := h2
    exact edit_nice hf hb hl hr h1
  | .nil, left, right, s, s', l, hb, hl, hr, h => absurd hb.1 (by simp [BopOk])
theorem list_nice : ∀ (bs left : List BOP) (s s' : σ) (r : List BOP), (∀ x ∈ left, Nice x) → (∀ x ∈ bs, Nice x) →
    rewriteList (visitorOf f) s left bs = some (s', r) → ∀ x ∈ r, Nice x
  | [], left, s, s', r, hl, hb, h => by
    rw [rewriteList] at h
    simp only [Option.some.injEq, Prod.mk.injEq] at h
    obtain ⟨-, rfl⟩ := h
    exact hl
  | b :: bs, left, s, s', r, hl, hb, h => by
    rw [rewriteList] at h
    split at h
    · cases h
    next s1 l h1 =>
    have n1 := one_nice b left bs s s1 l (hb b List.mem_cons_self) hl (fun x hx => hb x (List.mem_cons_of_mem _ hx)) h1
    refine list_nice bs (left ++ l) s1 s' r ?_ (fun x hx => hb x (List.mem_cons_of_mem _ hx)) h
    intro x hx
    rcases List.mem_append.1 hx with hx | hx
    · exact hl x hx
    · exact n1 x hx
theorem elifs_nice : ∀ (es : List Elif) (s s' : σ) (r : List Elif), NiceEs es →
    rewriteElifs (visitorOf f) s es = some (s', r) → NiceEs r
  | [], s, s', r, hb, h => by
    rw [rewriteElifs] at h
    simp only [Option.some.injEq, Prod.mk.injEq] at h
    obtain ⟨-, rfl⟩ := h
    exact hb
  | .mk st c b cm ft :: es, s, s', r, hb, h => by
    rw [rewriteElifs] at h
    split at h
    · cases h
    next s1 b' h1 =>
    split at h
    · cases h
    next s2 es' h2 =>
    simp only [Option.some.injEq, Prod.mk.injEq] at h
    obtain ⟨-, rfl⟩ := h
    obtain ⟨k1, k2, k3⟩ := hb
    rw [ElifsOk] at k1
    rw [ElifsTx] at k2
    rw [visitElifs] at k3
    have n1 := nice_block (list_nice b [] s s1 b' (by simp) (block_nice k1.2.1 k2.2.1 fun x hx => k3 x (by simp [hx])) h1)
    have n2 := elifs_nice es s1 s2 es' ⟨k1.2.2.2.2, k2.2.2.2.2, fun x hx => k3 x (by simp [hx])⟩ h2
    refine ⟨?_, ?_, ?_⟩
    · rw [ElifsOk]; exact ⟨k1.1, n1.1, k1.2.2.1, k1.2.2.2.1, n2.1⟩
    · rw [ElifsTx]; exact ⟨k2.1, n1.2.1, k2.2.2.1, k2.2.2.2.1, n2.2.1⟩
    · intro y hy
      rw [visitElifs, List.mem_append] at hy
      rcases hy with hy | hy
      · exact n1.2.2.1 y hy
      · exact n2.2.2 y hy
end
end

end Verif
