import Verif.Model.App
import Verif.Spec.Traverse
namespace Verif
open Spec

theorem take_left' {α : Type} (a b : List α) : (a ++ b).take a.length = a := by simp
theorem drop_left' {α : Type} (a b : List α) : (a ++ b).drop a.length = b := by simp

theorem run_replace (pre post : List BOP) (x p : BOP) (st : Int) :
    (Cursor.mk (pre ++ x :: post) pre.length st).run (.replace p)
      = some ⟨pre ++ p :: post, pre.length, st⟩ := by
  simp [Cursor.run]

theorem run_insertAfter (pre post : List BOP) (x p : BOP) (st : Int) :
    (Cursor.mk (pre ++ x :: post) pre.length st).run (.insertAfter p)
      = some ⟨pre ++ x :: p :: post, pre.length, st + 1⟩ := by
  have e : pre ++ x :: post = (pre ++ [x]) ++ post := by simp
  have l : pre.length + 1 = (pre ++ [x]).length := by simp
  simp only [Cursor.run]
  rw [if_neg (by simp)]
  simp only [Int.toNat_natCast]
  rw [if_pos (by simp), e, l, take_left', drop_left']
  simp

theorem run_delete (pre post : List BOP) (x : BOP) (st : Int) :
    (Cursor.mk (pre ++ x :: post) pre.length st).run .delete
      = some ⟨pre ++ post, pre.length, st - 1⟩ := by
  have e : pre ++ x :: post = (pre ++ [x]) ++ post := by simp
  have l : pre.length + 1 = (pre ++ [x]).length := by simp
  simp only [Cursor.run]
  rw [if_neg (by simp)]
  simp only [Int.toNat_natCast]
  rw [if_pos (by simp)]
  congr 2
  · rw [take_left', e, l, drop_left']

theorem run_insertBefore (pre post : List BOP) (p : BOP) (st : Int) :
    (Cursor.mk (pre ++ post) pre.length st).run (.insertBefore p)
      = some ⟨pre ++ p :: post, pre.length, st + 1⟩ := by
  simp only [Cursor.run]
  rw [if_neg (by simp)]
  simp only [Int.toNat_natCast]
  rw [if_pos (by simp), take_left', drop_left']

theorem runAll_append (c : Cursor) (a b : List CurOp) :
    c.runAll (a ++ b) = (c.runAll a).bind (fun c' => c'.runAll b) := by
  induction a generalizing c with
  | nil => rfl
  | cons o a ih =>
    simp only [List.cons_append, Cursor.runAll]
    cases c.run o with
    | none => rfl
    | some c' => exact ih c'

theorem runAll_as (pre post : List BOP) (as : List CurOp) (h : ∀ o ∈ as, isReplaceOrAfter o = true) :
    ∀ (x : BOP) (aft : List BOP) (st : Int),
    (Cursor.mk (pre ++ x :: (aft ++ post)) pre.length st).runAll as
      = some ⟨pre ++ replacedBy x as :: ((aftersOf as ++ aft) ++ post), pre.length,
          st + (aftersOf as).length⟩ := by
  induction as with
  | nil => intro x aft st; simp [Cursor.runAll, aftersOf, replacedBy]
  | cons o as ih =>
    intro x aft st
    have ih := ih (fun o ho => h o (by simp [ho]))
    cases o with
    | delete => have := h .delete (by simp); simp [isReplaceOrAfter] at this
    | insertBefore p => have := h (.insertBefore p) (by simp); simp [isReplaceOrAfter] at this
    | replace p =>
      rw [Cursor.runAll, run_replace]
      simp only
      rw [ih p aft st]
      simp [aftersOf, replacedBy]
    | insertAfter p =>
      rw [Cursor.runAll, run_insertAfter]
      simp only
      have := ih x (p :: aft) (st + 1)
      simp only [List.cons_append] at this
      rw [this]
      simp [aftersOf, replacedBy]
      omega

theorem runAll_bs (pre : List BOP) (bs : List CurOp) (h : ∀ o ∈ bs, isBefore o = true) :
    ∀ (post : List BOP) (st : Int),
    (Cursor.mk (pre ++ post) pre.length st).runAll bs
      = some ⟨pre ++ (beforesOf bs ++ post), pre.length, st + (beforesOf bs).length⟩ := by
  induction bs with
  | nil => intro post st; simp [Cursor.runAll, beforesOf]
  | cons o bs ih =>
    intro post st
    have ih := ih (fun o ho => h o (by simp [ho]))
    cases o with
    | delete => have := h .delete (by simp); simp [isBefore] at this
    | replace p => have := h (.replace p) (by simp); simp [isBefore] at this
    | insertAfter p => have := h (.insertAfter p) (by simp); simp [isBefore] at this
    | insertBefore p =>
      rw [Cursor.runAll, run_insertBefore]
      simp only
      rw [ih (p :: post) (st + 1)]
      simp [beforesOf]
      omega

theorem beforesOf_as (as : List CurOp) (h : ∀ o ∈ as, isReplaceOrAfter o = true) : beforesOf as = [] := by
  simp only [beforesOf, List.reverse_eq_nil_iff, List.filterMap_eq_nil_iff]
  intro o ho
  have := h o ho
  cases o <;> simp_all [isReplaceOrAfter]

theorem aftersOf_bs (bs : List CurOp) (h : ∀ o ∈ bs, isBefore o = true) : aftersOf bs = [] := by
  simp only [aftersOf, List.reverse_eq_nil_iff, List.filterMap_eq_nil_iff]
  intro o ho
  have := h o ho
  cases o <;> simp_all [isBefore]

theorem replacedBy_bs (bs : List CurOp) (h : ∀ o ∈ bs, isBefore o = true) (x : BOP) :
    replacedBy x bs = x := by
  induction bs with
  | nil => rfl
  | cons o bs ih =>
    have h1 := h o (by simp)
    have ih := ih (fun o ho => h o (by simp [ho]))
    cases o <;> simp_all [isBefore, replacedBy]

theorem noDelete_as (as : List CurOp) (h : ∀ o ∈ as, isReplaceOrAfter o = true) :
    as.any isDelete = false := by
  simp only [List.any_eq_false]
  intro o ho
  have := h o ho
  cases o <;> simp_all [isReplaceOrAfter, isDelete]

theorem noDelete_bs (bs : List CurOp) (h : ∀ o ∈ bs, isBefore o = true) :
    bs.any isDelete = false := by
  simp only [List.any_eq_false]
  intro o ho
  have := h o ho
  cases o <;> simp_all [isBefore, isDelete]

/-- What a disciplined callback does to the cursor. -/
theorem runAll_disciplined (pre post : List BOP) (x : BOP) (ops : List CurOp) (h : Disciplined ops) :
    (Cursor.mk (pre ++ x :: post) pre.length 1).runAll ops
      = some ⟨pre ++ (editOf x ops).all ++ post, pre.length, (editOf x ops).all.length⟩ := by
  obtain ⟨as, bs, ha, hb, rfl | rfl⟩ := h
  · have h1 := runAll_as pre post as ha x [] 1
    simp only [List.nil_append, List.append_nil] at h1
    rw [runAll_append, h1]
    simp only [Option.bind_some]
    rw [runAll_bs pre bs hb]
    have e1 : beforesOf (as ++ bs) = beforesOf bs := by
      have := beforesOf_as as ha
      simp only [beforesOf, List.filterMap_append, List.reverse_append] at this ⊢
      rw [this]; simp
    have e2 : aftersOf (as ++ bs) = aftersOf as := by
      have := aftersOf_bs bs hb
      simp only [aftersOf, List.filterMap_append, List.reverse_append] at this ⊢
      rw [this]; simp
    have e3 : replacedBy x (as ++ bs) = replacedBy x as := by
      have := replacedBy_bs bs hb (replacedBy x as)
      simpa [replacedBy, List.foldl_append] using this
    have e4 : editOf x (as ++ bs) = ⟨beforesOf bs, [replacedBy x as], aftersOf as⟩ := by
      have nd : (as ++ bs).any isDelete = false := by
        rw [List.any_append, noDelete_as as ha, noDelete_bs bs hb]; rfl
      simp only [editOf, e1, e2, e3]
      rw [nd]
      simp
    rw [e4]
    simp [Edit.all]
    omega
  · have h1 := runAll_as pre post as ha x [] 1
    simp only [List.nil_append, List.append_nil] at h1
    rw [runAll_append, runAll_append, h1]
    simp only [Option.bind_some, Cursor.runAll, run_delete]
    rw [runAll_bs pre bs hb]
    have e1 : beforesOf (as ++ [.delete] ++ bs) = beforesOf bs := by
      have := beforesOf_as as ha
      simp only [beforesOf, List.filterMap_append, List.reverse_append] at this ⊢
      rw [this]; simp
    have e2 : aftersOf (as ++ [.delete] ++ bs) = aftersOf as := by
      have := aftersOf_bs bs hb
      simp only [aftersOf, List.filterMap_append, List.reverse_append] at this ⊢
      rw [this]; simp
    have e4 : editOf x (as ++ [.delete] ++ bs) = ⟨beforesOf bs, [], aftersOf as⟩ := by
      simp only [editOf, e1, e2, List.any_append]
      simp [isDelete]
    rw [e4]
    simp [Edit.all]
    omega

/-- The outcome of a traversal as the model of `ApplyPlugins` reports it. -/
def applyOutcome {σ α : Type} : Option (σ × α) → ApplyRes σ α
  | some (s, l) => .done s l
  | none => .panic

mutual
theorem applyLoop_eq {σ : Type} (f : Callback σ)
    (hf : ∀ s c s' ops, f s c = some (s', ops) → Disciplined ops) (bs : List BOP) :
    ∀ (n : Nat) (s : σ) (left : List BOP) (st : Int), bopsSize bs ≤ n →
      applyLoop f n s ⟨left ++ bs, left.length, st⟩
        = applyOutcome (rewriteList (visitorOf f) s left bs) := by
  intro n s left st hn
  match bs, n, hn with
  | [], 0, hn => simp [bopsSize] at hn
  | [], n + 1, _ =>
    rw [rewriteList, applyLoop]
    simp [applyOutcome]
  | b :: bs, 0, hn => simp [bopsSize] at hn
  | b :: bs, n + 1, hn =>
    simp only [bopsSize] at hn
    rw [rewriteList, applyLoop]
    rw [if_neg (by simp; omega), if_neg (by simp)]
    simp only [Int.toNat_natCast, List.getElem?_append_right (Nat.le_refl _), Nat.sub_self,
      List.getElem?_cons_zero]
    match b with
    | .branch stt cond block cm ft elifs (.mk est eblock ecm eft) =>
      simp only [BOP.size] at hn
      rw [rewriteOne]
      have h1 := applyLoop_eq f hf block n s [] 1 (by omega)
      simp only [List.nil_append, List.length_nil, Int.ofNat_zero] at h1
      simp only [h1]
      cases hr1 : rewriteList (visitorOf f) s [] block with
      | none => simp [applyOutcome]
      | some r1 =>
        obtain ⟨s1, block'⟩ := r1
        simp only [applyOutcome]
        rw [applyElifs_eq f hf elifs n s1 (by omega)]
        cases hr2 : rewriteElifs (visitorOf f) s1 elifs with
        | none => simp [applyOutcome]
        | some r2 =>
          obtain ⟨s2, elifs'⟩ := r2
          simp only [applyOutcome]
          have h3 := applyLoop_eq f hf eblock n s2 [] 1 (by omega)
          simp only [List.nil_append, List.length_nil, Int.natCast_zero] at h3
          simp only [h3]
          cases hr3 : rewriteList (visitorOf f) s2 [] eblock with
          | none => simp [applyOutcome]
          | some r3 =>
            obtain ⟨s3, eblock'⟩ := r3
            simp only [applyOutcome]
            have e : (left ++ BOP.branch stt cond block cm ft elifs (.mk est eblock ecm eft) :: bs).set
                left.length (.branch stt cond block' cm ft elifs' (.mk est eblock' ecm eft))
                = (left ++ [.branch stt cond block' cm ft elifs' (.mk est eblock' ecm eft)]) ++ bs := by
              simp
            rw [e]
            have l : (left.length : Int) + 1
                = ((left ++ [BOP.branch stt cond block' cm ft elifs' (.mk est eblock' ecm eft)]).length : Nat) := by
              simp
            rw [l, applyLoop_eq f hf bs n s3 _ 1 (by omega)]
            rfl
    | .pluginPtr p => rw [rewriteOne]; rfl
    | .plugin p =>
      rw [rewriteOne]
      simp only [visitorOf]
      cases hc : f s ⟨left ++ .plugin p :: bs, left.length, 1⟩ with
      | none => simp [applyOutcome]
      | some r =>
        obtain ⟨s', ops⟩ := r
        simp only [Option.map_some]
        rw [runAll_disciplined left bs _ ops (hf _ _ _ _ hc)]
        simp only
        have l : (left.length : Int) + ((editOf (.plugin p) ops).all.length : Nat)
            = ((left ++ (editOf (.plugin p) ops).all).length : Nat) := by simp
        rw [l, applyLoop_eq f hf bs n s' _ _ (by omega)]
    | .nil =>
      rw [rewriteOne]
      simp only [visitorOf]
      cases hc : f s ⟨left ++ .nil :: bs, left.length, 1⟩ with
      | none => simp [applyOutcome]
      | some r =>
        obtain ⟨s', ops⟩ := r
        simp only [Option.map_some]
        rw [runAll_disciplined left bs _ ops (hf _ _ _ _ hc)]
        simp only
        have l : (left.length : Int) + ((editOf .nil ops).all.length : Nat)
            = ((left ++ (editOf .nil ops).all).length : Nat) := by simp
        rw [l, applyLoop_eq f hf bs n s' _ _ (by omega)]
theorem applyElifs_eq {σ : Type} (f : Callback σ)
    (hf : ∀ s c s' ops, f s c = some (s', ops) → Disciplined ops) (es : List Elif) :
    ∀ (n : Nat) (s : σ), elifsSize es ≤ n →
      applyElifs f n s es = applyOutcome (rewriteElifs (visitorOf f) s es) := by
  intro n s hn
  match es, n, hn with
  | [], 0, hn => simp [elifsSize] at hn
  | [], n + 1, _ => simp [applyElifs, rewriteElifs, applyOutcome]
  | .mk st cond block cm ft :: es, 0, hn => simp [elifsSize] at hn
  | .mk st cond block cm ft :: es, n + 1, hn =>
    simp only [elifsSize] at hn
    rw [applyElifs, rewriteElifs]
    have h1 := applyLoop_eq f hf block n s [] 1 (by omega)
    simp only [List.nil_append, List.length_nil, Int.natCast_zero] at h1
    simp only [h1]
    cases hr1 : rewriteList (visitorOf f) s [] block with
    | none => simp [applyOutcome]
    | some r1 =>
      obtain ⟨s1, block'⟩ := r1
      simp only [applyOutcome]
      rw [applyElifs_eq f hf es n s1 (by omega)]
      cases hr2 : rewriteElifs (visitorOf f) s1 es with
      | none => simp [applyOutcome]
      | some r2 => rfl
end

theorem applyPlugins_eq {σ : Type} (f : Callback σ)
    (hf : ∀ s c s' ops, f s c = some (s', ops) → Disciplined ops) (bs : List BOP)
    (n : Nat) (s : σ) (hn : bopsSize bs ≤ n) :
    applyPlugins f n s bs = applyOutcome (rewriteList (visitorOf f) s [] bs) := by
  have := applyLoop_eq f hf bs n s [] 1 hn
  simpa [applyPlugins] using this

/-! ### The visited elements -/

/-- A visitor that also records the visited elements. -/
def loggedV {σ : Type} (g : Visitor σ) : Visitor (σ × List BOP) := fun s left b right =>
  (g s.1 left b right).map fun r => ((r.1, s.2 ++ [b]), r.2)

mutual
theorem loggedV_list {σ : Type} (g : Visitor σ) (bs : List BOP) :
    ∀ (s : σ) (log left : List BOP) (s' : σ) (log' l : List BOP),
      rewriteList (loggedV g) (s, log) left bs = some ((s', log'), l) →
      log' = log ++ visitList bs ∧ rewriteList g s left bs = some (s', l) := by
  intro s log left s' log' l h
  match bs with
  | [] =>
    simp only [rewriteList, Option.some.injEq, Prod.mk.injEq] at h ⊢
    obtain ⟨⟨rfl, rfl⟩, rfl⟩ := h
    simp [visitList]
  | b :: bs =>
    rw [rewriteList] at h ⊢
    cases h1 : rewriteOne (loggedV g) (s, log) left b bs with
    | none => rw [h1] at h; simp at h
    | some r =>
      obtain ⟨⟨s1, log1⟩, l1⟩ := r
      rw [h1] at h
      obtain ⟨e1, e2⟩ := loggedV_one g b s log left bs s1 log1 l1 h1
      obtain ⟨e3, e4⟩ := loggedV_list g bs s1 log1 _ s' log' l h
      rw [e2]
      exact ⟨by rw [e3, e1, visitList, List.append_assoc], e4⟩
theorem loggedV_one {σ : Type} (g : Visitor σ) (b : BOP) :
    ∀ (s : σ) (log left right : List BOP) (s' : σ) (log' l : List BOP),
      rewriteOne (loggedV g) (s, log) left b right = some ((s', log'), l) →
      log' = log ++ visitOne b ∧ rewriteOne g s left b right = some (s', l) := by
  intro s log left right s' log' l h
  match b with
  | .nil =>
    simp only [rewriteOne, loggedV] at h ⊢
    cases hg : g s left .nil right with
    | none => rw [hg] at h; simp at h
    | some r => rw [hg] at h; simp at h; simp [visitOne, h]
  | .plugin p =>
    simp only [rewriteOne, loggedV] at h ⊢
    cases hg : g s left (.plugin p) right with
    | none => rw [hg] at h; simp at h
    | some r => rw [hg] at h; simp at h; simp [visitOne, h]
  | .pluginPtr p => simp [rewriteOne] at h
  | .branch stt cond block cm ft elifs (.mk est eblock ecm eft) =>
    rw [rewriteOne] at h ⊢
    cases h1 : rewriteList (loggedV g) (s, log) [] block with
    | none => rw [h1] at h; simp at h
    | some r1 =>
      obtain ⟨⟨s1, log1⟩, block'⟩ := r1
      rw [h1] at h
      obtain ⟨e1, e1'⟩ := loggedV_list g block s log _ s1 log1 _ h1
      rw [e1']
      simp only at h ⊢
      cases h2 : rewriteElifs (loggedV g) (s1, log1) elifs with
      | none => rw [h2] at h; simp at h
      | some r2 =>
        obtain ⟨⟨s2, log2⟩, elifs'⟩ := r2
        rw [h2] at h
        obtain ⟨e2, e2'⟩ := loggedV_elifs g elifs s1 log1 s2 log2 _ h2
        rw [e2']
        simp only at h ⊢
        cases h3 : rewriteList (loggedV g) (s2, log2) [] eblock with
        | none => rw [h3] at h; simp at h
        | some r3 =>
          obtain ⟨⟨s3, log3⟩, eblock'⟩ := r3
          rw [h3] at h
          obtain ⟨e3, e3'⟩ := loggedV_list g eblock s2 log2 _ s3 log3 _ h3
          rw [e3']
          simp only [Option.some.injEq, Prod.mk.injEq] at h ⊢
          obtain ⟨⟨rfl, rfl⟩, rfl⟩ := h
          refine ⟨?_, rfl, rfl⟩
          rw [e3, e2, e1, visitOne]
          simp
theorem loggedV_elifs {σ : Type} (g : Visitor σ) (es : List Elif) :
    ∀ (s : σ) (log : List BOP) (s' : σ) (log' : List BOP) (l : List Elif),
      rewriteElifs (loggedV g) (s, log) es = some ((s', log'), l) →
      log' = log ++ visitElifs es ∧ rewriteElifs g s es = some (s', l) := by
  intro s log s' log' l h
  match es with
  | [] =>
    simp only [rewriteElifs, Option.some.injEq, Prod.mk.injEq] at h ⊢
    obtain ⟨⟨rfl, rfl⟩, rfl⟩ := h
    simp [visitElifs]
  | .mk st cond block cm ft :: es =>
    rw [rewriteElifs] at h ⊢
    cases h1 : rewriteList (loggedV g) (s, log) [] block with
    | none => rw [h1] at h; simp at h
    | some r1 =>
      obtain ⟨⟨s1, log1⟩, block'⟩ := r1
      rw [h1] at h
      obtain ⟨e1, e1'⟩ := loggedV_list g block s log _ s1 log1 _ h1
      rw [e1']
      simp only at h ⊢
      cases h2 : rewriteElifs (loggedV g) (s1, log1) es with
      | none => rw [h2] at h; simp at h
      | some r2 =>
        obtain ⟨⟨s2, log2⟩, es'⟩ := r2
        rw [h2] at h
        obtain ⟨e2, e2'⟩ := loggedV_elifs g es s1 log1 s2 log2 _ h2
        rw [e2']
        simp only [Option.some.injEq, Prod.mk.injEq] at h ⊢
        obtain ⟨⟨rfl, rfl⟩, rfl⟩ := h
        refine ⟨?_, rfl, rfl⟩
        rw [e2, e1, visitElifs]
        simp
end

end Verif

namespace Verif
open Spec

mutual
/-- A total visitor on a tree without `*Plugin` elements does not panic. -/
theorem rewriteList_total {σ : Type} (g : Visitor σ) (hg : ∀ s l b r, (g s l b r).isSome = true)
    (bs : List BOP) : ∀ (s : σ) (left : List BOP), (∀ p, BOP.pluginPtr p ∉ visitList bs) →
      (rewriteList g s left bs).isSome = true := by
  intro s left h
  match bs with
  | [] => simp [rewriteList]
  | b :: bs =>
    rw [rewriteList]
    have h1 := rewriteOne_total g hg b s left bs (fun p hp => h p (by simp [visitList, hp]))
    cases hr : rewriteOne g s left b bs with
    | none => rw [hr] at h1; simp at h1
    | some r =>
      exact rewriteList_total g hg bs r.1 _ (fun p hp => h p (by simp [visitList, hp]))
theorem rewriteOne_total {σ : Type} (g : Visitor σ) (hg : ∀ s l b r, (g s l b r).isSome = true)
    (b : BOP) : ∀ (s : σ) (left right : List BOP), (∀ p, BOP.pluginPtr p ∉ visitOne b) →
      (rewriteOne g s left b right).isSome = true := by
  intro s left right h
  match b with
  | .nil => simp [rewriteOne, hg]
  | .plugin p => simp [rewriteOne, hg]
  | .pluginPtr p => exact absurd (by simp [visitOne]) (h p)
  | .branch stt cond block cm ft elifs (.mk est eblock ecm eft) =>
    rw [rewriteOne]
    have h1 := rewriteList_total g hg block s [] (fun p hp => h p (by simp [visitOne, hp]))
    cases hr1 : rewriteList g s [] block with
    | none => rw [hr1] at h1; simp at h1
    | some r1 =>
      simp only
      have h2 := rewriteElifs_total g hg elifs r1.1 (fun p hp => h p (by simp [visitOne, hp]))
      cases hr2 : rewriteElifs g r1.1 elifs with
      | none => rw [hr2] at h2; simp at h2
      | some r2 =>
        simp only
        have h3 := rewriteList_total g hg eblock r2.1 [] (fun p hp => h p (by simp [visitOne, hp]))
        cases hr3 : rewriteList g r2.1 [] eblock with
        | none => rw [hr3] at h3; simp at h3
        | some r3 => simp
theorem rewriteElifs_total {σ : Type} (g : Visitor σ) (hg : ∀ s l b r, (g s l b r).isSome = true)
    (es : List Elif) : ∀ (s : σ), (∀ p, BOP.pluginPtr p ∉ visitElifs es) →
      (rewriteElifs g s es).isSome = true := by
  intro s h
  match es with
  | [] => simp [rewriteElifs]
  | .mk st cond block cm ft :: es =>
    rw [rewriteElifs]
    have h1 := rewriteList_total g hg block s [] (fun p hp => h p (by simp [visitElifs, hp]))
    cases hr1 : rewriteList g s [] block with
    | none => rw [hr1] at h1; simp at h1
    | some r1 =>
      simp only
      have h2 := rewriteElifs_total g hg es r1.1 (fun p hp => h p (by simp [visitElifs, hp]))
      cases hr2 : rewriteElifs g r1.1 es with
      | none => rw [hr2] at h2; simp at h2
      | some r2 => simp
end

end Verif
