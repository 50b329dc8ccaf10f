import Verif.Proofs.Clean
import Verif.Proofs.Traverse
/-
The validator of `lint` (walk) as a fold over the plugins of a configuration.
-/
namespace Verif
open Spec

/-- The effect of `walk` on the validator, for one plugin. -/
def walkP (v : Validator) (p : Plugin) : Validator :=
  let v := { v with count := v.count + 1 }
  match idOf p with
  | some i =>
    if v.allIDs.contains i then { v with duplicateIDs := v.duplicateIDs ++ [pluginRef p] }
    else { v with allIDs := i :: v.allIDs }
  | none =>
    if v.autoFix then { v with changed := true }
    else { v with noIDs := v.noIDs ++ [pluginRef p] }

/-- What `walk` leaves in place of a plugin. -/
def walkB (v : Validator) (p : Plugin) : BOP :=
  if v.autoFix then fixPlugin (v.count + 1) p else .plugin p

theorem addID_eq (p : Plugin) (k : Nat) : addID p k = appendID (madeUpID k p) p := by
  obtain ⟨⟩ := p; rfl

theorem visitorOf_walk (v : Validator) (left right : List BOP) (p : Plugin) :
    visitorOf walk v left (.plugin p) right = some (walkP v p, ⟨[], [walkB v p], []⟩) := by
  have hc : (⟨left ++ .plugin p :: right, left.length, 1⟩ : Cursor).plugin = some p := by
    simp [Cursor.plugin]
  simp only [visitorOf, walk, hc, walkP, walkB, idOf, fixPlugin]
  cases hid : p.id <;> simp only
  · split <;> simp [editOf, beforesOf, aftersOf, replacedBy]
  all_goals
    split <;> simp [editOf, beforesOf, aftersOf, replacedBy, isDelete, addID_eq]

theorem walkP_count (v : Validator) (p : Plugin) : (walkP v p).count = v.count + 1 := by
  unfold walkP; simp only; split <;> split <;> rfl

theorem walkP_autoFix (v : Validator) (p : Plugin) : (walkP v p).autoFix = v.autoFix := by
  unfold walkP; simp only; split <;> split <;> rfl

theorem fold_count (v : Validator) (ps : List Plugin) : (ps.foldl walkP v).count = v.count + ps.length := by
  induction ps generalizing v with
  | nil => rfl
  | cons p ps ih => rw [List.foldl_cons, ih, walkP_count, List.length_cons]; omega

theorem fold_autoFix (v : Validator) (ps : List Plugin) : (ps.foldl walkP v).autoFix = v.autoFix := by
  induction ps generalizing v with
  | nil => rfl
  | cons p ps ih => rw [List.foldl_cons, ih, walkP_autoFix]

mutual
theorem rewriteOne_walk (b : BOP) (v : Validator) (left right : List BOP)
    (h : ∀ x ∈ visitOne b, ∃ p, x = .plugin p) :
    rewriteOne (visitorOf walk) v left b right = some ((pluginsOne b).foldl walkP v,
      [if v.autoFix then numberOne fixPlugin v.count b else b]) := by
  match b with
  | .nil => obtain ⟨p, hp⟩ := h .nil (by simp [visitOne]); cases hp
  | .pluginPtr q => obtain ⟨p, hp⟩ := h (.pluginPtr q) (by simp [visitOne]); cases hp
  | .plugin p =>
    simp only [rewriteOne, visitorOf_walk, Option.map_some, Edit.all, pluginsOne, List.foldl_cons,
      List.foldl_nil, walkB, numberOne, List.nil_append, List.append_nil]
  | .branch st cond block cm ft elifs (.mk est eblock ecm eft) =>
    simp only [visitOne, List.mem_append] at h
    simp only [rewriteOne, pluginsOne, List.foldl_append]
    rw [rewriteList_walk block v [] (fun x hx => h x (.inl (.inl hx)))]
    simp only
    rw [rewriteElifs_walk elifs _ (fun x hx => h x (.inl (.inr hx)))]
    simp only
    rw [rewriteList_walk eblock _ [] (fun x hx => h x (.inr hx))]
    simp only [List.nil_append, numberOne, fold_count, fold_autoFix]
    cases v.autoFix <;> simp [Nat.add_assoc]
theorem rewriteList_walk (bs : List BOP) (v : Validator) (left : List BOP)
    (h : ∀ x ∈ visitList bs, ∃ p, x = .plugin p) :
    rewriteList (visitorOf walk) v left bs = some ((pluginsList bs).foldl walkP v,
      left ++ (if v.autoFix then numberList fixPlugin v.count bs else bs)) := by
  match bs with
  | [] => simp [rewriteList, pluginsList, numberList]
  | b :: bs =>
    simp only [visitList, List.mem_append] at h
    simp only [rewriteList, pluginsList, List.foldl_append]
    rw [rewriteOne_walk b v left bs (fun x hx => h x (.inl hx))]
    simp only
    rw [rewriteList_walk bs _ _ (fun x hx => h x (.inr hx))]
    simp only [numberList, fold_count, fold_autoFix]
    cases v.autoFix <;> simp
theorem rewriteElifs_walk (es : List Elif) (v : Validator)
    (h : ∀ x ∈ visitElifs es, ∃ p, x = .plugin p) :
    rewriteElifs (visitorOf walk) v es = some ((pluginsElifs es).foldl walkP v,
      (if v.autoFix then numberElifs fixPlugin v.count es else es)) := by
  match es with
  | [] => simp [rewriteElifs, pluginsElifs, numberElifs]
  | .mk st cond block cm ft :: es =>
    simp only [visitElifs, List.mem_append] at h
    simp only [rewriteElifs, pluginsElifs, List.foldl_append]
    rw [rewriteList_walk block v [] (fun x hx => h x (.inl hx))]
    simp only
    rw [rewriteElifs_walk es _ (fun x hx => h x (.inr hx))]
    simp only [numberElifs, fold_count, fold_autoFix]
    cases v.autoFix <;> simp
end

theorem walk_disciplined : ∀ s c s' ops, walk s c = some (s', ops) → Disciplined ops := by
  intro s c s' ops h
  simp only [walk] at h
  cases hc : c.plugin with
  | none => rw [hc] at h; cases h
  | some p =>
    rw [hc] at h
    simp only at h
    cases hid : p.id <;> rw [hid] at h <;> simp only at h <;> split at h <;>
      simp only [Option.some.injEq, Prod.mk.injEq] at h <;> obtain ⟨-, rfl⟩ := h
    all_goals first
      | exact ⟨[], [], by simp, by simp, .inl rfl⟩
      | exact ⟨[.replace _], [], by simp [isReplaceOrAfter], by simp, .inl rfl⟩

theorem lintSections_eq (ss : List Section) (v : Validator)
    (h : ∀ x ∈ visitSections ss, ∃ p, x = .plugin p) :
    lintSections v ss = some ((pluginsSections ss).foldl walkP v,
      if v.autoFix then numberSections fixPlugin v.count ss else ss) := by
  induction ss generalizing v with
  | nil => simp [lintSections, pluginsSections, numberSections]
  | cons s ss ih =>
    simp only [visitSections, List.flatMap_cons, List.mem_append] at h
    simp only [lintSections]
    rw [applyPlugins_eq walk walk_disciplined _ _ _ (by omega),
      rewriteList_walk s.bops v [] (fun x hx => h x (.inl hx))]
    simp only [applyOutcome]
    rw [ih _ (fun x hx => h x (.inr hx))]
    simp only [pluginsSections, List.flatMap_cons, List.foldl_append, numberSections, fold_count, fold_autoFix]
    cases v.autoFix <;> simp

/-- The validator before the walk. -/
def Validator.init (autoFix : Bool) : Validator := ⟨0, [], autoFix, false, [], []⟩

theorem lintConfig_eq (autoFix : Bool) (c : Config) (h : ∀ x ∈ c.visits, ∃ p, x = .plugin p) :
    lintConfig autoFix c = some ((plugins c).foldl walkP (Validator.init autoFix),
      if autoFix then fixIDs c else c) := by
  simp only [Config.visits, List.mem_append] at h
  simp only [lintConfig]
  rw [lintSections_eq _ _ (fun x hx => h x (.inl (.inl hx)))]
  simp only
  rw [lintSections_eq _ _ (fun x hx => h x (.inl (.inr hx)))]
  simp only
  rw [lintSections_eq _ _ (fun x hx => h x (.inr hx))]
  simp only [plugins, List.foldl_append, Validator.init, fold_count, fold_autoFix, fixIDs, numberConfig]
  cases autoFix <;> simp

theorem idOf_eq {p : Plugin} : (idOf p).isNone = true ↔ idOf p = none := by simp

/-- What the fold collects. -/
theorem fold_walk (ps : List Plugin) (v : Validator) (E : List Plugin)
    (hE : ∀ i, i ∈ v.allIDs ↔ ∃ q ∈ E, idOf q = some i) :
    (ps.foldl walkP v).noIDs = v.noIDs ++ (if v.autoFix then [] else (withoutID ps).map pluginRef) ∧
    (ps.foldl walkP v).duplicateIDs = v.duplicateIDs ++ (repeatedID E ps).map pluginRef ∧
    (ps.foldl walkP v).changed = (v.changed || (v.autoFix && !(withoutID ps).isEmpty)) := by
  induction ps generalizing v E with
  | nil => cases v.autoFix <;> simp [withoutID, repeatedID]
  | cons p ps ih =>
    have hE' : ∀ i, i ∈ (walkP v p).allIDs ↔ ∃ q ∈ E ++ [p], idOf q = some i := by
      intro i
      simp only [List.mem_append, List.mem_singleton, walkP]
      cases hid : idOf p with
      | none =>
        simp only
        have : i ∈ v.allIDs ↔ ∃ q, (q ∈ E ∨ q = p) ∧ idOf q = some i := by
          rw [hE]
          constructor
          · rintro ⟨q, h1, h2⟩; exact ⟨q, .inl h1, h2⟩
          · rintro ⟨q, h1 | rfl, h2⟩
            · exact ⟨q, h1, h2⟩
            · rw [hid] at h2; cases h2
        split <;> exact this
      | some j =>
        simp only
        split
        · rename_i hc
          have hj : j ∈ v.allIDs := by simpa using hc
          simp only
          rw [hE]
          constructor
          · rintro ⟨q, h1, h2⟩; exact ⟨q, .inl h1, h2⟩
          · rintro ⟨q, h1 | rfl, h2⟩
            · exact ⟨q, h1, h2⟩
            · rw [hid] at h2; injection h2 with h2; subst h2; exact (hE j).1 hj
        · simp only [List.mem_cons]
          rw [hE]
          constructor
          · rintro (rfl | ⟨q, h1, h2⟩)
            · exact ⟨p, .inr rfl, hid⟩
            · exact ⟨q, .inl h1, h2⟩
          · rintro ⟨q, h1 | rfl, h2⟩
            · exact .inr ⟨q, h1, h2⟩
            · rw [hid] at h2; injection h2 with h2; exact .inl h2.symm
    obtain ⟨h1, h2, h3⟩ := ih (walkP v p) (E ++ [p]) hE'
    rw [List.foldl_cons, h1, h2, h3, walkP_autoFix]
    simp only [repeatedID, withoutID, List.filter_cons]
    cases hid : idOf p with
    | none =>
      simp only [walkP, hid]
      cases ha : v.autoFix <;> simp [ha]
    | some j =>
      have hq : (∃ q ∈ E, idOf q = some j) ↔ j ∈ v.allIDs := (hE j).symm
      simp only [walkP, hid]
      by_cases hj : j ∈ v.allIDs
      · have := hq.2 hj
        cases ha : v.autoFix <;> simp [hj, this]
      · have hn : ¬ ∃ q ∈ E, idOf q = some j := fun h => hj (hq.1 h)
        have hn' : ∀ x ∈ E, ¬ idOf x = some j := fun x hx h => hn ⟨x, hx, h⟩
        cases ha : v.autoFix <;> simp [hj] <;> grind

end Verif
