import Verif.Proofs.ValInv
import Verif.Proofs.Parse
import Verif.Spec.App
/-
The blocks of a parsed configuration contain plugins and branches only: no nil elements and no
pointers.
-/
namespace Verif
open Spec

/-- The visited elements of an else-branch. -/
def ElseB.visits : ElseB → List BOP
  | .mk _ b _ _ => visitList b

/-- The visited elements of an else-if-branch. -/
def Elif.visits : Elif → List BOP
  | .mk _ _ b _ _ => visitList b

/-- The visited elements of all sections. -/
def visitSections (ss : List Section) : List BOP := ss.flatMap fun s => visitList s.bops

/-- The visited elements of a configuration. -/
def Config.visits (c : Config) : List BOP :=
  visitSections c.input ++ visitSections c.filter ++ visitSections c.output

mutual
/-- The visited elements in a parser value. -/
def Val.visits : Val → List BOP
  | .list l => Val.visitsL l
  | .ifBlock _ _ b _ _ => visitList b
  | .elif e => e.visits
  | .elseB e => e.visits
  | .branch _ _ b _ _ ei el => visitList b ++ visitElifs ei ++ el.visits
  | .sect s => visitList s.bops
  | .config c => c.visits
  | _ => []
/-- The visited elements in a list of parser values. -/
def Val.visitsL : List Val → List BOP
  | [] => []
  | v :: l => Val.visits v ++ Val.visitsL l
end

theorem mem_visitsL {l : List Val} {p : BOP} : p ∈ Val.visitsL l ↔ ∃ v ∈ l, p ∈ v.visits := by
  induction l with
  | nil => simp [Val.visitsL]
  | cons v l ih => simp [Val.visitsL, ih]

section
variable {P : BOP → Prop} (hP : ∀ p, P (.plugin p))

theorem visits_toIfaceSlice {v : Val} (h : ∀ p ∈ v.visits, P p) :
    ∀ w ∈ toIfaceSlice v, ∀ p ∈ w.visits, P p := by
  intro w hw p hp
  cases v <;> simp only [toIfaceSlice, List.mem_singleton, List.not_mem_nil] at hw
  case list l => exact h p (mem_visitsL.2 ⟨w, hw, hp⟩)
  all_goals first | (subst hw; exact h p hp) | exact hw.elim

include hP in
theorem collectBOPs_visits {l : List Val} {as : List BOP} (h : ∀ v ∈ l, ∀ p ∈ v.visits, P p)
    (hc : collectBOPs l = some as) : ∀ p ∈ visitList as, P p := by
  induction l generalizing as with
  | nil => simp [collectBOPs] at hc; subst hc; simp [visitList]
  | cons v l ih =>
    have hh := h v (List.mem_cons_self ..)
    cases v <;> simp [collectBOPs, toBOP] at hc
    all_goals
      obtain ⟨bs, hb, rfl⟩ := hc
      intro p hp
      simp only [visitList, List.mem_append] at hp
      rcases hp with hp | hp
      rotate_left
      · exact ih (fun v hv => h v (List.mem_cons_of_mem _ hv)) hb p hp
    · simp [visitOne] at hp; subst hp; exact hP _
    · rename_i el
      obtain ⟨⟩ := el
      exact hh p hp

include hP in
theorem branchOrPlugins_visits {v : Val} (h : ∀ p ∈ v.visits, P p) :
    ∀ p ∈ visitList (branchOrPlugins v), P p := by
  unfold branchOrPlugins
  cases hc : collectBOPs (toIfaceSlice v) with
  | none => simp [visitList]
  | some bs => exact collectBOPs_visits hP (visits_toIfaceSlice h) hc

theorem collectElifs_visits {l : List Val} {as : List Elif} (h : ∀ v ∈ l, ∀ p ∈ v.visits, P p)
    (hc : collectElifs l = some as) : ∀ p ∈ visitElifs as, P p := by
  induction l generalizing as with
  | nil => simp [collectElifs] at hc; subst hc; simp [visitElifs]
  | cons v l ih =>
    cases v <;> simp [collectElifs] at hc
    case elif a =>
      obtain ⟨bs, hb, rfl⟩ := hc
      obtain ⟨⟩ := a
      intro p hp
      simp only [visitElifs, List.mem_append] at hp
      rcases hp with hp | hp
      · exact h _ (List.mem_cons_self ..) p hp
      · exact ih (fun v hv => h v (List.mem_cons_of_mem _ hv)) hb p hp

theorem configLoop_visits {psc : CommentBlock} {f : Bool} {l : List Val} {c c' : Config}
    (h : ∀ v ∈ l, ∀ p ∈ v.visits, P p) (h0 : ∀ p ∈ c.visits, P p)
    (hc : configLoop psc f l c = some c') : ∀ p ∈ c'.visits, P p := by
  induction l generalizing f c with
  | nil => simp [configLoop] at hc; subst hc; exact h0
  | cons v l ih =>
    have hv := h v (List.mem_cons_self ..)
    have ht := fun v hv => h v (List.mem_cons_of_mem _ hv)
    cases v <;> simp [configLoop] at hc
    case sect s =>
      have key : ∀ s' : Section, (∀ p ∈ visitList s'.bops, P p) →
          (∀ p ∈ Config.visits { c with input := c.input ++ [s'] }, P p) ∧
          (∀ p ∈ Config.visits { c with filter := c.filter ++ [s'] }, P p) ∧
          (∀ p ∈ Config.visits { c with output := c.output ++ [s'] }, P p) := by
        intro s' hs'
        refine ⟨?_, ?_, ?_⟩ <;>
        · intro p hp
          simp only [Config.visits, visitSections, List.flatMap_append, List.mem_append, List.flatMap_cons,
            List.flatMap_nil, List.append_nil] at hp h0
          have := h0 p
          have := hs' p
          grind
      have hs' : ∀ p ∈ visitList (if f then { s with comment := psc } else s : Section).bops, P p := by
        cases f <;> exact hv
      have k := key _ hs'
      revert hc
      split <;> intro hc
      · exact ih ht k.1 hc
      · exact ih ht k.2.1 hc
      · exact ih ht k.2.2 hc
      · cases hc

end

/-- All visited elements in the value of an action satisfy `P`. -/
def ActRes.visOk (P : BOP → Prop) : ActRes → Prop
  | .val v => ∀ p ∈ v.visits, P p
  | .err v _ => ∀ p ∈ v.visits, P p
  | .panic _ => True

theorem Val.visits_ws : Val.visits .ws = [] := by simp [Val.visits]

theorem config_empty_visits : Config.empty.visits = [] := rfl

theorem runAct_visits {P : BOP → Prop} (hP : ∀ p, P (.plugin p)) (o : Opts) (a : Act) (fr : Frame) (pos : Pos)
    (text : Bytes) (w : List Bytes) (hf : ∀ l, ∀ p ∈ (fr.get l).visits, P p) :
    (runAct o a fr pos text w).visOk P := by
  have hslice := fun l => visits_toIfaceSlice (hf l)
  have happ : ∀ l k, ∀ v ∈ toIfaceSlice (fr.get l) ++ toIfaceSlice (fr.get k), ∀ p ∈ v.visits, P p := by
    intro l k v hv
    rcases List.mem_append.1 hv with hv | hv
    · exact hslice l v hv
    · exact hslice k v hv
  cases a with
  | retConfig l =>
    simp only [runAct]
    have := hf l
    cases h : fr.get l
    case config c => rw [h] at this; exact this
    all_goals simp [ActRes.visOk, Val.visits, Config.visits, visitSections, Config.empty]
  | ret l => exact hf l
  | newConfig => simp [runAct, ActRes.visOk, Val.visits, config_empty_visits]
  | config ps pss psc foot =>
    simp only [runAct]
    cases hc : configLoop (commentBlock (fr.get psc) false true) true
        (toIfaceSlice (fr.get ps) ++ toIfaceSlice (fr.get pss)) Config.empty with
    | none => simp [ActRes.visOk, Val.visits, config_empty_visits]
    | some c => 
      have := configLoop_visits (P := P) (c := Config.empty) (happ ps pss) (by simp [config_empty_visits]) hc
      exact this
  | configSection ps psc =>
    simp only [runAct]
    have := hf ps
    cases h : fr.get ps
    case sect s => rw [h] at this; exact this
    all_goals simp [ActRes.visOk, Val.visits, visitList]
  | pluginSection pt bops f =>
    simp only [runAct]
    cases hc : collectBOPs (toIfaceSlice (fr.get bops)) with
    | none => cases fr.get pt <;> trivial
    | some bs =>
      have := collectBOPs_visits hP (hslice bops) hc
      cases fr.get pt
      case ptype t => exact this
      all_goals trivial
  | elseIfComment x c =>
    simp only [runAct]
    have h2 := hf x
    cases h : fr.get x <;> try trivial
    case elif e => rw [h] at h2; obtain ⟨⟩ := e; exact h2
  | elseComment x c =>
    simp only [runAct]
    have h2 := hf x
    cases h : fr.get x <;> try trivial
    case elseB e => rw [h] at h2; obtain ⟨⟩ := e; exact h2
  | branch i ei el c =>
    simp only [runAct]
    cases hc : collectElifs (toIfaceSlice (fr.get ei)) with
    | none => simp [ActRes.visOk, Val.visits, visitList, visitElifs, ElseB.zero, ElseB.visits]
    | some eis =>
      have h3 := collectElifs_visits (hslice ei) hc
      have h1 := hf i
      have h2 := hf el
      cases hel : fr.get el <;> try trivial
      all_goals
        rw [hel] at h2
        cases hi : fr.get i <;> try trivial
        rw [hi] at h1
        simp only [ActRes.visOk, Val.visits, ElseB.zero, ElseB.visits, visitList, List.mem_append,
          List.not_mem_nil] at h1 h2 ⊢
        grind
  | branchOrPluginComment x c =>
    simp only [runAct]
    have h2 := hf x
    cases h : fr.get x
    case plugin p => obtain ⟨⟩ := p; simp [ActRes.visOk, Val.visits]
    case branch => rw [h] at h2; exact h2
    all_goals simp [ActRes.visOk, Val.visits]
  | ifBlock c b f =>
    simp only [runAct]
    have h2 := branchOrPlugins_visits hP (hf b)
    cases h : fr.get c <;> first | trivial | exact h2
  | elseIfBlock c b f =>
    simp only [runAct]
    have h2 := branchOrPlugins_visits hP (hf b)
    cases h : fr.get c <;> first | trivial | exact h2
  | elseBlock b f => exact branchOrPlugins_visits hP (hf b)
  | «attribute» n v =>
    simp only [runAct, attributeAction]
    split
    · simp [ActRes.visOk, Val.visits]
    · split <;> simp [ActRes.visOk, Val.visits]
  | _ =>
    simp only [runAct]
    repeat' split
    all_goals first | trivial | simp [ActRes.visOk, Val.visits]

/-- The invariant: every visited element is a plugin. -/
def cleanInv (o : Opts) : ValInv o where
  Q v := ∀ b ∈ v.visits, ∃ p, b = .plugin p
  I _ := True
  nil := by simp [Val.visits]
  bytes _ := by simp [Val.visits]
  list l h := by
    intro p hp
    simp only [Val.visits] at hp
    obtain ⟨v, hv, hp⟩ := mem_visitsL.1 hp
    exact h v hv p hp
  adv _ _ _ _ := trivial
  act a fr p text warns hf _ := by
    have := runAct_visits (P := fun b => ∃ p, b = .plugin p) (fun p => ⟨p, rfl⟩) o a fr p.pos text warns hf
    constructor
    · intro v h; rw [h] at this; exact this
    · intro v m h; rw [h] at this; exact this

/-- In the configuration of a successful parse all elements are plugins or branches. -/
theorem parse_clean (o : Opts) (filename data : Bytes) (ff : List FF) (c : Config) (es : List PErr)
    (h : (parse o filename data ff).1 = .done (.config c) es) :
    ∀ b ∈ c.visits, ∃ p, b = .plugin p := by
  rw [parse_finish] at h
  cases he : evalInit (parseFuel data) o data ff with
  | timeout => rw [he] at h; cases h
  | fail t => rw [he] at h; simp [finish] at h
  | panic m t => rw [he] at h; simp [finish] at h
  | ok v t =>
    rw [he] at h
    simp only [finish, ParseRes.done.injEq] at h
    obtain ⟨t', h', rfl⟩ := evalInit_ok he
    have := (cleanInv o).eval_ok gram (parseFuel data) G.init (initSt o data ff) (ValInv.fr_nil _) trivial
    rw [h'] at this
    have hq := this.1
    rw [h.1] at hq
    exact hq

end Verif
