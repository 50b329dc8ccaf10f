import Verif.Proofs.ValInv
import Verif.Proofs.Parse
import Verif.Spec.Positions
/-
Positions: the read point carries the position of its offset, and actions store only that position,
the zero position or positions of their parts.
-/
namespace Verif
open Spec

mutual
/-- Positions of a parser value. -/
def Val.poss : Val → List Pos
  | .nil => [] | .bytes _ => [] | .str _ => [] | .ptype _ => [] | .ws => [] | .comments _ => []
  | .list l => Val.possL l
  | .attr a => Attr.poss a
  | .attrs l => attrsPoss l
  | .hentry h => HEntry.poss h
  | .hentries l => hentriesPoss l
  | .plugin p => Plugin.poss p
  | .ifBlock p c b _ _ => p :: condPoss c ++ bopsPoss b
  | .elif e => Elif.poss e
  | .elseB e => ElseB.poss e
  | .branch p c b _ _ ei el => p :: condPoss c ++ bopsPoss b ++ elifsPoss ei ++ ElseB.poss el
  | .cond c => condPoss c
  | .expr e => Expr.poss e
  | .selElem s => [s.start]
  | .selector s => Selector.poss s
  | .regexp r => [r.start]
  | .boolOp b => [b.start]
  | .cmpOp b => [b.start]
  | .reOp b => [b.start]
  | .sect s => Section.poss s
  | .config c => positions c
/-- Positions of a list of parser values. -/
def Val.possL : List Val → List Pos
  | [] => []
  | v :: l => Val.poss v ++ Val.possL l
end

theorem mem_possL {l : List Val} {p : Pos} : p ∈ Val.possL l ↔ ∃ v ∈ l, p ∈ v.poss := by
  induction l with
  | nil => simp [Val.possL]
  | cons v l ih => simp [Val.possL, ih]

section
variable {P : Pos → Prop}

theorem poss_toIfaceSlice {v : Val} (h : ∀ p ∈ v.poss, P p) : ∀ w ∈ toIfaceSlice v, ∀ p ∈ w.poss, P p := by
  intro w hw p hp
  cases v <;> simp only [toIfaceSlice, List.mem_singleton, List.not_mem_nil] at hw
  case list l => exact h p (mem_possL.2 ⟨w, hw, hp⟩)
  all_goals first | (subst hw; exact h p hp) | exact hw.elim

theorem collectAttrs_poss {l : List Val} {as : List Attr} (h : ∀ v ∈ l, ∀ p ∈ v.poss, P p)
    (hc : collectAttrs l = some as) : ∀ p ∈ attrsPoss as, P p := by
  induction l generalizing as with
  | nil => simp [collectAttrs] at hc; subst hc; simp [attrsPoss]
  | cons v l ih =>
    cases v <;> simp [collectAttrs] at hc
    case attr a =>
      obtain ⟨bs, hb, rfl⟩ := hc
      intro p hp
      simp only [attrsPoss, List.mem_append] at hp
      rcases hp with hp | hp
      · exact h _ (List.mem_cons_self ..) p hp
      · exact ih (fun v hv => h v (List.mem_cons_of_mem _ hv)) hb p hp

theorem collectHEntries_poss {l : List Val} {as : List HEntry} (h : ∀ v ∈ l, ∀ p ∈ v.poss, P p)
    (hc : collectHEntries l = some as) : ∀ p ∈ hentriesPoss as, P p := by
  induction l generalizing as with
  | nil => simp [collectHEntries] at hc; subst hc; simp [hentriesPoss]
  | cons v l ih =>
    cases v <;> simp [collectHEntries] at hc
    case hentry a =>
      obtain ⟨bs, hb, rfl⟩ := hc
      intro p hp
      simp only [hentriesPoss, List.mem_append] at hp
      rcases hp with hp | hp
      · exact h _ (List.mem_cons_self ..) p hp
      · exact ih (fun v hv => h v (List.mem_cons_of_mem _ hv)) hb p hp

theorem collectBOPs_poss {l : List Val} {as : List BOP} (h : ∀ v ∈ l, ∀ p ∈ v.poss, P p)
    (hc : collectBOPs l = some as) : ∀ p ∈ bopsPoss as, P p := by
  induction l generalizing as with
  | nil => simp [collectBOPs] at hc; subst hc; simp [bopsPoss]
  | cons v l ih =>
    have hh := h v (List.mem_cons_self ..)
    cases v <;> simp [collectBOPs, toBOP] at hc
    all_goals
      obtain ⟨bs, hb, rfl⟩ := hc
      intro p hp
      simp only [bopsPoss, List.mem_append] at hp
      rcases hp with hp | hp
      · exact hh p hp
      · exact ih (fun v hv => h v (List.mem_cons_of_mem _ hv)) hb p hp

theorem branchOrPlugins_poss {v : Val} (h : ∀ p ∈ v.poss, P p) :
    ∀ p ∈ bopsPoss (branchOrPlugins v), P p := by
  unfold branchOrPlugins
  cases hc : collectBOPs (toIfaceSlice v) with
  | none => simp [bopsPoss]
  | some bs => exact collectBOPs_poss (poss_toIfaceSlice h) hc

theorem collectElifs_poss {l : List Val} {as : List Elif} (h : ∀ v ∈ l, ∀ p ∈ v.poss, P p)
    (hc : collectElifs l = some as) : ∀ p ∈ elifsPoss as, P p := by
  induction l generalizing as with
  | nil => simp [collectElifs] at hc; subst hc; simp [elifsPoss]
  | cons v l ih =>
    cases v <;> simp [collectElifs] at hc
    case elif a =>
      obtain ⟨bs, hb, rfl⟩ := hc
      intro p hp
      simp only [elifsPoss, List.mem_append] at hp
      rcases hp with hp | hp
      · exact h _ (List.mem_cons_self ..) p hp
      · exact ih (fun v hv => h v (List.mem_cons_of_mem _ hv)) hb p hp

theorem collectExprs_poss {l : List Val} {as : List Expr} (h : ∀ v ∈ l, ∀ p ∈ v.poss, P p)
    (hc : collectExprs l = some as) : ∀ p ∈ condPoss as, P p := by
  induction l generalizing as with
  | nil => simp [collectExprs] at hc; subst hc; simp [condPoss]
  | cons v l ih =>
    cases v <;> simp [collectExprs] at hc
    case expr a =>
      obtain ⟨bs, hb, rfl⟩ := hc
      intro p hp
      simp only [condPoss, List.mem_append] at hp
      rcases hp with hp | hp
      · exact h _ (List.mem_cons_self ..) p hp
      · exact ih (fun v hv => h v (List.mem_cons_of_mem _ hv)) hb p hp

theorem collectSelElems_poss {l : List Val} {as : List SelElem} (h : ∀ v ∈ l, ∀ p ∈ v.poss, P p)
    (hc : collectSelElems l = some as) : ∀ p ∈ as.map (·.start), P p := by
  induction l generalizing as with
  | nil => simp [collectSelElems] at hc; subst hc; simp
  | cons v l ih =>
    cases v <;> simp [collectSelElems] at hc
    case selElem a =>
      obtain ⟨bs, hb, rfl⟩ := hc
      intro p hp
      simp only [List.map_cons, List.mem_cons] at hp
      rcases hp with hp | hp
      · exact h _ (List.mem_cons_self ..) p (by simp [Val.poss, hp])
      · exact ih (fun v hv => h v (List.mem_cons_of_mem _ hv)) hb p hp

theorem toRvalue_poss {v : Val} {r : Rvalue} (h : ∀ p ∈ v.poss, P p) (hr : toRvalue v = some r) :
    ∀ p ∈ Rvalue.poss r, P p := by
  cases v <;> simp [toRvalue] at hr
  case attr a => cases a <;> simp at hr <;> subst hr <;> exact h
  all_goals subst hr; exact h

theorem toSOR_poss {v : Val} {r : Rvalue} (h : ∀ p ∈ v.poss, P p) (hr : toStringOrRegexp v = some r) :
    ∀ p ∈ Rvalue.poss r, P p := by
  cases v <;> simp [toStringOrRegexp] at hr
  case attr a => cases a <;> simp at hr <;> subst hr <;> exact h
  all_goals subst hr; exact h

theorem toHKey_poss {v : Val} {r : HKey} (h : ∀ p ∈ v.poss, P p) (hr : toHKey v = some r) :
    ∀ p ∈ HKey.poss r, P p := by
  cases v <;> simp [toHKey] at hr
  case attr a => cases a <;> simp at hr <;> subst hr <;> exact h

theorem toAttr_poss {v : Val} {r : Attr} (h : ∀ p ∈ v.poss, P p) (hr : toAttr v = some r) :
    ∀ p ∈ Attr.poss r, P p := by
  cases v <;> simp [toAttr] at hr
  case attr a => subst hr; exact h

theorem attributeComment_poss {a c : Val} {sb : Bool} {r : Attr} (h : ∀ p ∈ a.poss, P p)
    (hr : attributeComment a c sb = some r) : ∀ p ∈ Attr.poss r, P p := by
  cases a <;> simp [attributeComment] at hr
  case attr a => cases a <;> simp at hr <;> subst hr <;> exact h

theorem configLoop_poss {psc : CommentBlock} {f : Bool} {l : List Val} {c c' : Config}
    (h : ∀ v ∈ l, ∀ p ∈ v.poss, P p) (h0 : ∀ p ∈ positions c, P p)
    (hc : configLoop psc f l c = some c') : ∀ p ∈ positions c', P p := by
  induction l generalizing f c with
  | nil => simp [configLoop] at hc; subst hc; exact h0
  | cons v l ih =>
    have hv := h v (List.mem_cons_self ..)
    have ht := fun v hv => h v (List.mem_cons_of_mem _ hv)
    cases v <;> simp [configLoop] at hc
    case sect s =>
      have key : ∀ s' : Section, (∀ p ∈ Section.poss s', P p) →
          (∀ p ∈ positions { c with input := c.input ++ [s'] }, P p) ∧
          (∀ p ∈ positions { c with filter := c.filter ++ [s'] }, P p) ∧
          (∀ p ∈ positions { c with output := c.output ++ [s'] }, P p) := by
        intro s' hs'
        refine ⟨?_, ?_, ?_⟩ <;>
        · intro p hp
          simp only [positions, List.flatMap_append, List.mem_append, List.flatMap_cons, List.flatMap_nil,
            List.append_nil] at hp h0
          have := h0 p
          have := hs' p
          grind
      have hs' : ∀ p ∈ Section.poss (if f then { s with comment := psc } else s), P p := by
        cases f <;> exact hv
      have k := key _ hs'
      revert hc
      split <;> intro hc
      · exact ih ht k.1 hc
      · exact ih ht k.2.1 hc
      · exact ih ht k.2.2 hc
      · cases hc

end

theorem setBool_poss (b : BoolOp) (e : Expr) : ∀ p ∈ Expr.poss (e.setBool b), p = b.start ∨ p ∈ Expr.poss e := by
  intro p hp
  cases e <;> simp only [Expr.setBool, Expr.poss, BoolExpr.poss, List.mem_cons, List.mem_append, List.cons_append,
    List.nil_append, List.not_mem_nil] at hp ⊢ <;> grind

/-- All positions in the value of an action satisfy `P`. -/
def ActRes.posOk (P : Pos → Prop) : ActRes → Prop
  | .val v => ∀ p ∈ v.poss, P p
  | .err v _ => ∀ p ∈ v.poss, P p
  | .panic _ => True

theorem attributeAction_poss {P : Pos → Prop} {pos : Pos} {n v : Val} (hp : P pos)
    (hv : ∀ p ∈ v.poss, P p) : (attributeAction pos n v).posOk P := by
  unfold attributeAction
  simp only
  split
  · simp [ActRes.posOk, Val.poss]
  · split <;> simp only [ActRes.posOk, Val.poss, Attr.poss, StrAttr.poss, NumAttr.poss, List.mem_cons,
      List.not_mem_nil, or_false, forall_eq_or_imp, forall_eq] at hv ⊢
    all_goals first
      | exact hp
      | exact ⟨hp, hv.2⟩
      | exact ⟨hp, hv⟩
      | simp

theorem ElseB_zero_poss : ElseB.poss ElseB.zero = [Pos.zero] := rfl

theorem noOp_poss : BoolExpr.poss noOp = [Pos.zero, Pos.zero] := rfl

theorem runAct_poss {P : Pos → Prop} (h0 : P Pos.zero) (o : Opts) (a : Act) (fr : Frame) (pos : Pos)
    (text : Bytes) (w : List Bytes) (hf : ∀ l, ∀ p ∈ (fr.get l).poss, P p) (hp : P pos) :
    (runAct o a fr pos text w).posOk P := by
  have hslice := fun l => poss_toIfaceSlice (hf l)
  have happ : ∀ l k, ∀ v ∈ toIfaceSlice (fr.get l) ++ toIfaceSlice (fr.get k), ∀ p ∈ v.poss, P p := by
    intro l k v hv
    rcases List.mem_append.1 hv with hv | hv
    · exact hslice l v hv
    · exact hslice k v hv
  cases a with
  | retConfig l =>
    simp only [runAct]
    have := hf l
    cases h : fr.get l
    case config c => rw [h] at this; exact this
    all_goals simp [ActRes.posOk, Val.poss, positions, Config.empty]
  | ret l => exact hf l
  | newConfig => simp [runAct, ActRes.posOk, Val.poss, positions, Config.empty]
  | config ps pss psc foot =>
    simp only [runAct]
    cases hc : configLoop (commentBlock (fr.get psc) false true) true
        (toIfaceSlice (fr.get ps) ++ toIfaceSlice (fr.get pss)) Config.empty with
    | none => simp [ActRes.posOk, Val.poss, positions, Config.empty]
    | some c => 
      have := configLoop_poss (P := P) (c := Config.empty) (happ ps pss) (by simp [positions, Config.empty]) hc
      exact this
  | configSection ps psc =>
    simp only [runAct]
    have := hf ps
    cases h : fr.get ps
    case sect s => rw [h] at this; exact this
    all_goals simpa [ActRes.posOk, Val.poss, Section.poss, bopsPoss] using h0
  | pluginSection pt bops f =>
    simp only [runAct]
    cases hc : collectBOPs (toIfaceSlice (fr.get bops)) with
    | none => cases fr.get pt <;> trivial
    | some bs =>
      have := collectBOPs_poss (hslice bops) hc
      cases fr.get pt
      case ptype t =>
        simp only [ActRes.posOk, Val.poss, Section.poss, List.mem_cons, forall_eq_or_imp]
        exact ⟨hp, this⟩
      all_goals trivial
  | plugin n as c f =>
    simp only [runAct]
    have h1 := hf n
    have h2 := hf as
    cases has : fr.get as <;> try trivial
    all_goals cases hn : fr.get n <;> try trivial
    all_goals
      rename_i x
      cases x <;> try trivial
    all_goals
      rw [has] at h2
      rw [hn] at h1
      simp only [ActRes.posOk, Val.poss, Plugin.poss, Attr.poss, StrAttr.poss, attrsPoss, List.mem_cons, forall_eq_or_imp,
        List.not_mem_nil] at h1 h2 ⊢
      first | exact ⟨h1.1, h2⟩ | exact ⟨h1.1, by simp⟩
  | attributes a as c =>
    simp only [runAct]
    have key : ∀ v ∈ (match attributeComment (fr.get a) (fr.get c) false with
        | some at' => [Val.attr at']
        | none => []) ++ toIfaceSlice (fr.get as), ∀ p ∈ v.poss, P p := by
      intro v hv
      rcases List.mem_append.1 hv with hv | hv
      · cases hh : attributeComment (fr.get a) (fr.get c) false with
        | none => rw [hh] at hv; simp at hv
        | some x => rw [hh] at hv; simp at hv; subst hv; exact attributeComment_poss (hf a) hh
      · exact hslice as v hv
    split
    · rename_i l hc; exact collectAttrs_poss key hc
    · simp [ActRes.posOk, Val.poss, attrsPoss]
  | attributeComment a c sb =>
    simp only [runAct]
    split
    · rename_i x hx; exact attributeComment_poss (hf a) hx
    · simp [ActRes.posOk, Val.poss]
  | «attribute» n v => exact attributeAction_poss hp (hf v)
  | string sat => simpa [runAct, ActRes.posOk, Val.poss, Attr.poss, StrAttr.poss] using hp
  | number =>
    simp only [runAct]
    split <;> simpa [runAct, ActRes.posOk, Val.poss, Attr.poss, NumAttr.poss] using h0
  | array vs f =>
    simp only [runAct]
    have h2 := hf vs
    cases h : fr.get vs <;> try trivial
    · simpa [ActRes.posOk, Val.poss, Attr.poss, attrsPoss] using h0
    · rw [h] at h2
      simp only [ActRes.posOk, Val.poss, Attr.poss, List.mem_cons, forall_eq_or_imp] at h2 ⊢
      exact ⟨h0, h2⟩
  | hash es f =>
    simp only [runAct]
    have h2 := hf es
    cases h : fr.get es <;> try trivial
    · simpa [ActRes.posOk, Val.poss, Attr.poss, hentriesPoss] using h0
    · rw [h] at h2
      simp only [ActRes.posOk, Val.poss, Attr.poss, List.mem_cons, forall_eq_or_imp] at h2 ⊢
      exact ⟨h0, h2⟩
  | hashentries e es =>
    simp only [runAct]
    have h2 := hf e
    cases h : fr.get e <;> try trivial
    case hentry he =>
      rw [h] at h2
      obtain ⟨p, k, v, c⟩ := he
      simp only
      split
      · rename_i l hc
        refine collectHEntries_poss ?_ hc
        intro v hv
        rcases List.mem_cons.1 hv with rfl | hv
        · exact h2
        · exact hslice es v hv
      · simp [ActRes.posOk, Val.poss, hentriesPoss]
  | hashentry n v c =>
    simp only [runAct]
    split
    · rename_i k x hk hx
      have h1 := toHKey_poss (hf n) hk
      have h2 := toAttr_poss (hf v) hx
      simp only [ActRes.posOk, Val.poss, HEntry.poss, List.mem_cons, List.mem_append, List.cons_append]
      grind
    · trivial
  | elseIfComment x c =>
    simp only [runAct]
    have h2 := hf x
    cases h : fr.get x <;> try trivial
    case elif e => rw [h] at h2; obtain ⟨⟩ := e; exact h2
  | elseComment x c =>
    simp only [runAct]
    have h2 := hf x
    cases h : fr.get x <;> try trivial
    case elseB e => rw [h] at h2; obtain ⟨⟩ := e; exact h2
  | branch i ei el c =>
    simp only [runAct]
    cases hc : collectElifs (toIfaceSlice (fr.get ei)) with
    | none =>
      simp only [ActRes.posOk, Val.poss, condPoss, bopsPoss, elifsPoss, ElseB_zero_poss]
      simpa using h0
    | some eis =>
      have h3 := collectElifs_poss (hslice ei) hc
      have h1 := hf i
      have h2 := hf el
      cases hel : fr.get el <;> try trivial
      all_goals
        rw [hel] at h2
        cases hi : fr.get i <;> try trivial
        rw [hi] at h1
        simp only [ActRes.posOk, Val.poss, ElseB_zero_poss, List.mem_cons, List.mem_append, List.cons_append,
          List.not_mem_nil] at h1 h2 ⊢
        grind
  | branchOrPluginComment x c =>
    simp only [runAct]
    have h2 := hf x
    cases h : fr.get x
    case plugin p => rw [h] at h2; obtain ⟨⟩ := p; exact h2
    case branch => rw [h] at h2; exact h2
    all_goals simp [ActRes.posOk, Val.poss]
  | ifBlock c b f =>
    simp only [runAct]
    have h1 := hf c
    have h2 := branchOrPlugins_poss (hf b)
    cases h : fr.get c <;> try trivial
    rw [h] at h1
    simp only [ActRes.posOk, Val.poss, List.mem_cons, List.mem_append, List.cons_append] at h1 ⊢
    grind
  | elseIfBlock c b f =>
    simp only [runAct]
    have h1 := hf c
    have h2 := branchOrPlugins_poss (hf b)
    cases h : fr.get c <;> try trivial
    rw [h] at h1
    simp only [ActRes.posOk, Val.poss, Elif.poss, List.mem_cons, List.mem_append, List.cons_append] at h1 ⊢
    grind
  | elseBlock b f =>
    simp only [runAct]
    have h2 := branchOrPlugins_poss (hf b)
    simp only [ActRes.posOk, Val.poss, ElseB.poss, List.mem_cons]
    grind
  | condition c cs =>
    simp only [runAct]
    split
    · rename_i l hc; exact collectExprs_poss (happ c cs) hc
    · simp [ActRes.posOk, Val.poss, condPoss]
  | expression bo c =>
    simp only [runAct]
    have h1 := hf bo
    have h2 := hf c
    cases h : fr.get c <;> try trivial
    all_goals cases h' : fr.get bo <;> try trivial
    rename_i e b
    rw [h'] at h1
    rw [h] at h2
    intro p hp
    rcases setBool_poss b e p hp with hp | hp
    · exact h1 p (by simp [Val.poss, hp])
    · exact h2 p hp
  | conditionExpression c =>
    simp only [runAct]
    have h1 := hf c
    cases h : fr.get c <;> try trivial
    rw [h] at h1
    simp only [ActRes.posOk, Val.poss, Expr.poss, noOp_poss, List.mem_cons, List.mem_append, List.cons_append, List.nil_append] at h1 ⊢
    grind
  | negativeExpression c =>
    simp only [runAct]
    have h1 := hf c
    cases h : fr.get c <;> try trivial
    rw [h] at h1
    simp only [ActRes.posOk, Val.poss, Expr.poss, noOp_poss, List.mem_cons, List.mem_append, List.cons_append, List.nil_append] at h1 ⊢
    grind
  | negativeSelector c =>
    simp only [runAct]
    have h1 := hf c
    cases h : fr.get c <;> try trivial
    rw [h] at h1
    simp only [ActRes.posOk, Val.poss, Expr.poss, noOp_poss, List.mem_cons, List.mem_append, List.cons_append, List.nil_append] at h1 ⊢
    grind
  | inExpression l r =>
    simp only [runAct]
    split
    · rename_i x y hx hy
      have h1 := toRvalue_poss (hf l) hx
      have h2 := toRvalue_poss (hf r) hy
      simp only [ActRes.posOk, Val.poss, Expr.poss, noOp_poss, List.mem_cons, List.mem_append, List.cons_append, List.nil_append]
      grind
    · trivial
  | notInExpression l r =>
    simp only [runAct]
    split
    · rename_i x y hx hy
      have h1 := toRvalue_poss (hf l) hx
      have h2 := toRvalue_poss (hf r) hy
      simp only [ActRes.posOk, Val.poss, Expr.poss, noOp_poss, List.mem_cons, List.mem_append, List.cons_append, List.nil_append]
      grind
    · trivial
  | compareExpression l co r =>
    simp only [runAct]
    split
    · rename_i x c y hx hc hy
      have h1 := toRvalue_poss (hf l) hx
      have h2 := toRvalue_poss (hf r) hy
      have h3 := hf co
      rw [hc] at h3
      simp only [ActRes.posOk, Val.poss, Expr.poss, noOp_poss, List.mem_cons, List.mem_append, List.cons_append, List.nil_append] at h3 ⊢
      grind
    · trivial
  | regexpExpression l co r =>
    simp only [runAct]
    split
    · rename_i x c y hx hc hy
      have h1 := toRvalue_poss (hf l) hx
      have h2 := toSOR_poss (hf r) hy
      have h3 := hf co
      rw [hc] at h3
      simp only [ActRes.posOk, Val.poss, Expr.poss, noOp_poss, List.mem_cons, List.mem_append, List.cons_append, List.nil_append] at h3 ⊢
      grind
    · trivial
  | rvalue r =>
    simp only [runAct]
    split
    · rename_i y hy
      have h2 := toRvalue_poss (hf r) hy
      simp only [ActRes.posOk, Val.poss, Expr.poss, noOp_poss, List.mem_cons, List.mem_append, List.cons_append, List.nil_append]
      grind
    · trivial
  | selector s =>
    simp only [runAct]
    split
    · rename_i l hl
      have := collectSelElems_poss (hslice s) hl
      simp only [ActRes.posOk, Val.poss, Selector.poss, List.mem_cons]
      grind
    · trivial
  | regexp => simpa [runAct, ActRes.posOk, Val.poss] using hp
  | compareOperator => simpa [runAct, ActRes.posOk, Val.poss] using hp
  | regexpOperator => simpa [runAct, ActRes.posOk, Val.poss] using hp
  | booleanOperator => simpa [runAct, ActRes.posOk, Val.poss] using hp
  | selectorElement => simpa [runAct, ActRes.posOk, Val.poss] using hp
  | comment => simp [runAct, ActRes.posOk, Val.poss]
  | whitespace => simp [runAct, ActRes.posOk, Val.poss]
  | str => simp [runAct, ActRes.posOk, Val.poss]
  | ptype t => simp [runAct, ActRes.posOk, Val.poss]
  | enclosedValue => simp [runAct, ActRes.posOk, Val.poss]

/-! ### The read point -/

/-- The read point is at an offset of the input and carries its position. -/
structure PtOk (data : Bytes) (p : Pt) : Prop where
  le : p.offset ≤ data.length
  rest : p.rest = data.drop p.offset
  valid : ValidUTF8 p.rest
  pos : p.pos = posAt data p.offset

theorem encodeChar_cases (c : Char) :
    (String.utf8EncodeChar c = [10] ∧ c.val.toNat = 10) ∨
    (c.val.toNat ≠ 10 ∧ (10 : UInt8) ∉ String.utf8EncodeChar c ∧ chars (String.utf8EncodeChar c) = 1 ∧
      (String.utf8EncodeChar c).head? ≠ some 10) := by
  have hv : c.val.toNat < 0xd800 ∨ (0xdfff < c.val.toNat ∧ c.val.toNat < 0x110000) := c.valid
  have hU : ∀ n, n < 256 → (UInt8.ofNat n).toNat = n := by
    intro n hn; simp [UInt8.toNat_ofNat']; omega
  have hne : ∀ n, n < 256 → n ≠ 10 → (10 : UInt8) ≠ UInt8.ofNat n := by
    intro n hn h10 h
    have := congrArg UInt8.toNat h
    rw [hU n hn] at this
    exact h10 this.symm
  unfold String.utf8EncodeChar
  generalize c.val.toNat = v at *
  simp only
  split
  · rename_i h
    by_cases h10 : v = 10
    · subst h10; exact .inl ⟨rfl, rfl⟩
    · refine .inr ⟨h10, ?_, ?_, ?_⟩
      · simpa using hne v (by omega) h10
      · simp only [chars, List.countP_cons, List.countP_nil]
        rw [hU v (by omega)]
        have : (v / 64 != 2) = true := by simp; omega
        rw [this]; rfl
      · simpa using Ne.symm (hne v (by omega) h10)
  · split
    · rename_i h1 h2
      refine .inr ⟨by omega, ?_, ?_, ?_⟩
      · simp only [List.mem_cons, List.not_mem_nil, or_false, not_or]
        exact ⟨hne _ (by omega) (by omega), hne _ (by omega) (by omega)⟩
      · simp only [chars, List.countP_cons, List.countP_nil]
        rw [hU _ (by omega), hU _ (by omega)]
        simp only [bne_iff_ne, ne_eq]
        rw [if_neg (by omega), if_pos (by omega)]
      · rw [List.head?_cons, ne_eq, Option.some.injEq]; exact Ne.symm (hne _ (by omega) (by omega))
    · split
      · rename_i h1 h2 h3
        refine .inr ⟨by omega, ?_, ?_, ?_⟩
        · simp only [List.mem_cons, List.not_mem_nil, or_false, not_or]
          exact ⟨hne _ (by omega) (by omega), hne _ (by omega) (by omega), hne _ (by omega) (by omega)⟩
        · simp only [chars, List.countP_cons, List.countP_nil]
          rw [hU _ (by omega), hU _ (by omega), hU _ (by omega)]
          simp only [bne_iff_ne, ne_eq]
          rw [if_neg (by omega), if_neg (by omega), if_pos (by omega)]
        · rw [List.head?_cons, ne_eq, Option.some.injEq]; exact Ne.symm (hne _ (by omega) (by omega))
      · rename_i h1 h2 h3
        refine .inr ⟨by omega, ?_, ?_, ?_⟩
        · simp only [List.mem_cons, List.not_mem_nil, or_false, not_or]
          exact ⟨hne _ (by omega) (by omega), hne _ (by omega) (by omega), hne _ (by omega) (by omega),
            hne _ (by omega) (by omega)⟩
        · simp only [chars, List.countP_cons, List.countP_nil]
          rw [hU _ (by omega), hU _ (by omega), hU _ (by omega), hU _ (by omega)]
          simp only [bne_iff_ne, ne_eq]
          rw [if_neg (by omega), if_neg (by omega), if_neg (by omega), if_pos (by omega)]
        · rw [List.head?_cons, ne_eq, Option.some.injEq]; exact Ne.symm (hne _ (by omega) (by omega))

theorem lastLine_append (a b : Bytes) (h : (10 : UInt8) ∉ b) : lastLine (a ++ b) = lastLine a ++ b := by
  unfold lastLine
  rw [List.reverse_append]
  rw [List.takeWhile_append_of_pos]
  · simp
  · intro x hx
    simp only [bne_iff_ne, ne_eq]
    rintro rfl
    exact h (by simpa using hx)

theorem lastLine_newline (a : Bytes) : lastLine (a ++ [10]) = [] := by
  simp [lastLine]

/-- The current rune is a newline exactly when the byte at the offset is. -/
theorem rn_newline {s : Bytes} (h : ValidUTF8 s) : (decodeRune s).1 = 10 ↔ s[0]? = some 10 := by
  obtain ⟨cs, rfl⟩ := h
  cases cs with
  | nil => simp [encode, decodeRune, runeError]
  | cons c cs =>
    have he : encode (c :: cs) = String.utf8EncodeChar c ++ encode cs := rfl
    rw [he, decodeRune_encode]
    rcases encodeChar_cases c with ⟨h1, h2⟩ | ⟨h1, h2, h3, h4⟩
    · rw [h1, h2]; simp
    · simp only [h1, false_iff]
      cases hc : String.utf8EncodeChar c with
      | nil => exact absurd hc (utf8EncodeChar_ne c)
      | cons b l => rw [hc] at h4; simpa using h4

theorem PtOk.next {data : Bytes} {p : Pt} (h : PtOk data p) (hne : p.rest ≠ []) : PtOk data p.next := by
  obtain ⟨hle, hrest, hv, hpos⟩ := h
  have hv' : ValidUTF8 p.next.rest := by rw [Pt.next_rest]; exact validUTF8_drop hv
  obtain ⟨cs, hcs⟩ := hv
  cases cs with
  | nil => exact absurd hcs hne
  | cons c cs =>
    have he : p.rest = String.utf8EncodeChar c ++ encode cs := hcs
    have hw : p.w = (String.utf8EncodeChar c).length := by
      unfold Pt.w; rw [he, decodeRune_encode]
    have hoff : p.next.offset = p.offset + (String.utf8EncodeChar c).length := by rw [Pt.next_offset, hw]
    have hlen : p.rest.length = data.length - p.offset := by rw [hrest, List.length_drop]
    have hlen' : p.rest.length = (String.utf8EncodeChar c).length + (encode cs).length := by
      rw [he, List.length_append]
    have htake : data.take p.next.offset = data.take p.offset ++ String.utf8EncodeChar c := by
      rw [hoff, List.take_add, ← hrest, he, List.take_left]
    have hr : p.next.rest = data.drop p.next.offset := by
      rw [Pt.next_rest, hrest, List.drop_drop, hoff, hw]
    have hbyte : data[p.next.offset]? = some 10 ↔ (decodeRune p.next.rest).1 = 10 := by
      rw [rn_newline hv', hr, List.getElem?_drop]; simp
    have hbyte0 : data[p.offset]? = (String.utf8EncodeChar c).head? := by
      have : (data.drop p.offset)[0]? = data[p.offset]? := by rw [List.getElem?_drop]; simp
      rw [← this, ← hrest, he]
      cases hc : String.utf8EncodeChar c with
      | nil => exact absurd hc (utf8EncodeChar_ne c)
      | cons b l => simp
    refine ⟨by omega, hr, hv', ?_⟩
    have hline : (p.line : Int) = newlines (data.take p.next.offset) + 1 ∧
        ((p.col : Int) = chars (lastLine (data.take p.next.offset))) := by
      rw [htake]
      have hp : (⟨p.line, p.col, p.offset⟩ : Pos) = posAt data p.offset := hpos
      unfold posAt at hp
      rw [hbyte0] at hp
      rcases encodeChar_cases c with ⟨h1, h2⟩ | ⟨h1, h2, h3, h4⟩
      · rw [h1] at hp ⊢
        rw [if_pos (by rfl)] at hp
        injection hp with hp1 hp2 hp3
        rw [lastLine_newline]
        simp only [newlines, List.count_append, hp1, hp2, chars]
        constructor
        · simp; omega
        · simp
      · rw [if_neg h4] at hp
        injection hp with hp1 hp2 hp3
        rw [lastLine_append _ _ h2]
        have : newlines (data.take p.offset ++ String.utf8EncodeChar c) = newlines (data.take p.offset) := by
          simp [newlines, List.count_append, List.count_eq_zero.2 h2]
        rw [this]
        have h3' : chars (lastLine (data.take p.offset) ++ String.utf8EncodeChar c) =
            chars (lastLine (data.take p.offset)) + 1 := by
          rw [← h3]; simp [chars, List.countP_append]
        rw [h3']
        exact ⟨hp1, by rw [hp2]; simp⟩
    have hnp : p.next.pos = if (decodeRune p.next.rest).1 = 10 then
        ⟨p.line + 1, 0, p.next.offset⟩ else ⟨p.line, p.col + 1, p.next.offset⟩ := by
      rw [Pt.next_rest]
      unfold Pt.next Pt.moveTo
      split <;> simp [Pt.pos]
    rw [hnp]
    unfold posAt
    by_cases hb : data[p.next.offset]? = some 10
    · rw [if_pos (hbyte.1 hb), if_pos hb, hline.1]
      simp; omega
    · rw [if_neg (fun h => hb (hbyte.2 h)), if_neg hb, hline.1, hline.2]

theorem PtOk.adv {data : Bytes} {p q : Pt} (h : PtOk data p) (ha : Adv false p q) : PtOk data q := by
  induction ha with
  | refl => exact h
  | step p q hne _ _ ih => exact ih (h.next hne)

theorem PtOk.init (o : Opts) (data : Bytes) (ff : List FF) (hv : ValidUTF8 data) :
    PtOk data (initSt o data ff).pt := by
  have hpt : (initSt o data ff).pt = (⟨1, 0, 0, data⟩ : Pt).moveTo 0 data := (firstRead_fields o _).1
  rw [hpt]
  have hr : ((⟨1, 0, 0, data⟩ : Pt).moveTo 0 data).rest = data := Pt.moveTo_rest _ _ _
  have ho : ((⟨1, 0, 0, data⟩ : Pt).moveTo 0 data).offset = 0 := by
    unfold Pt.moveTo; split <;> rfl
  refine ⟨by rw [ho]; omega, by rw [hr, ho]; rfl, by rw [hr]; exact hv, ?_⟩
  rw [ho]
  unfold Pt.moveTo posAt
  by_cases hb : (decodeRune data).1 = 10
  · rw [if_pos hb, if_pos ((rn_newline hv).1 hb)]; rfl
  · rw [if_neg hb, if_neg (fun h => hb ((rn_newline hv).2 h))]; rfl

/-- The invariant of positions. -/
def posInv (o : Opts) (data : Bytes) : ValInv o where
  Q v := ∀ p ∈ v.poss, p = Pos.zero ∨ ∃ k, k ≤ data.length ∧ p = posAt data k
  I := PtOk data
  nil := by simp [Val.poss]
  bytes _ := by simp [Val.poss]
  list l h := by
    intro p hp
    simp only [Val.poss] at hp
    obtain ⟨v, hv, hp⟩ := mem_possL.1 hp
    exact h v hv p hp
  adv _ _ h ha := h.adv ha
  act a fr p text warns hf hI := by
    have := runAct_poss (P := fun p => p = Pos.zero ∨ ∃ k, k ≤ data.length ∧ p = posAt data k) (.inl rfl) o a fr
      p.pos text warns hf (.inr ⟨p.offset, hI.le, hI.pos⟩)
    constructor
    · intro v h; rw [h] at this; exact this
    · intro v m h; rw [h] at this; exact this

end Verif
