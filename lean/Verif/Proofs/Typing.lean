import Verif.Proofs.Engine
import Verif.Spec.Messages
/-
A type system for grammar expressions: which kinds of values an expression yields and which
messages its actions can report.
-/
namespace Verif
open Spec

/-- The dynamic type of a value. -/
inductive Kind
  | nil | bytes | list | str | ptype | ptypeU | ws | comments | aStr | aNum | aArr | aHash | aPlug | aNil | attrs | hentry
  | hentries | plugin | ifBlock | elif | elseB | branch | cond | expr | selElem | selector | regexp | boolOp | cmpOp
  | reOp | sect | sectU | config
deriving DecidableEq, Repr

def Val.kind : Val → Kind
  | .nil => .nil
  | .bytes _ => .bytes
  | .list _ => .list
  | .str _ => .str
  | .ptype t => if t = .undefined then .ptypeU else .ptype
  | .ws => .ws
  | .comments _ => .comments
  | .attr .nil => .aNil
  | .attr (.str ..) => .aStr
  | .attr (.num ..) => .aNum
  | .attr (.arr ..) => .aArr
  | .attr (.hash ..) => .aHash
  | .attr (.plug ..) => .aPlug
  | .attrs _ => .attrs
  | .hentry _ => .hentry
  | .hentries _ => .hentries
  | .plugin _ => .plugin
  | .ifBlock .. => .ifBlock
  | .elif _ => .elif
  | .elseB _ => .elseB
  | .branch .. => .branch
  | .cond _ => .cond
  | .expr _ => .expr
  | .selElem _ => .selElem
  | .selector _ => .selector
  | .regexp _ => .regexp
  | .boolOp _ => .boolOp
  | .cmpOp _ => .cmpOp
  | .reOp _ => .reOp
  | .sect s => if s.ptype = .undefined then .sectU else .sect
  | .config _ => .config

/-- A type: possible kinds, and the possible kinds of the elements of a list. -/
structure Ty where
  ks : List Kind
  el : List Kind := []
deriving DecidableEq, Repr

def HasTy (v : Val) (T : Ty) : Prop := v.kind ∈ T.ks ∧ ∀ l, v = .list l → ∀ x ∈ l, x.kind ∈ T.el

abbrev FTy := List (Lbl × Ty)

def FTy.get (f : FTy) (l : Lbl) : Ty :=
  match f with
  | [] => ⟨[.nil], []⟩
  | (k, v) :: r => if k = l then v else FTy.get r l

def FrTy (fr : Frame) (f : FTy) : Prop := ∀ l, HasTy (fr.get l) (f.get l)

def sub (xs ys : List Kind) : Bool := xs.all (ys.contains ·)

theorem sub_mem {xs ys : List Kind} (h : sub xs ys = true) {k : Kind} (hk : k ∈ xs) : k ∈ ys := by
  simp only [sub, List.all_eq_true, List.contains_iff_mem] at h
  exact h k hk

/-- The elements of `toIfaceSlice` have kinds in `K`. -/
def sliceOk (T : Ty) (K : List Kind) : Bool := sub T.ks (.nil :: .list :: K) && sub T.el K

theorem kind_list {v : Val} (h : v.kind = .list) : ∃ l, v = .list l := by
  cases v with
  | list l => exact ⟨l, rfl⟩
  | attr a => cases a <;> cases h
  | ptype t => simp only [Val.kind] at h; split at h <;> cases h
  | sect s => simp only [Val.kind] at h; split at h <;> cases h
  | _ => cases h

theorem kind_nil {v : Val} (h : v.kind = .nil) : v = .nil := by
  cases v with
  | nil => rfl
  | attr a => cases a <;> cases h
  | ptype t => simp only [Val.kind] at h; split at h <;> cases h
  | sect s => simp only [Val.kind] at h; split at h <;> cases h
  | _ => cases h

theorem slice_kinds {v : Val} {T : Ty} {K : List Kind} (hv : HasTy v T) (h : sliceOk T K = true) :
    ∀ x ∈ toIfaceSlice v, x.kind ∈ K := by
  simp only [sliceOk, Bool.and_eq_true] at h
  have h1 := sub_mem h.1 hv.1
  intro x hx
  simp only [List.mem_cons] at h1
  rcases h1 with h1 | h1 | h1
  · rw [kind_nil h1] at hx; simp [toIfaceSlice] at hx
  · obtain ⟨l, rfl⟩ := kind_list h1
    exact sub_mem h.2 (hv.2 l rfl x hx)
  · cases v with
    | nil => simp [toIfaceSlice] at hx
    | list l => exact sub_mem h.2 (hv.2 l rfl x hx)
    | _ => simp only [toIfaceSlice, List.mem_singleton] at hx; subst hx; exact h1

def attrKinds : List Kind := [.aStr, .aNum, .aArr, .aHash, .aPlug]
def rvKinds : List Kind := [.aStr, .aNum, .aArr, .selector, .regexp]

def tConvMsg : Bytes := b!"interface conversion"
def tUnsupMsg : Bytes := b!"Unsupported attribute type"
def tNotAttrMsg : Bytes := b!"Argument is not an attribute"
def tRangeMsg : Bytes := b!"strconv.ParseFloat: value out of range"

/-- The type of an action in a typed frame, and its messages. -/
def actTy (a : Act) (f : FTy) : Option (Ty × List Bytes) :=
  match a with
  | .retConfig _ => some (⟨[.config], []⟩, [])
  | .ret l => some (f.get l, [])
  | .newConfig => some (⟨[.config], []⟩, [])
  | .config ps pss _ _ =>
    if sliceOk (f.get ps) [.sect] && sliceOk (f.get pss) [.sect] then some (⟨[.config], []⟩, []) else none
  | .configSection ps _ => if sub (f.get ps).ks [.sect] then some (⟨[.sect], []⟩, []) else none
  | .comment => some (⟨[.comments], []⟩, [])
  | .whitespace => some (⟨[.ws], []⟩, [])
  | .str => some (⟨[.str], []⟩, [])
  | .ptype t => if t = .undefined then none else some (⟨[.ptype], []⟩, [])
  | .pluginSection pt bops _ =>
    if sub (f.get pt).ks [.ptype] && sliceOk (f.get bops) [.plugin, .branch] then some (⟨[.sect], []⟩, []) else none
  | .plugin name attributes _ _ =>
    if sub (f.get name).ks [.aStr] && sub (f.get attributes).ks [.nil, .attrs] then some (⟨[.plugin], []⟩, []) else none
  | .attributes _ as _ =>
    if sliceOk (f.get as) attrKinds then some (⟨[.attrs], []⟩, []) else some (⟨[.attrs], []⟩, [tNotAttrMsg])
  | .attributeComment a _ _ =>
    if sub (f.get a).ks attrKinds then some (⟨attrKinds, []⟩, []) else some (⟨.nil :: attrKinds, []⟩, [tUnsupMsg])
  | .attribute name value =>
    if sub (f.get name).ks [.aStr] && sub (f.get value).ks [.aStr, .aNum, .aArr, .aHash, .plugin] then
      some (⟨attrKinds, []⟩, [])
    else none
  | .string _ => some (⟨[.aStr], []⟩, [])
  | .enclosedValue => some (⟨[.str], []⟩, [])
  | .regexp => some (⟨[.regexp], []⟩, [])
  | .number => some (⟨[.aNum], []⟩, [tRangeMsg])
  | .array values _ => if sub (f.get values).ks [.nil, .attrs] then some (⟨[.aArr], []⟩, []) else none
  | .hash entries _ => if sub (f.get entries).ks [.nil, .hentries] then some (⟨[.aHash], []⟩, []) else none
  | .hashentries entry entries =>
    if sub (f.get entry).ks [.hentry] && sliceOk (f.get entries) [.hentry] then some (⟨[.hentries], []⟩, []) else none
  | .hashentry name value _ =>
    if sub (f.get name).ks [.aStr, .aNum] && sub (f.get value).ks attrKinds then some (⟨[.hentry], []⟩, [])
    else some (⟨[.hentry], []⟩, [tConvMsg])
  | .elseIfComment eib _ => if sub (f.get eib).ks [.elif] then some (⟨[.elif], []⟩, []) else none
  | .elseComment eb _ => if sub (f.get eb).ks [.elseB] then some (⟨[.elseB], []⟩, []) else none
  | .branch ifB elifs els _ =>
    if sub (f.get ifB).ks [.ifBlock] && sliceOk (f.get elifs) [.elif] && sub (f.get els).ks [.nil, .elseB] then
      some (⟨[.branch], []⟩, [])
    else none
  | .branchOrPluginComment bop _ =>
    if sub (f.get bop).ks [.plugin, .branch] then some (⟨[.plugin, .branch], []⟩, []) else none
  | .ifBlock cond _ _ => if sub (f.get cond).ks [.cond] then some (⟨[.ifBlock], []⟩, []) else none
  | .elseIfBlock cond _ _ => if sub (f.get cond).ks [.cond] then some (⟨[.elif], []⟩, []) else none
  | .elseBlock _ _ => some (⟨[.elseB], []⟩, [])
  | .condition cond conds =>
    if sliceOk (f.get cond) [.expr] && sliceOk (f.get conds) [.expr] then some (⟨[.cond], []⟩, []) else none
  | .expression bo cond =>
    if sub (f.get cond).ks [.expr] && sub (f.get bo).ks [.boolOp] then some (⟨[.expr], []⟩, []) else none
  | .conditionExpression cond => if sub (f.get cond).ks [.cond] then some (⟨[.expr], []⟩, []) else none
  | .negativeExpression cond => if sub (f.get cond).ks [.cond] then some (⟨[.expr], []⟩, []) else none
  | .negativeSelector sel => if sub (f.get sel).ks [.selector] then some (⟨[.expr], []⟩, []) else none
  | .inExpression lv rv =>
    if sub (f.get lv).ks rvKinds && sub (f.get rv).ks rvKinds then some (⟨[.expr], []⟩, []) else none
  | .notInExpression lv rv =>
    if sub (f.get lv).ks rvKinds && sub (f.get rv).ks rvKinds then some (⟨[.expr], []⟩, []) else none
  | .compareExpression lv co rv =>
    if sub (f.get lv).ks rvKinds && sub (f.get co).ks [.cmpOp] && sub (f.get rv).ks rvKinds then
      some (⟨[.expr], []⟩, []) else none
  | .regexpExpression lv ro rv =>
    if sub (f.get lv).ks rvKinds && sub (f.get ro).ks [.reOp] && sub (f.get rv).ks [.aStr, .regexp] then
      some (⟨[.expr], []⟩, []) else none
  | .rvalue rv => if sub (f.get rv).ks rvKinds then some (⟨[.expr], []⟩, []) else none
  | .compareOperator => some (⟨[.cmpOp], []⟩, [])
  | .regexpOperator => some (⟨[.reOp], []⟩, [])
  | .booleanOperator => some (⟨[.boolOp], []⟩, [])
  | .selector ses => if sliceOk (f.get ses) [.selElem] then some (⟨[.selector], []⟩, []) else none
  | .selectorElement => some (⟨[.selElem], []⟩, [])

/-- The result of an action has the type and its message is one of `ms`. -/
def ActOk (T : Ty) (ms : List Bytes) : ActRes → Prop
  | .val v => HasTy v T
  | .err v m => HasTy v T ∧ m ∈ ms
  | .panic m => m ∈ ms

theorem hasTy_one {v : Val} {k : Kind} (h : v.kind = k) (hk : k ≠ .list) : HasTy v ⟨[k], []⟩ := by
  refine ⟨by simp [h], ?_⟩
  rintro l rfl; exact absurd h.symm hk

theorem hasTy_mem {v : Val} {K : List Kind} (h : v.kind ∈ K) (hk : Kind.list ∉ K) : HasTy v ⟨K, []⟩ := by
  refine ⟨h, ?_⟩
  rintro l rfl; exact absurd h hk

/-- Case analysis of values by kind. -/
theorem kind_cases (P : Val → Prop) (v : Val)
    (h : ∀ w : Val, w = v → P w) : P v := h v rfl

theorem collectAttrs_ok : ∀ {l : List Val}, (∀ x ∈ l, x.kind ∈ attrKinds) → ∃ r, collectAttrs l = some r
  | [], _ => ⟨[], rfl⟩
  | v :: l, h => by
    obtain ⟨r, hr⟩ := collectAttrs_ok fun x hx => h x (List.mem_cons_of_mem _ hx)
    have h1 := h v (List.mem_cons_self ..)
    cases v with
    | attr a => exact ⟨a :: r, by rw [collectAttrs, hr]; rfl⟩
    | ptype t => simp only [Val.kind] at h1; split at h1 <;> exact absurd h1 (by decide)
    | sect t => simp only [Val.kind] at h1; split at h1 <;> exact absurd h1 (by decide)
    | _ => exact absurd h1 (by simp only [Val.kind]; decide)

theorem collectHEntries_ok : ∀ {l : List Val}, (∀ x ∈ l, x.kind ∈ [Kind.hentry]) → ∃ r, collectHEntries l = some r
  | [], _ => ⟨[], rfl⟩
  | v :: l, h => by
    obtain ⟨r, hr⟩ := collectHEntries_ok fun x hx => h x (List.mem_cons_of_mem _ hx)
    have h1 := h v (List.mem_cons_self ..)
    cases v with
    | hentry a => exact ⟨a :: r, by rw [collectHEntries, hr]; rfl⟩
    | ptype t => simp only [Val.kind] at h1; split at h1 <;> exact absurd h1 (by decide)
    | sect t => simp only [Val.kind] at h1; split at h1 <;> exact absurd h1 (by decide)
    | attr a => cases a <;> exact absurd h1 (by simp only [Val.kind]; decide)
    | _ => exact absurd h1 (by simp only [Val.kind]; decide)

theorem collectElifs_ok : ∀ {l : List Val}, (∀ x ∈ l, x.kind ∈ [Kind.elif]) → ∃ r, collectElifs l = some r
  | [], _ => ⟨[], rfl⟩
  | v :: l, h => by
    obtain ⟨r, hr⟩ := collectElifs_ok fun x hx => h x (List.mem_cons_of_mem _ hx)
    have h1 := h v (List.mem_cons_self ..)
    cases v with
    | elif a => exact ⟨a :: r, by rw [collectElifs, hr]; rfl⟩
    | ptype t => simp only [Val.kind] at h1; split at h1 <;> exact absurd h1 (by decide)
    | sect t => simp only [Val.kind] at h1; split at h1 <;> exact absurd h1 (by decide)
    | attr a => cases a <;> exact absurd h1 (by simp only [Val.kind]; decide)
    | _ => exact absurd h1 (by simp only [Val.kind]; decide)

theorem collectExprs_ok : ∀ {l : List Val}, (∀ x ∈ l, x.kind ∈ [Kind.expr]) → ∃ r, collectExprs l = some r
  | [], _ => ⟨[], rfl⟩
  | v :: l, h => by
    obtain ⟨r, hr⟩ := collectExprs_ok fun x hx => h x (List.mem_cons_of_mem _ hx)
    have h1 := h v (List.mem_cons_self ..)
    cases v with
    | expr a => exact ⟨a :: r, by rw [collectExprs, hr]; rfl⟩
    | ptype t => simp only [Val.kind] at h1; split at h1 <;> exact absurd h1 (by decide)
    | sect t => simp only [Val.kind] at h1; split at h1 <;> exact absurd h1 (by decide)
    | attr a => cases a <;> exact absurd h1 (by simp only [Val.kind]; decide)
    | _ => exact absurd h1 (by simp only [Val.kind]; decide)

theorem collectSelElems_ok : ∀ {l : List Val}, (∀ x ∈ l, x.kind ∈ [Kind.selElem]) → ∃ r, collectSelElems l = some r
  | [], _ => ⟨[], rfl⟩
  | v :: l, h => by
    obtain ⟨r, hr⟩ := collectSelElems_ok fun x hx => h x (List.mem_cons_of_mem _ hx)
    have h1 := h v (List.mem_cons_self ..)
    cases v with
    | selElem a => exact ⟨a :: r, by rw [collectSelElems, hr]; rfl⟩
    | ptype t => simp only [Val.kind] at h1; split at h1 <;> exact absurd h1 (by decide)
    | sect t => simp only [Val.kind] at h1; split at h1 <;> exact absurd h1 (by decide)
    | attr a => cases a <;> exact absurd h1 (by simp only [Val.kind]; decide)
    | _ => exact absurd h1 (by simp only [Val.kind]; decide)

theorem collectBOPs_ok : ∀ {l : List Val}, (∀ x ∈ l, x.kind ∈ [Kind.plugin, .branch]) → ∃ r, collectBOPs l = some r
  | [], _ => ⟨[], rfl⟩
  | v :: l, h => by
    obtain ⟨r, hr⟩ := collectBOPs_ok fun x hx => h x (List.mem_cons_of_mem _ hx)
    have h1 := h v (List.mem_cons_self ..)
    cases v with
    | plugin a => exact ⟨.plugin a :: r, by rw [collectBOPs, toBOP]; simp only [hr]; rfl⟩
    | branch s c b cm f ei el => exact ⟨.branch s c b cm f ei el :: r, by rw [collectBOPs, toBOP]; simp only [hr]; rfl⟩
    | ptype t => simp only [Val.kind] at h1; split at h1 <;> exact absurd h1 (by decide)
    | sect t => simp only [Val.kind] at h1; split at h1 <;> exact absurd h1 (by decide)
    | attr a => cases a <;> exact absurd h1 (by simp only [Val.kind]; decide)
    | _ => exact absurd h1 (by simp only [Val.kind]; decide)

theorem configLoop_ok (psc : CommentBlock) : ∀ {l : List Val} (first : Bool) (c : Config), (∀ x ∈ l, x.kind ∈ [Kind.sect]) →
    ∃ r, configLoop psc first l c = some r
  | [], _, c, _ => ⟨c, rfl⟩
  | v :: l, first, c, h => by
    have ih := fun first c => configLoop_ok psc (l := l) first c fun x hx => h x (List.mem_cons_of_mem _ hx)
    have h1 := h v (List.mem_cons_self ..)
    cases v with
    | sect s =>
      have h2 : s.ptype ≠ .undefined := by
        intro hh; simp only [Val.kind, hh, if_true] at h1; exact absurd h1 (by decide)
      have h3 : (if first then { s with comment := psc } else s).ptype = s.ptype := by split <;> rfl
      rw [configLoop]
      simp only [h3]
      cases hp : s.ptype with
      | undefined => exact absurd hp h2
      | _ => exact ih _ _
    | ptype t => simp only [Val.kind] at h1; split at h1 <;> exact absurd h1 (by decide)
    | attr a => cases a <;> exact absurd h1 (by simp only [Val.kind]; decide)
    | _ => exact absurd h1 (by simp only [Val.kind]; decide)

local macro "kinv" h:ident : tactic =>
  `(tactic| (unfold Val.kind at $h:ident; split at $h:ident <;>
    first | exact ⟨_, rfl⟩ | exact ⟨_, _, _, _, _, rfl⟩ | (split at $h:ident <;> simp at $h:ident) | simp at $h:ident))

theorem inv_str {v : Val} (h : v.kind ∈ [Kind.aStr]) : ∃ a, v = .attr (.str a) := by kinv h
theorem inv_hentry {v : Val} (h : v.kind ∈ [Kind.hentry]) : ∃ a, v = .hentry a := by kinv h
theorem inv_elif {v : Val} (h : v.kind ∈ [Kind.elif]) : ∃ a, v = .elif a := by kinv h
theorem inv_elseB {v : Val} (h : v.kind ∈ [Kind.elseB]) : ∃ a, v = .elseB a := by kinv h
theorem inv_cond {v : Val} (h : v.kind ∈ [Kind.cond]) : ∃ a, v = .cond a := by kinv h
theorem inv_expr {v : Val} (h : v.kind ∈ [Kind.expr]) : ∃ a, v = .expr a := by kinv h
theorem inv_selector {v : Val} (h : v.kind ∈ [Kind.selector]) : ∃ a, v = .selector a := by kinv h
theorem inv_boolOp {v : Val} (h : v.kind ∈ [Kind.boolOp]) : ∃ a, v = .boolOp a := by kinv h
theorem inv_cmpOp {v : Val} (h : v.kind ∈ [Kind.cmpOp]) : ∃ a, v = .cmpOp a := by kinv h
theorem inv_reOp {v : Val} (h : v.kind ∈ [Kind.reOp]) : ∃ a, v = .reOp a := by kinv h
theorem inv_ifBlock {v : Val} (h : v.kind ∈ [Kind.ifBlock]) : ∃ p c b m f, v = .ifBlock p c b m f := by kinv h
theorem inv_sect {v : Val} (h : v.kind ∈ [Kind.sect]) : ∃ a, v = .sect a := by kinv h
theorem inv_ptype {v : Val} (h : v.kind ∈ [Kind.ptype]) : ∃ a, v = .ptype a := by kinv h

theorem inv_sect' {s : Section} (h : (Val.sect s).kind ∈ [Kind.sect]) : s.ptype ≠ .undefined := by
  intro hh; simp [Val.kind, hh] at h
theorem inv_ptype' {s : PluginType} (h : (Val.ptype s).kind ∈ [Kind.ptype]) : s ≠ .undefined := by
  intro hh; simp [Val.kind, hh] at h

theorem rv_ok {v : Val} (h : v.kind ∈ rvKinds) : ∃ r, toRvalue v = some r := by
  unfold rvKinds at h
  kinv h
theorem sre_ok {v : Val} (h : v.kind ∈ [Kind.aStr, .regexp]) : ∃ r, toStringOrRegexp v = some r := by kinv h
theorem hkey_ok {v : Val} (h : v.kind ∈ [Kind.aStr, .aNum]) : ∃ r, toHKey v = some r := by kinv h
theorem attr_ok {v : Val} (h : v.kind ∈ attrKinds) : ∃ a, v = .attr a ∧ a ≠ .nil := by
  unfold attrKinds at h
  unfold Val.kind at h
  split at h <;> first | (simp at h; done) | exact ⟨_, rfl, by simp⟩ | (split at h <;> simp at h)

theorem attributeComment_ok {v c : Val} {b : Bool} (h : v.kind ∈ attrKinds) :
    ∃ a, attributeComment v c b = some a ∧ (Val.attr a).kind ∈ attrKinds := by
  obtain ⟨a, rfl, ha⟩ := attr_ok h
  cases a with
  | nil => exact absurd rfl ha
  | _ => exact ⟨_, rfl, by simp [Val.kind, attrKinds]⟩

theorem attributeComment_kind {v c : Val} {b : Bool} {a : Attr} (h : attributeComment v c b = some a) :
    (Val.attr a).kind ∈ attrKinds := by
  unfold attributeComment at h
  simp only at h
  split at h <;> first | (simp only [Option.some.injEq] at h; subst h; simp [Val.kind, attrKinds]) | simp at h

theorem attribute_ok {pos : Pos} {n v : Val} (hn : n.kind ∈ [Kind.aStr])
    (hv : v.kind ∈ [Kind.aStr, .aNum, .aArr, .aHash, .plugin]) :
    ActOk ⟨attrKinds, []⟩ [] (attributeAction pos n v) := by
  obtain ⟨a, rfl⟩ := inv_str hn
  unfold Val.kind at hv
  split at hv <;> first
    | (simp only [attributeAction, ActOk]; exact hasTy_mem (by simp [Val.kind, attrKinds]) (by decide))
    | (split at hv <;> simp at hv) | simp at hv

theorem actTy_sound {o : Opts} {a : Act} {fr : Frame} {f : FTy} {pos : Pos} {text : Bytes} {ws : List Bytes} {T : Ty}
    {ms : List Bytes} (hf : FrTy fr f) (h : actTy a f = some (T, ms)) : ActOk T ms (runAct o a fr pos text ws) := by
  have hs : ∀ {l K}, sub (f.get l).ks K = true → (fr.get l).kind ∈ K := fun h => sub_mem h (hf _).1
  have hl : ∀ {l K}, sliceOk (f.get l) K = true → ∀ x ∈ toIfaceSlice (fr.get l), x.kind ∈ K := fun h => slice_kinds (hf _) h
  cases a with
  | retConfig l =>
    simp only [actTy, Option.some.injEq, Prod.mk.injEq] at h; obtain ⟨rfl, rfl⟩ := h
    simp only [runAct]
    split <;> exact hasTy_one rfl (by decide)
  | ret l =>
    simp only [actTy, Option.some.injEq, Prod.mk.injEq] at h; obtain ⟨rfl, rfl⟩ := h
    exact hf l
  | config ps pss psc ft =>
    simp only [actTy, Option.ite_none_right_eq_some, Option.some.injEq, Prod.mk.injEq, Bool.and_eq_true] at h
    obtain ⟨⟨h1, h2⟩, rfl, rfl⟩ := h
    simp only [runAct]
    obtain ⟨c, hc⟩ := configLoop_ok (commentBlock (fr.get psc) false true) true Config.empty
      (l := toIfaceSlice (fr.get ps) ++ toIfaceSlice (fr.get pss)) (by
        intro x hx
        rcases List.mem_append.1 hx with hx | hx
        · exact hl h1 x hx
        · exact hl h2 x hx)
    rw [hc]
    exact hasTy_one rfl (by decide)
  | configSection ps c =>
    simp only [actTy, Option.ite_none_right_eq_some, Option.some.injEq, Prod.mk.injEq] at h
    obtain ⟨h1, rfl, rfl⟩ := h
    have h2 := hs h1
    obtain ⟨s, hs'⟩ := inv_sect h2
    simp only [runAct, hs']
    rw [hs'] at h2
    exact hasTy_one (by simp [Val.kind, inv_sect' h2]) (by decide)
  | ptype t =>
    simp only [actTy] at h
    split at h
    · simp at h
    · rename_i ht
      simp only [Option.some.injEq, Prod.mk.injEq] at h; obtain ⟨rfl, rfl⟩ := h
      exact hasTy_one (by simp [Val.kind, ht]) (by decide)
  | pluginSection pt bops ft =>
    simp only [actTy, Option.ite_none_right_eq_some, Option.some.injEq, Prod.mk.injEq, Bool.and_eq_true] at h
    obtain ⟨⟨h1, h2⟩, rfl, rfl⟩ := h
    have h3 := hs h1
    obtain ⟨t, ht⟩ := inv_ptype h3
    obtain ⟨r, hr⟩ := collectBOPs_ok (hl h2)
    simp only [runAct, ht, hr]
    rw [ht] at h3
    exact hasTy_one (by simp [Val.kind, inv_ptype' h3]) (by decide)
  | plugin n as c ft =>
    simp only [actTy, Option.ite_none_right_eq_some, Option.some.injEq, Prod.mk.injEq, Bool.and_eq_true] at h
    obtain ⟨⟨h1, h2⟩, rfl, rfl⟩ := h
    obtain ⟨t, ht⟩ := inv_str (hs h1)
    have h3 := hs h2
    simp only [runAct, ht]
    generalize fr.get as = v at h3
    unfold Val.kind at h3
    split at h3 <;> first
      | exact hasTy_one rfl (by decide)
      | (split at h3 <;> simp at h3) | simp at h3
  | attributes a as c =>
    have hk : ∀ l, ActOk (⟨[.attrs], []⟩ : Ty) [] (.val (.attrs l)) := fun l => hasTy_one rfl (by decide)
    simp only [actTy] at h
    split at h
    · rename_i h1
      simp only [Option.some.injEq, Prod.mk.injEq] at h; obtain ⟨rfl, rfl⟩ := h
      simp only [runAct]
      have key : ∀ l : List Val, (∀ x ∈ l, x.kind ∈ attrKinds) →
          ∃ r, collectAttrs (l ++ toIfaceSlice (fr.get as)) = some r := by
        intro l hl'
        refine collectAttrs_ok fun x hx => ?_
        rcases List.mem_append.1 hx with hx | hx
        · exact hl' x hx
        · exact hl h1 x hx
      cases hc : attributeComment (fr.get a) (fr.get c) false with
      | none =>
        obtain ⟨r, hr⟩ := key [] (by simp)
        simp only [hr]; exact hk _
      | some x =>
        obtain ⟨r, hr⟩ := key [.attr x] (by
          intro y hy; simp only [List.mem_singleton] at hy; subst hy; exact attributeComment_kind hc)
        simp only [hr]; exact hk _
    · simp only [Option.some.injEq, Prod.mk.injEq] at h; obtain ⟨rfl, rfl⟩ := h
      simp only [runAct]
      split
      · exact hasTy_one rfl (by decide)
      · exact ⟨hasTy_one rfl (by decide), by simp [tNotAttrMsg]⟩
  | attributeComment a c b =>
    simp only [actTy] at h
    split at h
    · rename_i h1
      simp only [Option.some.injEq, Prod.mk.injEq] at h; obtain ⟨rfl, rfl⟩ := h
      obtain ⟨x, hx, hx2⟩ := attributeComment_ok (c := fr.get c) (b := b) (hs h1)
      simp only [runAct, hx]
      exact hasTy_mem hx2 (by decide)
    · simp only [Option.some.injEq, Prod.mk.injEq] at h; obtain ⟨rfl, rfl⟩ := h
      simp only [runAct]
      split
      · rename_i heq
        exact hasTy_mem (List.mem_cons_of_mem _ (attributeComment_kind heq)) (by decide)
      · exact ⟨hasTy_mem (by simp [Val.kind]) (by decide), by simp [tUnsupMsg]⟩
  | «attribute» n v =>
    simp only [actTy, Option.ite_none_right_eq_some, Option.some.injEq, Prod.mk.injEq, Bool.and_eq_true] at h
    obtain ⟨⟨h1, h2⟩, rfl, rfl⟩ := h
    exact attribute_ok (hs h1) (hs h2)
  | number =>
    simp only [actTy, Option.some.injEq, Prod.mk.injEq] at h; obtain ⟨rfl, rfl⟩ := h
    simp only [runAct]
    split
    · exact hasTy_one rfl (by decide)
    · exact ⟨hasTy_one rfl (by decide), by simp [tRangeMsg]⟩
  | array vs ft =>
    simp only [actTy, Option.ite_none_right_eq_some, Option.some.injEq, Prod.mk.injEq] at h
    obtain ⟨h1, rfl, rfl⟩ := h
    have h3 := hs h1
    simp only [runAct]
    generalize fr.get vs = v at h3
    unfold Val.kind at h3
    split at h3 <;> first
      | exact hasTy_one rfl (by decide)
      | (split at h3 <;> simp at h3) | simp at h3
  | hash vs ft =>
    simp only [actTy, Option.ite_none_right_eq_some, Option.some.injEq, Prod.mk.injEq] at h
    obtain ⟨h1, rfl, rfl⟩ := h
    have h3 := hs h1
    simp only [runAct]
    generalize fr.get vs = v at h3
    unfold Val.kind at h3
    split at h3 <;> first
      | exact hasTy_one rfl (by decide)
      | (split at h3 <;> simp at h3) | simp at h3
  | hashentries e es =>
    simp only [actTy, Option.ite_none_right_eq_some, Option.some.injEq, Prod.mk.injEq, Bool.and_eq_true] at h
    obtain ⟨⟨h1, h2⟩, rfl, rfl⟩ := h
    obtain ⟨⟨p, k, v, c⟩, ht⟩ := inv_hentry (hs h1)
    obtain ⟨r, hr⟩ := collectHEntries_ok (hl h2)
    simp only [runAct, ht, collectHEntries, hr, Option.map_some]
    exact hasTy_one rfl (by decide)
  | hashentry n v c =>
    simp only [actTy] at h
    split at h
    · rename_i h1
      simp only [Bool.and_eq_true] at h1
      simp only [Option.some.injEq, Prod.mk.injEq] at h; obtain ⟨rfl, rfl⟩ := h
      obtain ⟨k, hk⟩ := hkey_ok (hs h1.1)
      obtain ⟨a, ha, _⟩ := attr_ok (hs h1.2)
      simp only [runAct, hk, ha, toAttr]
      exact hasTy_one rfl (by decide)
    · simp only [Option.some.injEq, Prod.mk.injEq] at h; obtain ⟨rfl, rfl⟩ := h
      simp only [runAct]
      split
      · exact hasTy_one rfl (by decide)
      · simp [badAssert, ActOk, tConvMsg]
  | elseIfComment e c =>
    simp only [actTy, Option.ite_none_right_eq_some, Option.some.injEq, Prod.mk.injEq] at h
    obtain ⟨h1, rfl, rfl⟩ := h
    obtain ⟨⟨p, k, v, c, d⟩, ht⟩ := inv_elif (hs h1)
    simp only [runAct, ht]
    exact hasTy_one rfl (by decide)
  | elseComment e c =>
    simp only [actTy, Option.ite_none_right_eq_some, Option.some.injEq, Prod.mk.injEq] at h
    obtain ⟨h1, rfl, rfl⟩ := h
    obtain ⟨⟨p, k, v, c⟩, ht⟩ := inv_elseB (hs h1)
    simp only [runAct, ht]
    exact hasTy_one rfl (by decide)
  | branch i eis el c =>
    simp only [actTy, Option.ite_none_right_eq_some, Option.some.injEq, Prod.mk.injEq, Bool.and_eq_true] at h
    obtain ⟨⟨⟨h1, h2⟩, h3⟩, rfl, rfl⟩ := h
    obtain ⟨r, hr⟩ := collectElifs_ok (hl h2)
    obtain ⟨p, cc, b, m, ft, ht⟩ := inv_ifBlock (hs h1)
    have h4 := hs h3
    simp only [runAct, hr, ht]
    generalize fr.get el = v at h4
    unfold Val.kind at h4
    split at h4 <;> first
      | exact hasTy_one rfl (by decide)
      | (split at h4 <;> simp at h4) | simp at h4
  | branchOrPluginComment b c =>
    simp only [actTy, Option.ite_none_right_eq_some, Option.some.injEq, Prod.mk.injEq] at h
    obtain ⟨h1, rfl, rfl⟩ := h
    have h4 := hs h1
    simp only [runAct]
    generalize fr.get b = v at h4
    unfold Val.kind at h4
    split at h4 <;> first
      | (rename_i p; cases p; exact hasTy_mem (by simp [Val.kind]) (by decide))
      | exact hasTy_mem (by simp [Val.kind]) (by decide)
      | (split at h4 <;> simp at h4) | simp at h4
  | ifBlock c b m =>
    simp only [actTy, Option.ite_none_right_eq_some, Option.some.injEq, Prod.mk.injEq] at h
    obtain ⟨h1, rfl, rfl⟩ := h
    obtain ⟨x, ht⟩ := inv_cond (hs h1)
    simp only [runAct, ht]
    exact hasTy_one rfl (by decide)
  | elseIfBlock c b m =>
    simp only [actTy, Option.ite_none_right_eq_some, Option.some.injEq, Prod.mk.injEq] at h
    obtain ⟨h1, rfl, rfl⟩ := h
    obtain ⟨x, ht⟩ := inv_cond (hs h1)
    simp only [runAct, ht]
    exact hasTy_one rfl (by decide)
  | condition c cs =>
    simp only [actTy, Option.ite_none_right_eq_some, Option.some.injEq, Prod.mk.injEq, Bool.and_eq_true] at h
    obtain ⟨⟨h1, h2⟩, rfl, rfl⟩ := h
    obtain ⟨r, hr⟩ := collectExprs_ok (l := toIfaceSlice (fr.get c) ++ toIfaceSlice (fr.get cs)) (by
        intro x hx
        rcases List.mem_append.1 hx with hx | hx
        · exact hl h1 x hx
        · exact hl h2 x hx)
    simp only [runAct, hr]
    exact hasTy_one rfl (by decide)
  | expression b c =>
    simp only [actTy, Option.ite_none_right_eq_some, Option.some.injEq, Prod.mk.injEq, Bool.and_eq_true] at h
    obtain ⟨⟨h1, h2⟩, rfl, rfl⟩ := h
    obtain ⟨x, ht⟩ := inv_expr (hs h1)
    obtain ⟨y, hy⟩ := inv_boolOp (hs h2)
    simp only [runAct, ht, hy]
    exact hasTy_one rfl (by decide)
  | conditionExpression c =>
    simp only [actTy, Option.ite_none_right_eq_some, Option.some.injEq, Prod.mk.injEq] at h
    obtain ⟨h1, rfl, rfl⟩ := h
    obtain ⟨x, ht⟩ := inv_cond (hs h1)
    simp only [runAct, ht]
    exact hasTy_one rfl (by decide)
  | negativeExpression c =>
    simp only [actTy, Option.ite_none_right_eq_some, Option.some.injEq, Prod.mk.injEq] at h
    obtain ⟨h1, rfl, rfl⟩ := h
    obtain ⟨x, ht⟩ := inv_cond (hs h1)
    simp only [runAct, ht]
    exact hasTy_one rfl (by decide)
  | negativeSelector c =>
    simp only [actTy, Option.ite_none_right_eq_some, Option.some.injEq, Prod.mk.injEq] at h
    obtain ⟨h1, rfl, rfl⟩ := h
    obtain ⟨x, ht⟩ := inv_selector (hs h1)
    simp only [runAct, ht]
    exact hasTy_one rfl (by decide)
  | inExpression l r =>
    simp only [actTy, Option.ite_none_right_eq_some, Option.some.injEq, Prod.mk.injEq, Bool.and_eq_true] at h
    obtain ⟨⟨h1, h2⟩, rfl, rfl⟩ := h
    obtain ⟨x, hx⟩ := rv_ok (hs h1)
    obtain ⟨y, hy⟩ := rv_ok (hs h2)
    simp only [runAct, hx, hy]
    exact hasTy_one rfl (by decide)
  | notInExpression l r =>
    simp only [actTy, Option.ite_none_right_eq_some, Option.some.injEq, Prod.mk.injEq, Bool.and_eq_true] at h
    obtain ⟨⟨h1, h2⟩, rfl, rfl⟩ := h
    obtain ⟨x, hx⟩ := rv_ok (hs h1)
    obtain ⟨y, hy⟩ := rv_ok (hs h2)
    simp only [runAct, hx, hy]
    exact hasTy_one rfl (by decide)
  | compareExpression l c r =>
    simp only [actTy, Option.ite_none_right_eq_some, Option.some.injEq, Prod.mk.injEq, Bool.and_eq_true] at h
    obtain ⟨⟨⟨h1, h3⟩, h2⟩, rfl, rfl⟩ := h
    obtain ⟨x, hx⟩ := rv_ok (hs h1)
    obtain ⟨y, hy⟩ := rv_ok (hs h2)
    obtain ⟨z, hz⟩ := inv_cmpOp (hs h3)
    simp only [runAct, hx, hy, hz]
    exact hasTy_one rfl (by decide)
  | regexpExpression l c r =>
    simp only [actTy, Option.ite_none_right_eq_some, Option.some.injEq, Prod.mk.injEq, Bool.and_eq_true] at h
    obtain ⟨⟨⟨h1, h3⟩, h2⟩, rfl, rfl⟩ := h
    obtain ⟨x, hx⟩ := rv_ok (hs h1)
    obtain ⟨y, hy⟩ := sre_ok (hs h2)
    obtain ⟨z, hz⟩ := inv_reOp (hs h3)
    simp only [runAct, hx, hy, hz]
    exact hasTy_one rfl (by decide)
  | rvalue l =>
    simp only [actTy, Option.ite_none_right_eq_some, Option.some.injEq, Prod.mk.injEq] at h
    obtain ⟨h1, rfl, rfl⟩ := h
    obtain ⟨x, hx⟩ := rv_ok (hs h1)
    simp only [runAct, hx]
    exact hasTy_one rfl (by decide)
  | selector l =>
    simp only [actTy, Option.ite_none_right_eq_some, Option.some.injEq, Prod.mk.injEq] at h
    obtain ⟨h1, rfl, rfl⟩ := h
    obtain ⟨x, hx⟩ := collectSelElems_ok (hl h1)
    simp only [runAct, hx]
    exact hasTy_one rfl (by decide)
  | _ =>
    simp only [actTy, Option.some.injEq, Prod.mk.injEq] at h; obtain ⟨rfl, rfl⟩ := h
    exact hasTy_one rfl (by decide)

end Verif
