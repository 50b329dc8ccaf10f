import Verif.Proofs.SoundPosBlock
import Verif.Proofs.CondPos
import Verif.Proofs.EntryPos
import Verif.Props.Language
import Verif.Props.Positions
/-
Properties C04 (every position, exactly) and C53 (warnings about comments without a place).
-/
namespace Verif.Props
open Verif Spec

theorem posFn_pfOf (data : Bytes) : PosFn (pfOf data) (posAt data) data.length := by
  intro k b h
  unfold pfOf
  congr 1
  omega

theorem initSt_warns (o : Opts) (data : Bytes) (ff : List FF) : (initSt o data ff).warns = [] := by
  unfold initSt St.firstRead
  simp only
  split <;> rfl

/-- **C04** If `Parse` returns a nil error, the input is the text of a well-formed tree and the
configuration is the one the tree denotes in which every node carries the line, column and offset
of the place in the input the specification (`Spec.CFile.astAt`) names for it. -/
theorem C04_exact (o : Opts) (filename data : Bytes) (ff : List FF)
    (hv : o.allowInvalid = false ∨ ValidUTF8 data)
    (h : (parse o filename data ff).1.errs = []) :
    ∃ k : CFile, k.Ok ∧ k.text = data ∧
      (parse o filename data ff).1 = .done (.config (k.astAt o.ignoreComments o.excWarn (posAt data))) [] := by
  have hvalid : ValidUTF8 data := by
    rcases hv with hv | hv
    · exact C03_valid o filename data ff hv h
    · exact hv
  obtain ⟨c, hc⟩ := C13_nil_error o filename data ff h
  have hn : parse o filename data ff = parse { o with maxExpr := none } filename data ff := by
    rcases C11_limit o filename data ff with h1 | ⟨es, e, h1, _⟩
    · exact h1
    · rw [h1] at h; simp [ParseRes.errs] at h
  have hc' := hc
  rw [hn, parse_finish] at hc'
  cases he : evalInit (parseFuel data) { o with maxExpr := none } data ff with
  | timeout => rw [he] at hc'; cases hc'
  | fail t => rw [he] at hc'; simp [finish] at hc'
  | panic m t => rw [he] at hc'; simp [finish] at hc'
  | ok v t =>
    rw [he] at hc'
    simp only [finish, ParseRes.done.injEq, dedupe_nil_iff] at hc'
    obtain ⟨t', h', rfl⟩ := evalInit_ok he
    have hcl : Clean { o with maxExpr := none } data (initSt { o with maxExpr := none } data ff) :=
      ⟨initSt_errs ff (fine_of_valid (.inr hvalid)), by rw [initSt_rest]; exact fine_of_valid (.inr hvalid),
        PtOk.init _ data ff hvalid⟩
    have hg := eval_rp (o := { o with maxExpr := none }) (data := data) rfl _ _ _ _ _ (gram_warnOk .init) hcl h' hc'.2
    have hg1 := hg.1
    rw [initSt_rest, initSt_warns] at hg1
    obtain ⟨-, k, k1, k2, k3⟩ := init_p (posFn_pfOf data) (Nat.zero_add _) ⟨_, hg1⟩
    refine ⟨k, k1, k2.symm, ?_⟩
    rw [hc, ← hc'.1, k3]

/-- **C53** The warnings of a successful parse are, in the order of the file, one for every comment
gap in a place where the configuration cannot keep comments (`Spec.CFile.exc`), naming the place
where the gap starts. -/
theorem C53_warnings (o : Opts) (filename data : Bytes) (ff : List FF) (c : Config)
    (hv : o.allowInvalid = false ∨ ValidUTF8 data)
    (h : (parse o filename data ff).1 = .done (.config c) []) :
    ∃ k : CFile, k.Ok ∧ k.text = data ∧ c.warnings = warningsOf o.excWarn (posAt data) k.exc := by
  obtain ⟨k, k1, k2, k3⟩ := C04_exact o filename data ff hv (by rw [h]; rfl)
  rw [h] at k3
  injection k3 with k3
  injection k3 with k3
  exact ⟨k, k1, k2, by rw [k3]; rfl⟩

/-- **C53** Without the option there are no warnings. -/
theorem C53_off (o : Opts) (filename data : Bytes) (ff : List FF) (c : Config)
    (hv : o.allowInvalid = false ∨ ValidUTF8 data) (ho : o.excWarn = false)
    (h : (parse o filename data ff).1 = .done (.config c) []) : c.warnings = [] := by
  obtain ⟨k, -, -, k3⟩ := C53_warnings o filename data ff c hv h
  rw [k3, ho]; rfl

/-- **C53** With the option there is no warning exactly when no such place holds a comment. -/
theorem C53_silent (o : Opts) (filename data : Bytes) (ff : List FF) (c : Config)
    (hv : o.allowInvalid = false ∨ ValidUTF8 data) (ho : o.excWarn = true)
    (h : (parse o filename data ff).1 = .done (.config c) []) :
    ∃ k : CFile, k.Ok ∧ k.text = data ∧ (c.warnings = [] ↔ ∀ g ∈ k.exc, g.2.lines = []) := by
  obtain ⟨k, k1, k2, k3⟩ := C53_warnings o filename data ff c hv h
  refine ⟨k, k1, k2, ?_⟩
  rw [k3, ho]
  simp [warningsOf, List.filter_eq_nil_iff]

/-- Two comments without a place, one with. -/
example : (match (parse { excWarn := true } [] b!"# a\ninput # b\n{ stdin { x => # c\n 1 } }" []).1 with
    | .done (.config c) [] => c.warnings
    | _ => []) = [b!"exceptional comment at 2:6 [9]", b!"exceptional comment at 3:15 [28]"] := by decide +kernel

/-- **C37** The offset -1 tells that there is no position: of a condition in whose expressions no offset is negative (be it parsed or
built by hand) `Condition.Pos` has the offset -1 exactly if it has no expressions. -/
theorem C37_empty (cond : Condition) (h : ∀ e ∈ cond, ∀ p, e.pos = some p → 0 ≤ p.offset) :
    (∃ p, condPos cond = some p ∧ p.offset = -1) ↔ cond = [] := by
  cases cond with
  | nil => exact ⟨fun _ => rfl, fun _ => ⟨_, rfl, rfl⟩⟩
  | cons e r =>
    refine ⟨fun ⟨p, h1, h2⟩ => ?_, fun h => nomatch h⟩
    have := h e (List.mem_cons_self ..) p h1
    omega

/-- A condition built by hand, with the zero value as position. -/
example : ∀ e ∈ [Expr.rval Pos.zero ⟨Pos.zero, ⟨.noOp, Pos.zero⟩⟩ .nil], ∀ p, e.pos = some p → 0 ≤ p.offset := by
  intro e he p hp
  simp only [List.mem_singleton] at he
  subst he
  injection hp with hp
  subst hp
  decide

/-- **C37** `Condition.Pos` of a parsed condition, also of a nested one, is the line, column and offset of the place in the input
where the condition is written: the condition is the one that text `x.text` at that place denotes. -/
theorem C37_position (o : Opts) (filename data : Bytes) (ff : List FF) (c : Config)
    (hv : o.allowInvalid = false ∨ ValidUTF8 data)
    (h : (parse o filename data ff).1 = .done (.config c) []) (cond : Condition) (hc : cond ∈ configConds c) :
    ∃ (x : CCond) (pre post : Bytes), data = pre ++ x.text ++ post ∧
      cond = x.astAt o.ignoreComments (posAt data) pre.length ∧ condPos cond = some (posAt data pre.length) := by
  obtain ⟨k, -, k2, k3⟩ := C04_exact o filename data ff hv (by rw [h]; rfl)
  rw [h] at k3
  injection k3 with k3
  injection k3 with k3
  subst k3
  obtain ⟨x, pre, post, h1, h2⟩ := file_condAt o.excWarn k k2 cond hc
  refine ⟨x, pre, post, h1, h2, ?_⟩
  rw [h2]
  cases x with
  | mk e m => cases e <;> rfl

/-- The condition of this file and the one in its parentheses are found where they are written. -/
example : (match (parse {} b!"f" b!"filter{if [a]==1 and (![b]) {} }" []).1 with
    | .done (.config c) [] => (configConds c).map fun x => (condPos x).map (·.offset)
    | _ => []) = [some 10, some 22] := by decide +kernel

/-- **C04** `HashEntry.Pos` of an entry with a string key is the place where the key is written, behind the comments of the entry.
An entry with a number key has no position. -/
theorem C04_entries (o : Opts) (filename data : Bytes) (ff : List FF) (c : Config)
    (hv : o.allowInvalid = false ∨ ValidUTF8 data)
    (h : (parse o filename data ff).1 = .done (.config c) []) (p : Pos) (key : HKey) (v : Attr) (com : CommentBlock)
    (he : HEntry.mk p key v com ∈ configEntries c) :
    (∀ a, key = .str a → ∃ (x : StrLit) (pre post : Bytes), data = pre ++ x.text ++ post ∧ x = ⟨a.sat, a.value⟩ ∧
      (HEntry.mk p key v com).pos = posAt data pre.length) ∧
    (∀ a, key = .num a → (HEntry.mk p key v com).pos = Pos.zero) := by
  obtain ⟨k, k1, k2, k3⟩ := C04_exact o filename data ff hv (by rw [h]; rfl)
  rw [h] at k3
  injection k3 with k3
  injection k3 with k3
  subst k3
  obtain ⟨x, pre, post, h1, h2⟩ := file_keys o.excWarn k k2 _ he
  subst h2
  cases x with
  | str x =>
    refine ⟨fun a ha => ?_, nofun⟩
    injection ha with ha
    subst ha
    exact ⟨x, pre, post, h1, rfl, rfl⟩
  | num t =>
    refine ⟨nofun, fun a ha => ?_⟩
    injection ha with ha
    subst ha
    rfl

/-- The keys of this file are found where they are written. -/
example : (match (parse {} b!"f" b!"input{ aa { b=>{\n 'k'=>1 2=>3} } }" []).1 with
    | .done (.config c) [] => (configEntries c).map fun x => x.pos.offset
    | _ => []) = [18, 0] := by decide +kernel

end Verif.Props
