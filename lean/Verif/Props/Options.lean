import Verif.Model.Options
/-
Property C48: parser options.
-/
namespace Verif.Props
open Verif

/-- Two settings no parser can tell apart: a store entry that is not a `bool` counts as
`false` under the two option keys. -/
def SameSettings (s t : Settings) : Prop :=
  s.maxExprCnt = t.maxExprCnt ∧ s.entrypoint = t.entrypoint ∧ s.debug = t.debug ∧
  s.memoize = t.memoize ∧ s.allowInvalidUTF8 = t.allowInvalidUTF8 ∧ s.recover = t.recover ∧
  ∀ k, s.globalStore k = t.globalStore k ∨
    (k = ignoreKey ∨ k = excKey) ∧ (s.globalStore k = .bool true ↔ t.globalStore k = .bool true)

/-- Only the `bool` true counts as true. -/
theorem asBool_eq (v : GVal) : v.asBool = decide (v = .bool true) := by
  cases v with
  | bool b => cases b <;> rfl
  | nil => rfl
  | other n => rfl

/-- **C48** Applying the option that an application returned restores the settings. -/
theorem C48_restore (o : POpt) (s : Settings) (he : s.entrypoint ≠ []) :
    SameSettings ((o.apply s).2.apply (o.apply s).1).1 s := by
  cases o <;> simp [POpt.apply, SameSettings, storeSet, he]
  · intro k; rename_i key v; by_cases h : k = key <;> simp [h]
  · intro k; by_cases h : k = ignoreKey <;> simp [h, asBool_eq]
  · intro k; by_cases h : k = excKey <;> simp [h, asBool_eq]

/-- Does the option set `IgnoreComments`? -/
def setsIgnore : POpt → Option Bool
  | .ignoreComments b => some b
  | .globalStore k v => if k = ignoreKey then some (decide (v = .bool true)) else none
  | _ => none
/-- Does the option set `ExceptionalCommentsWarning`? -/
def setsExc : POpt → Option Bool
  | .exceptionalCommentsWarning b => some b
  | .globalStore k v => if k = excKey then some (decide (v = .bool true)) else none
  | _ => none
/-- Does the option set `AllowInvalidUTF8`? -/
def setsInvalid : POpt → Option Bool
  | .allowInvalidUTF8 b => some b
  | _ => none
/-- Does the option set `MaxExpressions`? -/
def setsMax : POpt → Option UInt64
  | .maxExpressions n => some n
  | _ => none

/-- The last value a list of options gives to a setting. -/
def lastSet {α : Type} (f : POpt → Option α) (dflt : α) (l : List POpt) : α :=
  ((l.filterMap f).getLast?).getD dflt

theorem lastSet_cons {α : Type} (f : POpt → Option α) (d : α) (o : POpt) (l : List POpt) :
    lastSet f d (o :: l) = lastSet f ((f o).getD d) l := by
  simp only [lastSet, List.filterMap_cons]
  cases f o with
  | none => rfl
  | some a => simp [List.getLast?_cons]

theorem keys_ne : ignoreKey ≠ excKey := by decide

theorem setOptions_opts (l : List POpt) (s : Settings) :
    (setOptions s l).opts =
      { ignoreComments := lastSet setsIgnore (s.globalStore ignoreKey).asBool l
        excWarn := lastSet setsExc (s.globalStore excKey).asBool l
        allowInvalid := lastSet setsInvalid s.allowInvalidUTF8 l
        maxExpr := limitOf (lastSet setsMax s.maxExprCnt l) } := by
  induction l generalizing s with
  | nil => rfl
  | cons o l ih =>
    rw [setOptions, ih]
    simp only [lastSet_cons]
    have hk := keys_ne
    cases o <;> simp [POpt.apply, setsIgnore, setsExc, setsInvalid, setsMax, storeSet, asBool_eq, hk, hk.symm]
    rename_i k v
    have e1 : (ignoreKey = k) = (k = ignoreKey) := propext eq_comm
    have e2 : (excKey = k) = (k = excKey) := propext eq_comm
    simp only [e1, e2]
    by_cases h1 : k = ignoreKey <;> by_cases h2 : k = excKey <;> simp [h1, h2, hk, hk.symm] <;>
      simp_all

/-- **C48** For every list of options, the parser runs with the last value given to each
setting and the documented default where none is given: order matters only between
occurrences of the same option, and no option disturbs another one. -/
theorem C48_last_wins (l : List POpt) :
    parserOpts l =
      { ignoreComments := lastSet setsIgnore false l
        excWarn := lastSet setsExc false l
        allowInvalid := lastSet setsInvalid false l
        maxExpr := limitOf (lastSet setsMax 0 l) } :=
  setOptions_opts l Settings.default

/-- Does the option set the entry point?  `Entrypoint("")` means the default. -/
def setsEntry : POpt → Option Bytes
  | .entrypoint [] => some b!"init"
  | .entrypoint r => some r
  | _ => none
/-- Does the option set `Debug`? -/
def setsDebug : POpt → Option Bool
  | .debug b => some b
  | _ => none
/-- Does the option set `Memoize`? -/
def setsMemo : POpt → Option Bool
  | .memoize b => some b
  | _ => none
/-- Does the option set `Recover`? -/
def setsRecover : POpt → Option Bool
  | .recover b => some b
  | _ => none
/-- Does the option set the key `key` of the store? -/
def setsKey (key : Bytes) : POpt → Option GVal
  | .globalStore k v => if k = key then some v else none
  | .ignoreComments b => if key = b!"__ignoreComments" then some (.bool b) else none
  | .exceptionalCommentsWarning b => if key = b!"__exceptionalCommentWarning" then some (.bool b) else none
  | _ => none

theorem setOptions_rest (l : List POpt) (s : Settings) :
    (setOptions s l).entrypoint = lastSet setsEntry s.entrypoint l ∧
    (setOptions s l).debug = lastSet setsDebug s.debug l ∧
    (setOptions s l).memoize = lastSet setsMemo s.memoize l ∧
    (setOptions s l).recover = lastSet setsRecover s.recover l ∧
    ∀ k, (setOptions s l).globalStore k = lastSet (setsKey k) (s.globalStore k) l := by
  induction l generalizing s with
  | nil => exact ⟨rfl, rfl, rfl, rfl, fun _ => rfl⟩
  | cons o l ih =>
    rw [setOptions]
    obtain ⟨h1, h2, h3, h4, h5⟩ := ih (o.apply s).1
    rw [h1, h2, h3, h4]
    simp only [h5, lastSet_cons]
    refine ⟨?_, ?_, ?_, ?_, ?_⟩
    · congr 1
      cases o with
      | entrypoint r => cases r <;> rfl
      | _ => rfl
    · congr 1; cases o <;> rfl
    · congr 1; cases o <;> rfl
    · congr 1; cases o <;> rfl
    · intro k
      congr 1
      cases o with
      | globalStore key v =>
        simp only [POpt.apply, storeSet, setsKey]
        by_cases h : k = key
        · rw [if_pos h, if_pos h.symm]; rfl
        · rw [if_neg h, if_neg (fun e => h e.symm)]; rfl
      | ignoreComments b =>
        simp only [POpt.apply, storeSet, setsKey, ignoreKey]
        split <;> rfl
      | exceptionalCommentsWarning b =>
        simp only [POpt.apply, storeSet, setsKey, excKey]
        split <;> rfl
      | _ => rfl

/-- **C48** The same for the other settings and for every key of `GlobalStore`. -/
theorem C48_last_wins_rest (l : List POpt) :
    (setOptions Settings.default l).entrypoint = lastSet setsEntry b!"init" l ∧
    (setOptions Settings.default l).debug = lastSet setsDebug false l ∧
    (setOptions Settings.default l).memoize = lastSet setsMemo false l ∧
    (setOptions Settings.default l).recover = lastSet setsRecover true l ∧
    ∀ k, (setOptions Settings.default l).globalStore k = lastSet (setsKey k) .nil l :=
  setOptions_rest l Settings.default

/-- Instances: an entry point given twice, and a key of the caller next to `IgnoreComments`. -/
example : let s := setOptions Settings.default [.entrypoint b!"value", .recover false, .globalStore b!"k" (.other 7),
      .ignoreComments true, .entrypoint [], .debug true]
    s.entrypoint = b!"init" ∧ s.debug = true ∧ s.memoize = false ∧ s.recover = false ∧ s.globalStore b!"k" = .other 7 ∧
    s.globalStore b!"__ignoreComments" = .bool true ∧ s.globalStore b!"x" = .nil := by decide

/-- A value under the key that is not a `bool` counts as false. -/
example : parserOpts [.ignoreComments true, .globalStore b!"__ignoreComments" (.other 7)] = {} := rfl

/-- Instances: the option sets of the three commands, and `MaxExpressions(0)`. -/
example : parserOpts [] = {} ∧ parserOpts [.ignoreComments true] = { ignoreComments := true } ∧
    parserOpts [.exceptionalCommentsWarning true] = { excWarn := true } ∧
    parserOpts [.ignoreComments true, .maxExpressions 5, .ignoreComments false, .maxExpressions 0]
      = {} := ⟨rfl, rfl, rfl, rfl⟩

end Verif.Props
