import Verif.Model.Errors
import Verif.Model.Actions
import Verif.Spec.NilFree
/-
Properties C34, C35, C36, C38: package `ast`.
-/
namespace Verif.Props
open Verif Verif.Spec

/-! ### C34, C35 -/

/-- The attribute is there (not a nil interface) and is called `id`. -/
def NamedId (a : Attr) : Prop := a ≠ .nil ∧ a.name = b!"id"

private theorem namedId_iff (a : Attr) : ((!a.isNil && a.name == b!"id") = true) ↔ NamedId a := by
  cases a <;> simp [Attr.isNil, NamedId]

/-- What the loop of `ID` finds. -/
private theorem idLoop_spec (l : List Attr) :
    (idLoop l = none ∧ ∀ a ∈ l, ¬ NamedId a) ∨
    ∃ pre a post, l = pre ++ a :: post ∧ (∀ x ∈ pre, ¬ NamedId x) ∧ NamedId a ∧
      idLoop l = some (match a with
        | .str s => .id s.value
        | _ => .notString b!"attribut id is not of type string attribute") := by
  induction l with
  | nil => left; simp [idLoop]
  | cons a as ih =>
    by_cases h : NamedId a
    · right
      refine ⟨[], a, as, rfl, by simp, h, ?_⟩
      simp only [idLoop]
      rw [if_pos ((namedId_iff a).2 h)]
      cases a <;> rfl
    · have hn : idLoop (a :: as) = idLoop as := by
        simp only [idLoop]
        rw [if_neg (fun hc => h ((namedId_iff a).1 hc))]
      rcases ih with ⟨h1, h2⟩ | ⟨pre, b, post, h1, h2, h3, h4⟩
      · left; exact ⟨hn.trans h1, by simpa using ⟨h, h2⟩⟩
      · right
        refine ⟨a :: pre, b, post, by simp [h1], ?_, h3, hn.trans h4⟩
        simpa using ⟨h, h2⟩

private theorem split_unique {l : List Attr} {pre pre' post post' : List Attr} {a a' : Attr}
    (h : l = pre ++ a :: post) (h' : l = pre' ++ a' :: post')
    (hp : ∀ x ∈ pre, ¬ NamedId x) (hp' : ∀ x ∈ pre', ¬ NamedId x)
    (ha : NamedId a) (ha' : NamedId a') : a = a' := by
  induction pre generalizing l pre' with
  | nil =>
    cases pre' with
    | nil => simp [h] at h'; exact h'.1
    | cons b bs =>
      simp [h] at h'
      exact absurd (h'.1 ▸ ha) (hp' b (by simp))
  | cons b bs ih =>
    cases pre' with
    | nil => simp [h] at h'; exact absurd (h'.1 ▸ ha') (hp b (by simp))
    | cons c cs =>
      simp [h] at h'
      exact ih rfl h'.2 (fun x hx => hp x (by simp [hx])) (fun x hx => hp' x (by simp [hx]))

/-- **C34** `ID` returns `v` exactly when the first attribute named `id` is a string
attribute with value `v`. -/
theorem C34_id_value (p : Plugin) (v : Bytes) :
    p.id = .id v ↔ ∃ pre s post, p.attrs = pre ++ .str s :: post ∧ s.name = b!"id" ∧ s.value = v ∧
      ∀ a ∈ pre, ¬ NamedId a := by
  rcases idLoop_spec p.attrs with ⟨h1, h2⟩ | ⟨pre, a, post, h1, h2, h3, h4⟩
  · simp only [Plugin.id, h1]
    simp only [reduceCtorEq, false_iff]
    rintro ⟨pre, s, post, h, hn, -⟩
    exact h2 (.str s) (by simp [h]) ⟨by simp, hn⟩
  · simp only [Plugin.id, h4]
    constructor
    · intro h
      cases a <;> simp at h
      rename_i s
      exact ⟨pre, s, post, h1, h3.2, h, h2⟩
    · rintro ⟨pre', s, post', h, hn, hv, hp⟩
      have := split_unique h1 h h2 hp h3 ⟨by simp, hn⟩
      subst this
      simp [hv]

/-- **C34** `ID` returns the type error exactly when the first attribute named `id` is not
a string attribute. -/
theorem C34_id_wrong_type (p : Plugin) :
    (∃ m, p.id = .notString m) ↔ ∃ pre a post, p.attrs = pre ++ a :: post ∧ NamedId a ∧
      (∀ s, a ≠ .str s) ∧ ∀ x ∈ pre, ¬ NamedId x := by
  rcases idLoop_spec p.attrs with ⟨h1, h2⟩ | ⟨pre, a, post, h1, h2, h3, h4⟩
  · simp only [Plugin.id, h1]
    simp only [reduceCtorEq, exists_const, false_iff]
    rintro ⟨pre, a, post, h, hn, -⟩
    exact h2 a (by simp [h]) hn
  · simp only [Plugin.id, h4]
    constructor
    · intro ⟨m, h⟩
      refine ⟨pre, a, post, h1, h3, ?_, h2⟩
      rintro s rfl
      simp at h
    · rintro ⟨pre', a', post', h, hn, hs, hp⟩
      have := split_unique h1 h h2 hp h3 hn
      subst this
      cases a with
      | str s => exact absurd rfl (hs s)
      | _ => exact ⟨_, rfl⟩

/-- **C34** `ID` returns the not-found error exactly when no attribute is named `id`. -/
theorem C34_id_not_found (p : Plugin) :
    (∃ m, p.id = .notFound m) ↔ ∀ a ∈ p.attrs, ¬ NamedId a := by
  rcases idLoop_spec p.attrs with ⟨h1, h2⟩ | ⟨pre, a, post, h1, h2, h3, h4⟩
  · simp only [Plugin.id, h1]
    exact ⟨fun _ => h2, fun _ => ⟨_, rfl⟩⟩
  · simp only [Plugin.id, h4]
    constructor
    · intro ⟨m, h⟩; cases a <;> simp at h
    · intro h; exact absurd h3 (h a (by simp [h1]))

/-- Both hypotheses occur: an id behind a nil attribute and a number, a wrongly typed id
hiding a good one, no id. -/
example : (Plugin.mk Pos.zero b!"p" [.nil, .num ⟨Pos.zero, b!"port", ⟨false, 1, 0⟩, []⟩,
      .str ⟨Pos.zero, b!"id", b!"x", .doubleQuoted, []⟩] [] []).id = .id b!"x" ∧
    (∃ m, (Plugin.mk Pos.zero b!"p" [.num ⟨Pos.zero, b!"id", ⟨false, 1, 0⟩, []⟩,
      .str ⟨Pos.zero, b!"id", b!"x", .doubleQuoted, []⟩] [] []).id = .notString m) ∧
    (∃ m, (Plugin.mk Pos.zero b!"p" [.nil] [] []).id = .notFound m) :=
  ⟨rfl, ⟨_, rfl⟩, ⟨_, rfl⟩⟩

/-- **C35** The error of `ID` is recognised by `IsNotFoundError` exactly when the plugin
has no attribute named `id`, and it is nil exactly when there is an id value. -/
theorem C35_is_not_found (p : Plugin) :
    (isNotFoundError p.idErr = true ↔ ∀ a ∈ p.attrs, ¬ NamedId a) ∧
    (p.idErr = none ↔ ∃ v, p.id = .id v) := by
  rcases idLoop_spec p.attrs with ⟨h1, h2⟩ | ⟨pre, a, post, h1, h2, h3, h4⟩
  · refine ⟨⟨fun _ => h2, fun _ => ?_⟩, ?_⟩
    · simp [Plugin.idErr, h1, newNotFoundError, isNotFoundError, GoErr.asNotFounder]
    · simp [Plugin.idErr, h1, newNotFoundError, Plugin.id]
  · refine ⟨⟨fun h => ?_, fun h => absurd h3 (h a (by simp [h1]))⟩, ?_⟩
    · cases a <;> simp [Plugin.idErr, h4, isNotFoundError, GoErr.asNotFounder] at h
    · cases a <;> simp [Plugin.idErr, h4, Plugin.id]

/-- **C35** The message of the not-found error names the plugin. -/
theorem C35_message (p : Plugin) (h : ∀ a ∈ p.attrs, ¬ NamedId a) :
    p.idErr.map GoErr.text =
      some (b!"not found: plugin " ++ p.name ++ b!" does not contain an id attribute") := by
  rcases idLoop_spec p.attrs with ⟨h1, h2⟩ | ⟨pre, a, post, h1, h2, h3, h4⟩
  · simp [Plugin.idErr, h1, newNotFoundError, GoErr.text]
  · exact absurd h3 (h a (by simp [h1]))

/-- The errors reachable from `e` by unwrapping. -/
def unwrapChain : GoErr → List GoErr
  | .plain m => [.plain m]
  | .wrap m e => .wrap m e :: unwrapChain e
  | .notFound e => [.notFound e]

/-- **C35** For arbitrary errors: `IsNotFoundError` is true exactly when a not-found error
is in the unwrap chain; nil stays nil and is no not-found error. -/
theorem C35_chain (e : GoErr) :
    (isNotFoundError (some e) = true ↔ ∃ i, .notFound i ∈ unwrapChain e) ∧
    isNotFoundError none = false ∧ newNotFoundError none = none := by
  refine ⟨?_, rfl, rfl⟩
  simp only [isNotFoundError]
  induction e with
  | plain m => simp [GoErr.asNotFounder, unwrapChain]
  | wrap m e ih => simp [GoErr.asNotFounder, unwrapChain, ih]
  | notFound e => simp [GoErr.asNotFounder, unwrapChain]

/-! ### C36 -/

mutual
private theorem dropNilAttr_str (a : Attr) : (dropNilAttr a).valueStr = a.valueStr := by
  cases a with
  | nil => simp [dropNilAttr]
  | str a => simp [dropNilAttr]
  | num a => simp [dropNilAttr]
  | arr p n as c f => simp [dropNilAttr, Attr.valueStr, dropNilAttrs_arr as]
  | hash p n es c f => simp [dropNilAttr, Attr.valueStr, dropNilEntries_str es]
  | plug p n v c => simp [dropNilAttr, Attr.valueStr, dropNilPlugin_str v]
private theorem dropNilAttrs_arr (as : List Attr) (first : Bool) :
    arrElems first (dropNilAttrs as) = arrElems first as := by
  cases as with
  | nil => simp [dropNilAttrs]
  | cons a as =>
    cases a with
    | nil => simp [dropNilAttrs, arrElems, Attr.isNil, dropNilAttrs_arr as]
    | str a => simp [dropNilAttrs, arrElems, Attr.isNil, dropNilAttrs_arr as]
    | num a => simp [dropNilAttrs, arrElems, Attr.isNil, dropNilAttrs_arr as]
    | arr p n l c f =>
      have := dropNilAttr_str (.arr p n l c f)
      simp only [dropNilAttr] at this
      simp [dropNilAttrs, arrElems, Attr.isNil, dropNilAttrs_arr as, this, Attr.commentStr]
    | hash p n l c f =>
      have := dropNilAttr_str (.hash p n l c f)
      simp only [dropNilAttr] at this
      simp [dropNilAttrs, arrElems, Attr.isNil, dropNilAttrs_arr as, this, Attr.commentStr]
    | plug p n v c =>
      have := dropNilAttr_str (.plug p n v c)
      simp only [dropNilAttr] at this
      simp [dropNilAttrs, arrElems, Attr.isNil, dropNilAttrs_arr as, this, Attr.commentStr]
private theorem dropNilAttrs_attr (as : List Attr) :
    attrElems (dropNilAttrs as) = attrElems as := by
  cases as with
  | nil => simp [dropNilAttrs]
  | cons a as =>
    cases a with
    | nil => simp [dropNilAttrs, attrElems, Attr.isNil, dropNilAttrs_attr as]
    | str a => simp [dropNilAttrs, attrElems, Attr.isNil, dropNilAttrs_attr as]
    | num a => simp [dropNilAttrs, attrElems, Attr.isNil, dropNilAttrs_attr as]
    | arr p n l c f =>
      have := dropNilAttr_str (.arr p n l c f)
      simp only [dropNilAttr] at this
      simp [dropNilAttrs, attrElems, Attr.isNil, dropNilAttrs_attr as, this, Attr.commentStr, Attr.name]
    | hash p n l c f =>
      have := dropNilAttr_str (.hash p n l c f)
      simp only [dropNilAttr] at this
      simp [dropNilAttrs, attrElems, Attr.isNil, dropNilAttrs_attr as, this, Attr.commentStr, Attr.name]
    | plug p n v c =>
      have := dropNilAttr_str (.plug p n v c)
      simp only [dropNilAttr] at this
      simp [dropNilAttrs, attrElems, Attr.isNil, dropNilAttrs_attr as, this, Attr.commentStr, Attr.name]
private theorem dropNilEntries_str (es : List HEntry) :
    hashElems (dropNilEntries es) = hashElems es := by
  cases es with
  | nil => simp [dropNilEntries]
  | cons e es =>
    cases e with
    | mk p k v c => simp [dropNilEntries, hashElems, dropNilAttr_str v, dropNilEntries_str es]
private theorem dropNilPlugin_str (p : Plugin) : (dropNilPlugin p).str = p.str := by
  cases p with
  | mk p n as c f => simp [dropNilPlugin, Plugin.str, dropNilAttrs_attr as]
end

private theorem dropNilRvalue_str (r : Rvalue) : (dropNilRvalue r).valueStr = r.valueStr := by
  cases r with
  | arr p n as c f =>
    have := dropNilAttr_str (.arr p n as c f)
    simpa [dropNilAttr, dropNilRvalue, Rvalue.valueStr] using this
  | _ => rfl

private theorem dropNilRvalue_isNil (r : Rvalue) : (dropNilRvalue r).isNil = r.isNil := by
  cases r <;> rfl

mutual
private theorem dropNilExpr_str (e : Expr) : (dropNilExpr e).str = e.str := by
  cases e with
  | cond p b c => simp [dropNilExpr, Expr.str, dropNilCond_str c]
  | negCond p b c => simp [dropNilExpr, Expr.str, dropNilCond_str c]
  | _ => simp [dropNilExpr, Expr.str, dropNilRvalue_str, dropNilRvalue_isNil]
private theorem dropNilCond_str (es : List Expr) : condStr (dropNilCond es) = condStr es := by
  cases es with
  | nil => simp [dropNilCond]
  | cons e es =>
    have ih := dropNilCond_str es
    cases e with
    | cond p b c => simp [dropNilCond, condStr, Expr.str, dropNilCond_str c, ih]
    | negCond p b c => simp [dropNilCond, condStr, Expr.str, dropNilCond_str c, ih]
    | _ => simp [dropNilCond, condStr, Expr.str, dropNilRvalue_str, dropNilRvalue_isNil, ih]
end

private theorem dropNilBOPs_eq_nil (bs : List BOP) (h : bs = [] ∨ ∃ x ∈ bs, x ≠ .nil) :
    (dropNilBOPs bs).isEmpty = bs.isEmpty := by
  rcases h with rfl | ⟨x, hx, hn⟩
  · simp [dropNilBOPs]
  · have : dropNilBOPs bs ≠ [] := by
      induction bs with
      | nil => simp at hx
      | cons b bs ih =>
        cases b with
        | nil =>
          rcases List.mem_cons.1 hx with rfl | hx
          · exact absurd rfl hn
          · simpa [dropNilBOPs] using ih hx
        | _ => simp [dropNilBOPs]
    cases bs with
    | nil => simp at hx
    | cons b bs =>
      cases h : dropNilBOPs (b :: bs) with
      | nil => exact absurd h this
      | cons _ _ => rfl

mutual
private theorem dropNilBOP_str (b : BOP) (h : elseOkBOP b) : (dropNilBOP b).str = b.str := by
  cases b with
  | nil => simp [dropNilBOP]
  | plugin p => simp [dropNilBOP, BOP.str, dropNilPlugin_str]
  | pluginPtr p => simp [dropNilBOP, BOP.str, dropNilPlugin_str]
  | branch p c b cm f ei el =>
    simp only [elseOkBOP] at h
    simp [dropNilBOP, BOP.str, dropNilCond_str, dropNilBOPs_str b true h.1,
      dropNilElifs_str ei h.2.1, dropNilElse_str el h.2.2]
private theorem dropNilBOPs_str (bs : List BOP) (first : Bool) (h : elseOkBOPs bs) :
    bopElems first (dropNilBOPs bs) = bopElems first bs := by
  cases bs with
  | nil => simp [dropNilBOPs]
  | cons b bs =>
    simp only [elseOkBOPs] at h
    have ih1 := fun f => dropNilBOPs_str bs f h.2
    cases b with
    | nil => simp [dropNilBOPs, bopElems, BOP.isNil, ih1]
    | plugin p =>
      simp [dropNilBOPs, bopElems, BOP.isNil, ih1, BOP.str, dropNilPlugin_str]
    | pluginPtr p =>
      simp [dropNilBOPs, bopElems, BOP.isNil, ih1, BOP.str, dropNilPlugin_str]
    | branch p c b cm f ei el =>
      have := dropNilBOP_str (.branch p c b cm f ei el) h.1
      simp only [dropNilBOP] at this
      simp [dropNilBOPs, bopElems, BOP.isNil, ih1, this]
private theorem dropNilElifs_str (es : List Elif) (h : elseOkElifs es) :
    elifsStr (dropNilElifs es) = elifsStr es := by
  cases es with
  | nil => simp [dropNilElifs]
  | cons e es =>
    cases e with
    | mk p c b cm f =>
      simp only [elseOkElifs] at h
      simp [dropNilElifs, elifsStr, Elif.str, dropNilCond_str, dropNilBOPs_str b true h.1,
        dropNilElifs_str es h.2]
private theorem dropNilElse_str (e : ElseB) (h : elseOkElse e) : (dropNilElse e).str = e.str := by
  cases e with
  | mk p b cm f =>
    simp only [elseOkElse] at h
    simp [dropNilElse, ElseB.str, dropNilBOPs_str b true h.1, dropNilBOPs_eq_nil b h.2]
end

private theorem dropNilSections_str (pt : Bytes) (c0 : CommentBlock) (l : List Section)
    (h : ∀ s ∈ l, elseOkBOPs s.bops) :
    sectionsLoop pt c0 (l.map dropNilSection) = sectionsLoop pt c0 l := by
  induction l with
  | nil => rfl
  | cons s ss ih =>
    have ih := ih (fun x hx => h x (by simp [hx]))
    have : (dropNilSection s).str = s.str := dropNilBOPs_str s.bops true (h s (by simp))
    simp only [List.map_cons, sectionsLoop, this, ih]
    cases ss <;> simp [dropNilSection]

/-- **C36** Removing every nil attribute, array element, branch-or-plugin element and
expression, at any depth, does not change the printed configuration, provided no else
block consists of nil elements only. -/
theorem C36_nil_elements_skipped (c : Config) (h : elseOkConfig c) :
    (dropNilConfig c).str = c.str := by
  have hs : ∀ pt (l : List Section), (∀ s ∈ l, elseOkBOPs s.bops) →
      sectionsStr pt (l.map dropNilSection) = sectionsStr pt l := by
    intro pt l hl
    cases l with
    | nil => rfl
    | cons s ss => exact dropNilSections_str pt s.comment (s :: ss) hl
  simp only [Config.str, dropNilConfig]
  rw [hs _ _ fun s hs => h s (.inl hs), hs _ _ fun s hs => h s (.inr (.inl hs)),
    hs _ _ fun s hs => h s (.inr (.inr hs))]

/-- **C36** The same for a single plugin (no side condition). -/
theorem C36_nil_attributes_skipped (p : Plugin) : (dropNilPlugin p).str = p.str :=
  dropNilPlugin_str p

/-- A tree with nil elements in all places, satisfying the hypothesis of C36. -/
example : ∃ c : Config, elseOkConfig c ∧ (dropNilConfig c).str = c.str ∧
    (dropNilConfig c).input.map (·.bops.length) ≠ c.input.map (·.bops.length) := by
  refine ⟨⟨[⟨Pos.zero, .input, [.nil, .plugin (.mk Pos.zero b!"p" [.nil] [] []),
    .branch Pos.zero [.nil] [.nil] [] [] [] (.mk Pos.zero [.nil, .plugin (.mk Pos.zero b!"q" [] [] [])] [] [])],
    [], []⟩], [], [], [], []⟩, ?_, ?_, by decide⟩
  · intro s hs
    simp at hs
    subst hs
    simp [elseOkBOPs, elseOkBOP, elseOkElifs, elseOkElse]
  · apply C36_nil_elements_skipped
    intro s hs
    simp at hs
    subst hs
    simp [elseOkBOPs, elseOkBOP, elseOkElifs, elseOkElse]

/-- **C36**, the exception: an else block holding only a nil element is printed (empty),
but removing the nil element makes the else block disappear. -/
theorem C36_violated_nil_else :
    (BOP.branch Pos.zero [] [] [] [] [] (.mk Pos.zero [.nil] [] [])).str = b!"if  {\n} else {\n}" ∧
    (dropNilBOP (.branch Pos.zero [] [] [] [] [] (.mk Pos.zero [.nil] [] []))).str = b!"if  {\n}" :=
  ⟨by decide +kernel, by simp [dropNilBOP, dropNilBOPs, dropNilCond, dropNilElse, dropNilElifs]; decide +kernel⟩

/-- **C36**, a second exception: a nil operand of `in` is not skipped; the text printed is the report of a panic inside
`fmt`, and the configuration it is part of is no longer readable. -/
theorem C36_violated_nil_operand :
    (BOP.branch Pos.zero [.inE Pos.zero ⟨Pos.zero, ⟨.noOp, Pos.zero⟩⟩ .nil .nil] [] [] [] [] (.mk Pos.zero [] [] [])).str =
      b!"if %!v(PANIC=String method: runtime error: invalid memory address or nil pointer dereference) {\n}" := by
  decide +kernel

/-! ### C38 -/

/-- **C38** The operator built from a printed operator text is the operator printed, for
all operators the parser can produce; boolean operators are printed between two blanks. -/
theorem C38_print_then_parse :
    (∀ k : CmpKind, k ≠ .undefined → cmpKindOf k.str = k) ∧
    (∀ k : ReKind, k ≠ .undefined → reKindOf k.str = k) ∧
    (∀ k : BoolOpKind, k ≠ .undefined → k ≠ .noOp →
      ∃ t, k.str = b!" " ++ t ++ b!" " ∧ boolKindOf t = k) := by
  refine ⟨?_, ?_, ?_⟩
  · intro k; cases k <;> decide
  · intro k; cases k <;> decide
  · intro k h1 h2
    cases k
    · simp at h1
    · simp at h2
    · exact ⟨b!"and", rfl, by decide⟩
    · exact ⟨b!"or", rfl, by decide⟩
    · exact ⟨b!"xor", rfl, by decide⟩
    · exact ⟨b!"nand", rfl, by decide⟩

/-- **C38** Conversely every text from which the parser builds a proper operator is the
text printed for it. -/
theorem C38_parse_then_print (t : Bytes) :
    (cmpKindOf t ≠ .undefined → (cmpKindOf t).str = t) ∧
    (reKindOf t ≠ .undefined → (reKindOf t).str = t) ∧
    (boolKindOf t ≠ .undefined → (boolKindOf t).str = b!" " ++ t ++ b!" ") := by
  refine ⟨?_, ?_, ?_⟩
  · unfold cmpKindOf; split; · simp [*, CmpKind.str]
    split; · simp [*, CmpKind.str]
    split; · simp [*, CmpKind.str]
    split; · simp [*, CmpKind.str]
    split; · simp [*, CmpKind.str]
    split <;> simp [*, CmpKind.str]
  · unfold reKindOf; split; · simp [*, ReKind.str]
    split <;> simp [*, ReKind.str]
  · unfold boolKindOf; split; · simp [*, BoolOpKind.str]
    split; · simp [*, BoolOpKind.str]
    split; · simp [*, BoolOpKind.str]
    split <;> simp [*, BoolOpKind.str]

/-- **C38** Distinct operators print distinct texts. -/
theorem C38_injective :
    (∀ k l : CmpKind, k.str = l.str → k = l) ∧ (∀ k l : ReKind, k.str = l.str → k = l) ∧
    (∀ k l : BoolOpKind, k.str = l.str → k = l) := by
  refine ⟨?_, ?_, ?_⟩ <;> intro k l <;> cases k <;> cases l <;> decide

end Verif.Props
