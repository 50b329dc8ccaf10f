import Verif.Props.Format
import Verif.Proofs.Built
/-
C74: configurations built with the constructors of package `ast`.
-/
namespace Verif.Props
open Verif Verif.Spec Verif.Spec.Built

/-- **C74** A configuration built with the constructors from arguments that can stand in a file survives: `Parse` accepts
its text, whatever the options other than `MaxExpressions` are, and returns the same configuration, up to positions and
warnings; the text of the result is the same again. -/
theorem C74_roundtrip (o : Opts) (f : Bytes) (ff : List FF) (c : Config) (hm : o.maxExpr = none) (h : IsConfig c) :
    ∃ c', (parse o f c.str ff).1 = .done (.config c') [] ∧ content c' = c ∧ c'.str = c.str := by
  obtain ⟨h1, h2, h3⟩ := Bld.config_ok h
  have hv := config_valid h1 h2
  obtain ⟨k1, k2, k3, k4⟩ := fileC_ok h1
  rw [h3] at k4
  rw [← k1] at hv
  obtain ⟨c', h5, h6⟩ := C15_accepts o f ff (fileC c) hm (.inr hv) k2 k3
  rw [k1] at h5
  have h7 : content c' = c := by
    rw [h6]
    cases hi : o.ignoreComments with
    | false => exact k4
    | true => rw [← file_skel false, k4, Bld.config_skel h]
  exact ⟨c', h5, h7, by rw [← str_content c', h7]⟩

/-- **C74** Different configurations have different texts. -/
theorem C74_injective (c d : Config) (hc : IsConfig c) (hd : IsConfig d) (h : c.str = d.str) : c = d := by
  obtain ⟨c', h1, h2, -⟩ := C74_roundtrip {} [] [] c rfl hc
  obtain ⟨d', h3, h4, -⟩ := C74_roundtrip {} [] [] d rfl hd
  rw [h, h3] at h1
  injection h1 with h1
  injection h1 with h1
  rw [← h2, ← h4, h1]

/-- **C74** The text is valid UTF-8. -/
theorem C74_valid (c : Config) (h : IsConfig c) : ValidUTF8 c.str :=
  config_valid (Bld.config_ok h).1 (Bld.config_ok h).2.1

/-- **C74** `NewSelectorFromNames` makes one element of each name, in order. -/
theorem C74_selector (names : List Bytes) :
    (New.selectorFromNames names).elems.map (·.name) = names ∧
      (New.selectorFromNames names).str = names.flatMap fun n => b!"[" ++ n ++ b!"]" := by
  rw [Bld.names_eq]
  refine ⟨by simp [selAst, Function.comp_def], ?_⟩
  simp only [selAst, Selector.str]
  induction names with
  | nil => rfl
  | cons n ns ih => simpa [SelElem.str] using ih

/-- **C74** The texts of expressions: the arguments stand where they belong. -/
theorem C74_expressions (k : BoolOpKind) (l r : Rvalue) (c : CmpKind) (m : ReKind) (cd : Condition) (names : List Bytes) :
    let pre : Bytes := match k with
      | .noOp => [] | .and => b!" and " | .or => b!" or " | .xor => b!" xor " | .nand => b!" nand " | .undefined => b!"undefined boolean operator"
    let cmp : Bytes := match c with
      | .eq => b!"==" | .ne => b!"!=" | .le => b!"<=" | .ge => b!">=" | .lt => b!"<" | .gt => b!">" | .undefined => b!"undefined compare operator"
    let mat : Bytes := match m with
      | .match => b!"=~" | .notMatch => b!"!~" | .undefined => b!"undefined regexp operator"
    (New.conditionExpression (op k) cd).str = pre ++ b!"(" ++ condStr cd ++ b!")" ∧
    (New.negativeConditionExpression (op k) cd).str = pre ++ b!"!(" ++ condStr cd ++ b!")" ∧
    (New.negativeSelectorExpression (op k) (New.selectorFromNames names)).str
      = pre ++ b!"!" ++ names.flatMap (fun n => b!"[" ++ n ++ b!"]") ∧
    (l ≠ .nil → r ≠ .nil → (New.inExpression (op k) l r).str = pre ++ l.valueStr ++ b!" in " ++ r.valueStr) ∧
    (New.notInExpression (op k) l r).str = pre ++ l.valueStr ++ b!" not in " ++ r.valueStr ∧
    (New.rvalueExpression (op k) r).str = pre ++ r.valueStr ∧
    (New.compareExpression (op k) l ⟨c, Pos.zero⟩ r).str = pre ++ l.valueStr ++ b!" " ++
      cmp ++ b!" " ++ r.valueStr ∧
    (New.regexpExpression (op k) l ⟨m, Pos.zero⟩ r).str = pre ++ l.valueStr ++ b!" " ++ mat ++ b!" " ++ r.valueStr := by
  intro pre cmp mat
  have hp : (op k).op.str = pre := by cases k <;> rfl
  have hn : ∀ x : Rvalue, x ≠ .nil → x.isNil = false := by intro x hx; cases x <;> first | rfl | exact absurd rfl hx
  refine ⟨?_, ?_, ?_, ?_, ?_, ?_, ?_, ?_⟩
  · rw [New.conditionExpression, Expr.str]; simp only [New.boolExpr, hp]
  · rw [New.negativeConditionExpression, Expr.str]; simp only [New.boolExpr, hp]
  · rw [New.negativeSelectorExpression, Expr.str, (C74_selector names).2]; simp only [New.boolExpr, hp]
  · intro hl hr
    rw [New.inExpression, Expr.str]; simp [New.boolExpr, hp, hn l hl, hn r hr]
  · rw [New.notInExpression, Expr.str]; simp only [New.boolExpr, hp]
  · rw [New.rvalueExpression, Expr.str]; simp only [New.boolExpr, hp]
  · rw [New.compareExpression, Expr.str]; simp only [New.boolExpr, hp]; cases c <;> rfl
  · rw [New.regexpExpression, Expr.str]; simp only [New.boolExpr, hp]; cases m <;> rfl

/-- **C74** The texts of attributes and of plugins without attributes. -/
theorem C74_attributes (n v : Bytes) (x : F64) (m : Bytes) (as : List Attr) :
    (Attr.str (New.stringAttribute n v .doubleQuoted)).string = n ++ b!" => \"" ++ v ++ b!"\"" ∧
    (Attr.str (New.stringAttribute n v .singleQuoted)).string = n ++ b!" => '" ++ v ++ b!"'" ∧
    (Attr.str (New.stringAttribute n v .bareword)).string = n ++ b!" => " ++ v ∧
    (Attr.num (New.numberAttribute n x)).string = n ++ b!" => " ++ numString x ∧
    (New.arrayAttribute n []).string = n ++ b!" => []" ∧
    (New.hashAttribute n []).string = n ++ b!" => {}" ∧
    (New.pluginAttribute n (New.plugin m as)).string = n ++ b!" => " ++ (New.plugin m as).str ∧
    (New.plugin m []).str = m ++ b!" {}" := by
  refine ⟨?_, ?_, ?_, ?_, ?_, ?_, ?_, ?_⟩
  · simp [Attr.string, Attr.name, Attr.valueStr, New.stringAttribute, StrAttr.valueStr, Sat.str]
  · simp [Attr.string, Attr.name, Attr.valueStr, New.stringAttribute, StrAttr.valueStr, Sat.str]
  · simp [Attr.string, Attr.name, Attr.valueStr, New.stringAttribute, StrAttr.valueStr, Sat.str]
  · simp [Attr.string, Attr.name, Attr.valueStr, New.numberAttribute, NumAttr.valueStr]
  · have : (New.arrayAttribute n []).valueStr = b!"[]" := by rw [New.arrayAttribute, Attr.valueStr, arrElems]; decide
    rw [Attr.string, this]; rw [New.arrayAttribute, Attr.name]; simp
  · have : (New.hashAttribute n []).valueStr = b!"{}" := by rw [New.hashAttribute, Attr.valueStr, hashElems]; decide
    rw [Attr.string, this]; rw [New.hashAttribute, Attr.name]; simp
  · rw [Attr.string, New.pluginAttribute, Attr.name, Attr.valueStr]
  · rw [New.plugin, Plugin.str, attrElems]
    have : prefixS ((if ([] : Bytes).isEmpty then [] else [] ++ b!"\n") ++ commentsStr []) false = [] := by decide
    simp [commentsStr] at this ⊢
    rw [this]

/-! ### Examples -/

/-- The first configuration of the unit test `TestAst` (ast/ast_test.go:20-46). -/
def builtSample : Config :=
  New.config
    (New.pluginSections .input [.plugin (New.plugin b!"stdin" [
      New.arrayAttribute b!"tags" [.str (New.stringAttribute [] b!"tag1" .doubleQuoted),
        .str (New.stringAttribute [] b!"tag2" .singleQuoted), .str (New.stringAttribute [] b!"tag3" .bareword)],
      New.hashAttribute b!"add_field" [
        New.hashEntry (.str (New.stringAttribute [] b!"bareword" .bareword)) (.str (New.stringAttribute [] b!"bareword" .bareword)),
        New.hashEntry (.str (New.stringAttribute [] b!"single quoted" .singleQuoted)) (.str (New.stringAttribute [] b!"single quoted" .singleQuoted)),
        New.hashEntry (.str (New.stringAttribute [] b!"double quoted" .doubleQuoted)) (.str (New.stringAttribute [] b!"double quoted" .doubleQuoted)),
        New.hashEntry (.num (New.numberAttribute [] ⟨false, 2 ^ 52, -52⟩)) (.num (New.numberAttribute [] ⟨false, 7074029114692207, -51⟩))],
      .num (New.numberAttribute b!"pi" ⟨false, 7074029114692207, -51⟩),
      New.pluginAttribute b!"codec" (New.plugin b!"rubydebug" [.str (New.stringAttribute b!"string" b!"a value" .doubleQuoted)])])])
    []
    (New.pluginSections .output [.plugin (New.plugin b!"stdout" [.str (New.stringAttribute b!"id" b!"ABC" .doubleQuoted)])])

/-- Branches with every kind of expression, after further configurations of the unit test `TestAst`. -/
def builtBranches : Config :=
  New.config []
    (New.pluginSections .filter [
      New.branch
        (New.ifBlock (New.condition [
            New.compareExpression (op .noOp) (.str (New.stringAttribute [] b!"true" .doubleQuoted)) ⟨.eq, Pos.zero⟩
              (.num (New.numberAttribute [] ⟨false, 2 ^ 52, -52⟩)),
            New.inExpression (op .and) (.str (New.stringAttribute [] b!"tag" .doubleQuoted)) (.sel (New.selectorFromNames [b!"tags"])),
            New.conditionExpression (op .or) (New.condition [
              New.rvalueExpression (op .noOp) (.sel (New.selectorFromNames [b!"field", b!"subfield"])),
              New.regexpExpression (op .nand) (.sel (New.selectorFromNames [b!"field"])) ⟨.match, Pos.zero⟩ (.re (New.regexp b!"^a.*"))])])
          [.plugin (New.plugin b!"if-plugin" [])])
        (New.elseBlock [.plugin (New.plugin b!"else-plugin" [])])
        [New.elseIfBlock (New.condition [
            New.notInExpression (op .noOp) (.str (New.stringAttribute [] b!"tag" .singleQuoted))
              (New.arrayRvalue [] [.str (New.stringAttribute [] b!"aa" .bareword), .str (New.stringAttribute [] b!"bb" .bareword)]),
            New.negativeSelectorExpression (op .xor) (New.selectorFromNames [b!"field"]),
            New.negativeConditionExpression (op .and) (New.condition [
              New.rvalueExpression (op .noOp) (.num (New.numberAttribute [] ⟨false, 2 ^ 52, -52⟩))])])
          [.plugin (New.plugin b!"else-if-plugin-1" [])]]])
    []

private theorem name_ex {n : Bytes} (h : n ≠ [] ∧ n.all isNameChar = true := by decide) : Name n := ⟨h.1, by simpa using h.2⟩

private theorem pname_ex {n : Bytes} (h : (n ≠ [] ∧ n.all isNameChar = true) ∧ ifNumber n = false ∧ n ≠ b!"else" ∧
    (n.take 4 = b!"else" → ifNumber (n.drop 4) = false) := by decide) : PluginName n := by
  refine ⟨⟨h.1.1, by simpa using h.1.2⟩, h.2.1, h.2.2.1, ?_⟩
  rintro r rfl
  exact h.2.2.2 rfl

private theorem body_ex {q : UInt8} {v : Bytes} (h : (v.all fun c => c != q && c != 92) = true := by decide) : StringBody q v := by
  simp only [List.all_eq_true, Bool.and_eq_true, bne_iff_ne] at h
  refine ⟨fun l r hl => absurd rfl (h q (by simp [hl])).1, fun hl => ?_⟩
  exact (h 92 (List.mem_of_getLast? hl)).2 rfl

private theorem dq_ex {v : Bytes} (h : asciiB v = true := by decide) (h' : (v.all fun c => c != 34 && c != 92) = true := by decide) :
    Quoted v .doubleQuoted := ⟨validUTF8_ascii h, .inl ⟨rfl, body_ex h'⟩⟩

private theorem sq_ex {v : Bytes} (h : asciiB v = true := by decide) (h' : (v.all fun c => c != 39 && c != 92) = true := by decide) :
    Quoted v .singleQuoted := ⟨validUTF8_ascii h, .inr ⟨rfl, body_ex h'⟩⟩

private theorem bw_ex {v : Bytes} (h : 2 ≤ v.length ∧ v.all isWordChar = true ∧ v.head?.all isWordStart = true := by decide) :
    Text v .bareword := .inr ⟨rfl, h.1, by simpa using h.2.1, fun c hc => by simpa [hc] using h.2.2⟩

private theorem plain_ex {v : Bytes} (h : asciiB v = true ∧ v.all plainByte = true := by decide) : Plain v :=
  ⟨validUTF8_ascii h.1, balanced_of_plain h.2⟩

private theorem field_ex {names : List Bytes}
    (h : names ≠ [] ∧ ∀ n ∈ names, n ≠ [] ∧ (asciiB n = true ∧ n.all plainByte = true) ∧ n.all isSelChar = true := by decide) :
    Fields names :=
  ⟨h.1, fun n hn => ⟨(h.2 n hn).1, plain_ex (h.2 n hn).2.1, by simpa using (h.2 n hn).2.2⟩⟩

private theorem one_ex : Exact ⟨false, 2 ^ 52, -52⟩ := by unfold Exact; decide +kernel
private theorem pi_ex : Exact ⟨false, 7074029114692207, -51⟩ := by unfold Exact; decide +kernel

private theorem sample_isConfig : IsConfig builtSample := by
  refine ⟨_, _, _, rfl, ?_, ?_, ?_⟩
  · simp only [Sections, New.pluginSections, List.mem_singleton, forall_eq]
    refine ⟨_, rfl, ?_⟩
    simp only [List.mem_singleton, forall_eq]
    refine .plugin (.mk name_ex ?_) pname_ex
    simp only [List.mem_cons, List.not_mem_nil, or_false, forall_eq_or_imp, forall_eq]
    refine ⟨.value name_ex (.arr ?_), .value name_ex (.hash ?_), .value name_ex (.num pi_ex), .plugin name_ex (.mk name_ex ?_)⟩
    · simp only [List.mem_cons, List.not_mem_nil, or_false, forall_eq_or_imp, forall_eq]
      exact ⟨.str (.inl dq_ex), .str (.inl sq_ex), .str bw_ex⟩
    · simp only [List.mem_cons, List.not_mem_nil, or_false, forall_eq_or_imp, forall_eq]
      exact ⟨.mk (.str bw_ex) (.str bw_ex), .mk (.str (.inl sq_ex)) (.str (.inl sq_ex)), .mk (.str (.inl dq_ex)) (.str (.inl dq_ex)),
        .mk (.num one_ex) (.num pi_ex)⟩
    · simp only [List.mem_singleton, forall_eq]
      exact .value name_ex (.str (.inl dq_ex))
  · exact fun _ h => nomatch h
  · simp only [Sections, New.pluginSections, List.mem_singleton, forall_eq]
    refine ⟨_, rfl, ?_⟩
    simp only [List.mem_singleton, forall_eq]
    refine .plugin (.mk name_ex ?_) pname_ex
    simp only [List.mem_singleton, forall_eq]
    exact .value name_ex (.str (.inl dq_ex))

private theorem branches_isConfig : IsConfig builtBranches := by
  refine ⟨_, _, _, rfl, fun _ h => (nomatch h), ?_, fun _ h => (nomatch h)⟩
  simp only [Sections, New.pluginSections, List.mem_singleton, forall_eq]
  refine ⟨_, rfl, ?_⟩
  simp only [List.mem_singleton, forall_eq]
  have hp : ∀ n, Name n → PluginName n → ∀ x ∈ [BOP.plugin (New.plugin n [])], Item x := by
    intro n h1 h2
    simp only [List.mem_singleton, forall_eq]
    exact .plugin (.mk h1 fun _ h => (nomatch h)) h2
  refine .branch (.mk (.cmp (.str dq_ex) (by decide) (.num one_ex)) ?_) (hp _ name_ex pname_ex) (hp _ name_ex pname_ex) ?_
  · simp only [List.mem_cons, List.not_mem_nil, or_false, forall_eq_or_imp, forall_eq]
    refine ⟨.mk (by decide) (by decide) (.inE (.str dq_ex) (.sel field_ex)), .mk (by decide) (by decide) (.cond (.mk (.rval (.sel field_ex)) ?_))⟩
    simp only [List.mem_singleton, forall_eq]
    exact .mk (by decide) (by decide) (.re (.sel field_ex) (by decide) (.re plain_ex body_ex))
  · simp only [List.mem_singleton, forall_eq]
    refine .mk (.mk (.notIn (.str sq_ex) (.arr ?_ ?_)) ?_) (hp _ name_ex pname_ex)
    · simp only [List.mem_cons, List.not_mem_nil, or_false, forall_eq_or_imp, forall_eq]
      exact ⟨.str bw_ex, .str bw_ex⟩
    · rintro ⟨n, r, h1, -, h2⟩
      have h4 : ((New.arrayRvalue [] [.str (New.stringAttribute [] b!"aa" .bareword), .str (New.stringAttribute [] b!"bb" .bareword)]).valueStr.tail.dropWhile isSelChar).head? = some 44 := by decide +kernel
      rw [h1] at h4
      simp only [List.cons_append, List.tail_cons] at h4
      rw [List.dropWhile_append_of_pos (by simpa using h2), List.dropWhile_cons_of_neg (by decide)] at h4
      cases h4
    · simp only [List.mem_cons, List.not_mem_nil, or_false, forall_eq_or_imp, forall_eq]
      exact ⟨.mk (by decide) (by decide) (.negSel field_ex),
        .mk (by decide) (by decide) (.negCond (.mk (.rval (.num one_ex)) fun _ h => (nomatch h)))⟩

/-- The samples meet the hypotheses; the text of the first is the one the unit test expects. -/
example : IsConfig builtSample ∧ IsConfig builtBranches ∧ builtSample.str ≠ builtBranches.str ∧
    builtSample.str = b!"input {\n  stdin {\n    tags => [\n      \"tag1\",\n      'tag2',\n      tag3\n    ]\n    add_field => {\n      bareword => bareword\n      'single quoted' => 'single quoted'\n      \"double quoted\" => \"double quoted\"\n      1 => 3.1415\n    }\n    pi => 3.1415\n    codec => rubydebug {\n      string => \"a value\"\n    }\n  }\n}\noutput {\n  stdout {\n    id => \"ABC\"\n  }\n}\n" ∧
    builtBranches.str = b!"filter {\n  if \"true\" == 1 and \"tag\" in [tags] or ([field][subfield] nand [field] =~ /^a.*/) {\n    if-plugin {}\n  } else if 'tag' not in [\n    aa,\n    bb\n  ] xor ![field] and !(1) {\n    else-if-plugin-1 {}\n  } else {\n    else-plugin {}\n  }\n}\n" :=
  ⟨sample_isConfig, branches_isConfig, by decide +kernel, by decide +kernel, by decide +kernel⟩

/-! ### The constructors check nothing -/

/-- **C74, violated without the restrictions**: `NewStringAttribute` takes any value.  The text of a configuration with
the value `a"b` in double quotes is not accepted. -/
theorem C74_violated :
    ¬ ∀ v : Bytes, ∃ c', (parse {} [] (New.config [] (New.pluginSections .filter
      [.plugin (New.plugin b!"mutate" [.str (New.stringAttribute b!"id" v .doubleQuoted)])]) []).str []).1 = .done (.config c') [] := by
  intro h
  obtain ⟨c', h⟩ := h b!"a\"b"
  have : (parse {} [] (New.config [] (New.pluginSections .filter
      [.plugin (New.plugin b!"mutate" [.str (New.stringAttribute b!"id" b!"a\"b" .doubleQuoted)])]) []).str []).1.errs ≠ [] := by
    decide +kernel
  rw [h] at this
  exact this rfl

/-- **C74, violated without the restrictions**: two different configurations, with a condition that is an array of one word and
a condition that is a reference to a field, have the same text. -/
theorem C74_violated_injective :
    ∃ (a : Rvalue) (names : List Bytes), a ≠ .sel (New.selectorFromNames names) ∧
      (New.config [] (New.pluginSections .filter [New.branch (New.ifBlock
        (New.condition [New.rvalueExpression (op .noOp) a]) []) (New.elseBlock []) []]) []).str
      = (New.config [] (New.pluginSections .filter [New.branch (New.ifBlock
        (New.condition [New.rvalueExpression (op .noOp) (.sel (New.selectorFromNames names))]) []) (New.elseBlock []) []]) []).str :=
  ⟨New.arrayRvalue [] [.str (New.stringAttribute [] b!"aa" .bareword)], [b!"\n  aa\n"], by simp [New.arrayRvalue], by decide +kernel⟩

end Verif.Props
