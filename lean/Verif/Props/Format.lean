import Verif.Props.Layout
import Verif.Props.App
import Verif.Proofs.PrintFile
import Verif.Proofs.SettleOk
import Verif.Proofs.SettlePlain
import Verif.Proofs.OkMap
import Verif.Proofs.Shape
import Verif.Proofs.Literals
import Verif.Proofs.TextsPrint
/-
C16, C17, C18, C20, C21, C22: what formatting (`String` on a configuration, `mustache format`)
preserves.  The configurations for which it is faithful are those of `Spec.Printable`.
-/
namespace Verif.Props
open Verif Verif.Spec

/-! ### C16 -/

/-- **C16** Every configuration `Parse` returns has the shape `Shaped`, and contains no pointers to
plugins.  (`Printable` is `Shaped` with four further restrictions.) -/
theorem C16_shape (o : Opts) (f data : Bytes) (ff : List FF) (c : Config)
    (h : (parse o f data ff).1 = .done (.config c) []) : Shaped c ∧ deref c = c := by
  obtain ⟨k, c', h1, -, h2, h3⟩ := C02_sentence o f data ff (by rw [h]; rfl)
  rw [h] at h2
  injection h2 with h2
  injection h2 with h2
  subst h2
  obtain ⟨h4, h5⟩ := file_shape (ign := o.ignoreComments) h1
  rw [← h3] at h4 h5
  exact ⟨(configOk_content _ _).1 h4, deref_content c h5⟩

/-- **C16** The formatted text of a printable configuration parses without error, and the result is
`settle c`: the same configuration up to positions and the marks for blank lines around comments. -/
theorem C16_roundtrip (o : Opts) (f : Bytes) (ff : List FF) (c : Config) (hm : o.maxExpr = none)
    (hi : o.ignoreComments = false) (hv : o.allowInvalid = true ∨ ValidUTF8 c.str) (hc : Printable c) :
    ∃ c', (parse o f c.str ff).1 = .done (.config c') [] ∧ content c' = settle c := by
  obtain ⟨h1, h2, h3, h4⟩ := fileC_ok hc
  rw [← h1] at hv
  obtain ⟨c', h5, h6⟩ := C15_accepts o f ff (fileC c) hm hv h2 h3
  rw [h1] at h5
  rw [hi, h4] at h6
  exact ⟨c', h5, h6⟩

/-- **C16** Formatting preserves the configuration: the formatted text of a printable configuration
parses without error, with or without comments, to the same configuration up to positions and
comments (pointers to plugins come back as plugins). -/
theorem C16_configuration (o : Opts) (f : Bytes) (ff : List FF) (c : Config) (hm : o.maxExpr = none)
    (hv : o.allowInvalid = true ∨ ValidUTF8 c.str) (hc : Printable c) :
    ∃ c', (parse o f c.str ff).1 = .done (.config c') [] ∧ skeleton c' = skeleton (deref c) := by
  obtain ⟨h1, h2, h3, h4⟩ := fileC_ok hc
  rw [← h1] at hv
  obtain ⟨c', h5, h6⟩ := C15_accepts o f ff (fileC c) hm hv h2 h3
  rw [h1] at h5
  refine ⟨c', h5, ?_⟩
  rw [← skeleton_content c', h6, file_skel, ← file_skel false, h4, settle_skeleton]

/-- **C16** The text determines the configuration: printable configurations with the same text are the same up to positions and
the marks for blank lines around comments (`settle`), and up to pointers to plugins, wherever they come from.  (`formatSample` below
is printable.) -/
theorem C16_determined (c d : Config) (hc : Printable c) (hd : Printable d) (h : c.str = d.str) :
    settle c = settle d ∧ skeleton (deref c) = skeleton (deref d) := by
  have key : ∀ {x y : Config} {r : ParseRes}, r = .done (.config x) [] → r = .done (.config y) [] → x = y := by
    intro x y r h1 h2
    rw [h1] at h2
    injection h2 with h2
    injection h2
  constructor
  · obtain ⟨c', h1, h2⟩ := C16_roundtrip { allowInvalid := true } [] [] c rfl rfl (.inl rfl) hc
    obtain ⟨d', h3, h4⟩ := C16_roundtrip { allowInvalid := true } [] [] d rfl rfl (.inl rfl) hd
    rw [h] at h1
    rw [← h2, ← h4, key h1 h3]
  · obtain ⟨c', h1, h2⟩ := C16_configuration { allowInvalid := true } [] [] c rfl (.inl rfl) hc
    obtain ⟨d', h3, h4⟩ := C16_configuration { allowInvalid := true } [] [] d rfl (.inl rfl) hd
    rw [h] at h1
    rw [← h2, ← h4, key h1 h3]

/-- A printable configuration read from a file is printed as valid UTF-8, unless invalid UTF-8 is
allowed. -/
theorem C16_valid (o : Opts) (f data : Bytes) (ff : List FF) (c : Config)
    (h : (parse o f data ff).1 = .done (.config c) []) (hc : Printable c) : o.allowInvalid = true ∨ ValidUTF8 c.str := by
  cases ho : o.allowInvalid with
  | true => exact .inl rfl
  | false =>
    right
    have hv := C03_valid o f data ff ho (by rw [h]; rfl)
    obtain ⟨k, c', h1, h2, h3, h4⟩ := C02_sentence o f data ff (by rw [h]; rfl)
    rw [h] at h3
    injection h3 with h3
    injection h3 with h3
    subst h3
    rw [← h2] at hv
    have ht := file_tx o.ignoreComments h1 hv
    rw [← h4] at ht
    rw [← str_content]
    exact config_valid ((configOk_content _ _).2 hc) ht

/-- **C16** Formatting a file preserves its configuration: if the configuration `Parse` returns is
printable, its text is accepted by `Parse` with the same options, and the result is the same up to
positions and comments. -/
theorem C16_file (o : Opts) (f f' data : Bytes) (ff ff' : List FF) (c : Config) (hm : o.maxExpr = none)
    (h : (parse o f data ff).1 = .done (.config c) []) (hc : Printable c) :
    ∃ c', (parse o f' c.str ff').1 = .done (.config c') [] ∧ skeleton c' = skeleton c := by
  obtain ⟨c', h1, h2⟩ := C16_configuration o f' ff' c hm (C16_valid o f data ff c h hc) hc
  rw [(C16_shape o f data ff c h).2] at h2
  exact ⟨c', h1, h2⟩

/-! ### C20 -/

/-- **C20** Comments survive formatting, each on the node it was on: unless the sections of one type
have different comments or the file has no section, the formatted text parses to the same
configuration up to positions and marks for blank lines, comments included. -/
theorem C20_comments (o : Opts) (f : Bytes) (ff : List FF) (c : Config) (hm : o.maxExpr = none)
    (hi : o.ignoreComments = false) (hv : o.allowInvalid = true ∨ ValidUTF8 c.str) (hc : Printable c)
    (hk : CommentsKept c) :
    ∃ c', (parse o f c.str ff).1 = .done (.config c') [] ∧ withoutMarks c' = withoutMarks (deref c) := by
  obtain ⟨c', h1, h2⟩ := C16_roundtrip o f ff c hm hi hv hc
  refine ⟨c', h1, ?_⟩
  rw [← settle_marks c hk, ← h2]
  have h3 := comp_config AMap.noMarks AMap.noPos c'
  have h4 : withoutMarks (content c') = { AMap.noMarks.config (AMap.noPos.config c') with warnings := [] } := rfl
  rw [h4, h3]
  rfl

/-- **C20** The same for files. -/
theorem C20_file (o : Opts) (f f' data : Bytes) (ff ff' : List FF) (c : Config) (hm : o.maxExpr = none)
    (hi : o.ignoreComments = false) (h : (parse o f data ff).1 = .done (.config c) []) (hc : Printable c)
    (hk : CommentsKept c) :
    ∃ c', (parse o f' c.str ff').1 = .done (.config c') [] ∧ withoutMarks c' = withoutMarks c := by
  obtain ⟨c', h1, h2⟩ := C20_comments o f' ff' c hm hi (C16_valid o f data ff c h hc) hc hk
  rw [(C16_shape o f data ff c h).2] at h2
  exact ⟨c', h1, h2⟩

/-! ### C17 -/

/-- **C17** Formatting twice is formatting for good: the text of a printable configuration is accepted
by `Parse`; if `c'` is the result, the text of `c'` is accepted too, and the result has the same text. -/
theorem C17_second (o : Opts) (f : Bytes) (ff : List FF) (c : Config) (hm : o.maxExpr = none)
    (hi : o.ignoreComments = false) (hv : o.allowInvalid = true ∨ ValidUTF8 c.str) (hc : Printable c) :
    ∃ c' c'', (parse o f c.str ff).1 = .done (.config c') [] ∧
      (parse o f c'.str ff).1 = .done (.config c'') [] ∧ c''.str = c'.str := by
  obtain ⟨c', h1, h2⟩ := C16_roundtrip o f ff c hm hi hv hc
  have hs : c'.str = (settle c).str := by rw [← str_content, h2]
  have hp : Printable c' := (configOk_content _ _).1 (by rw [h2]; exact configOk_settle hc)
  have hv' := C16_valid o f c.str ff c' h1 hp
  rw [hs] at hv'
  obtain ⟨c'', h3, h4⟩ := C16_roundtrip o f ff (settle c) hm hi hv' (configOk_settle hc)
  refine ⟨c', c'', h1, by rw [hs]; exact h3, ?_⟩
  rw [← str_content c'', h4, settle_idem, hs]

/-- **C17** The same for files. -/
theorem C17_file (o : Opts) (f data : Bytes) (ff : List FF) (c : Config) (hm : o.maxExpr = none)
    (hi : o.ignoreComments = false) (h : (parse o f data ff).1 = .done (.config c) []) (hc : Printable c) :
    ∃ c' c'', (parse o f c.str ff).1 = .done (.config c') [] ∧
      (parse o f c'.str ff).1 = .done (.config c'') [] ∧ c''.str = c'.str :=
  C17_second o f ff c hm hi (C16_valid o f data ff c h hc) hc

/-- **C17** Formatting once is enough for configurations without comments. -/
theorem C17_plain (o : Opts) (f : Bytes) (ff : List FF) (c : Config) (hm : o.maxExpr = none)
    (hv : o.allowInvalid = true ∨ ValidUTF8 c.str) (hc : Printable c)
    (hd : deref c = c) (hn : skeleton c = content c) :
    ∃ c', (parse o f c.str ff).1 = .done (.config c') [] ∧ c'.str = c.str := by
  have hcc : ∀ x : Config, content (content x) = content x := fun x => by
    have h3 := comp_config AMap.noPos AMap.noPos x
    have h4 : content (content x) = { AMap.noPos.config (AMap.noPos.config x) with warnings := [] } := rfl
    rw [h4, h3]; rfl
  have hdc : dropComments (content c) = content c := by
    have h3 := comp_config AMap.noComments AMap.noPos c
    have h4 : dropComments (content c) = { AMap.noComments.config (AMap.noPos.config c) with warnings := [] } := rfl
    rw [h4, h3, ← hn]; rfl
  have hcd : deref (content c) = content c := by rw [derefMap_content, hd]
  have hset : settle (content c) = content c := by rw [settle_noComments hdc hcd, hcc]
  have hp : Printable (content c) := (configOk_content _ _).2 hc
  obtain ⟨h1, h2, h3, h4⟩ := fileC_ok hp
  rw [hset] at h4
  rw [str_content] at h1
  rw [← h1] at hv
  obtain ⟨c', h5, h6⟩ := C15_accepts o f ff (fileC (content c)) hm hv h2 h3
  rw [h1] at h5
  refine ⟨c', h5, ?_⟩
  rw [← str_content c', h6]
  cases o.ignoreComments with
  | false => rw [h4, str_content]
  | true => rw [← file_skel false, h4, skeleton_content, hn, str_content]

/-- **C17** Formatting with `IgnoreComments` is idempotent. -/
theorem C17_ignore (o : Opts) (f data : Bytes) (ff : List FF) (c : Config) (hm : o.maxExpr = none)
    (hi : o.ignoreComments = true) (h : (parse o f data ff).1 = .done (.config c) []) (hc : Printable c) :
    ∃ c', (parse o f c.str ff).1 = .done (.config c') [] ∧ c'.str = c.str := by
  refine C17_plain o f ff c hm (C16_valid o f data ff c h hc) hc (C16_shape o f data ff c h).2 ?_
  obtain ⟨k, c', h1, h2, h3, h4⟩ := C02_sentence o f data ff (by rw [h]; rfl)
  rw [h] at h3
  injection h3 with h3
  injection h3 with h3
  subst h3
  rw [hi] at h4
  rw [← skeleton_content, h4, file_skel]

/-! ### C21 -/

/-- **C21** What the re-indentation of a nested block does to text whose quotes are balanced: every
line that is not empty gets two more blanks, newlines inside quotes are not touched, and trailing
newlines are dropped. -/
theorem C21_indent (qs : List Piece) (p : Piece) (k : Nat) (e : Bool) (hok : ∀ q ∈ qs ++ [p], q.Ok) (hp : p ≠ .nl)
    (hs : scan .fresh (qs ++ [p, .nl]) = some .fresh) :
    prefixS (render (qs ++ [p]) ++ List.replicate k 10) e = 10 :: render (indent true (qs ++ [p, .nl])) :=
  prefix_pieces qs p k e hok hp hs

/-- The bytes other than newlines and blanks. -/
def visible (b : Bytes) : Bytes := b.filter fun c => c != 10 && c != 32

/-- **C21** In particular no visible byte is added, removed or moved. -/
theorem C21_visible (qs : List Piece) (p : Piece) (k : Nat) (e : Bool) (hok : ∀ q ∈ qs ++ [p], q.Ok) (hp : p ≠ .nl)
    (hs : scan .fresh (qs ++ [p, .nl]) = some .fresh) :
    visible (prefixS (render (qs ++ [p]) ++ List.replicate k 10) e) = visible (render (qs ++ [p])) := by
  rw [C21_indent qs p k e hok hp hs]
  have key : ∀ (ps : List Piece) b, visible (render (indent b ps)) = visible (render ps) := by
    intro ps
    induction ps with
    | nil => intro b; cases b <;> rfl
    | cons q ps ih =>
      intro b
      have happ : ∀ (q : Piece) (l : List Piece), visible (render (q :: l)) = visible q.text ++ visible (render l) := by
        intro q l; rw [render_cons]; exact List.filter_append ..
      cases q <;> cases b <;> simp only [indent, happ, ih] <;> rfl
  have h1 : visible (10 :: render (indent true (qs ++ [p, .nl]))) = visible (render (indent true (qs ++ [p, .nl]))) := rfl
  rw [h1, key, show qs ++ [p, Piece.nl] = (qs ++ [p]) ++ [.nl] by simp, render_append]
  simp only [visible, List.filter_append]
  rw [show (render [Piece.nl]).filter (fun c => c != 10 && c != 32) = [] from rfl, List.append_nil]

/-! ### C22 and C18 -/

/-- **C22** In the text of a printable configuration every name, string literal, field reference and
regular expression occurs byte for byte, in order, whatever the depth of nesting. -/
theorem C22_literals (c : Config) (h : Printable c) : Spread (configLits c) c.str := spread_config h

/-- The regular expressions of a value in a condition. -/
def rvalueRegexps : Rvalue → List Bytes
  | .re r => [r.re]
  | _ => []

mutual
/-- The regular expressions of an expression. -/
def exprRegexps : Expr → List Bytes
  | .nil => []
  | .cond _ _ c => condRegexps c
  | .negCond _ _ c => condRegexps c
  | .negSel _ _ _ => []
  | .inE _ _ l r => rvalueRegexps l ++ rvalueRegexps r
  | .notIn _ _ l r => rvalueRegexps l ++ rvalueRegexps r
  | .rval _ _ r => rvalueRegexps r
  | .cmp _ _ l _ r => rvalueRegexps l ++ rvalueRegexps r
  | .re _ _ l _ r => rvalueRegexps l ++ rvalueRegexps r
/-- Of a condition. -/
def condRegexps : List Expr → List Bytes
  | [] => []
  | e :: es => exprRegexps e ++ condRegexps es
end

mutual
/-- Of a block element. -/
def bopRegexps : BOP → List Bytes
  | .branch _ c b _ _ ei el => condRegexps c ++ blockRegexps b ++ elifsRegexps ei ++ elseRegexps el
  | _ => []
/-- Of a block. -/
def blockRegexps : List BOP → List Bytes
  | [] => []
  | b :: bs => bopRegexps b ++ blockRegexps bs
/-- Of else-if blocks. -/
def elifsRegexps : List Elif → List Bytes
  | [] => []
  | .mk _ c b _ _ :: es => condRegexps c ++ blockRegexps b ++ elifsRegexps es
/-- Of an else block. -/
def elseRegexps : ElseB → List Bytes
  | .mk _ b _ _ => blockRegexps b
end

/-- The regular expressions of a configuration. -/
def regexps (c : Config) : List Bytes := (c.input ++ c.filter ++ c.output).flatMap fun s => blockRegexps s.bops

private def slashed (r : Bytes) : Bytes := b!"/" ++ r ++ b!"/"

private theorem rvalue_regexps (r : Rvalue) : ((rvalueRegexps r).map slashed).Sublist (rvalueLits r) := by
  cases r <;> simp [rvalueRegexps, rvalueLits, slashed]

mutual
private theorem expr_regexps : ∀ e, ((exprRegexps e).map slashed).Sublist (exprLits e)
  | .nil => by simp [exprRegexps]
  | .cond _ _ c => by rw [exprRegexps, exprLits]; exact cond_regexps c
  | .negCond _ _ c => by rw [exprRegexps, exprLits]; exact cond_regexps c
  | .negSel _ _ s => by simp [exprRegexps]
  | .inE _ _ l r => by rw [exprRegexps, exprLits, List.map_append]; exact (rvalue_regexps l).append (rvalue_regexps r)
  | .notIn _ _ l r => by rw [exprRegexps, exprLits, List.map_append]; exact (rvalue_regexps l).append (rvalue_regexps r)
  | .rval _ _ r => by rw [exprRegexps, exprLits]; exact rvalue_regexps r
  | .cmp _ _ l _ r => by rw [exprRegexps, exprLits, List.map_append]; exact (rvalue_regexps l).append (rvalue_regexps r)
  | .re _ _ l _ r => by rw [exprRegexps, exprLits, List.map_append]; exact (rvalue_regexps l).append (rvalue_regexps r)
private theorem cond_regexps : ∀ es, ((condRegexps es).map slashed).Sublist (condLits es)
  | [] => by simp [condRegexps]
  | e :: es => by rw [condRegexps, condLits, List.map_append]; exact (expr_regexps e).append (cond_regexps es)
end

mutual
private theorem bop_regexps : ∀ b, ((bopRegexps b).map slashed).Sublist (bopLits b)
  | .nil => by simp [bopRegexps]
  | .plugin _ => by simp [bopRegexps]
  | .pluginPtr _ => by simp [bopRegexps]
  | .branch _ c b _ _ ei el => by
    rw [bopRegexps, bopLits, List.map_append, List.map_append, List.map_append]
    exact (((cond_regexps c).append (block_regexps b)).append (elifs_regexps ei)).append (else_regexps el)
private theorem block_regexps : ∀ bs, ((blockRegexps bs).map slashed).Sublist (blockLits bs)
  | [] => by simp [blockRegexps]
  | b :: bs => by rw [blockRegexps, blockLits, List.map_append]; exact (bop_regexps b).append (block_regexps bs)
private theorem elifs_regexps : ∀ es, ((elifsRegexps es).map slashed).Sublist (elifsLits es)
  | [] => by simp [elifsRegexps]
  | .mk _ c b _ _ :: es => by
    rw [elifsRegexps, elifsLits, List.map_append, List.map_append]
    exact ((cond_regexps c).append (block_regexps b)).append (elifs_regexps es)
private theorem else_regexps : ∀ e, ((elseRegexps e).map slashed).Sublist (elseLits e)
  | .mk _ b _ _ => by rw [elseRegexps, elseLits]; exact block_regexps b
end

private theorem spread_sublist {a b : List Bytes} (h : a.Sublist b) : ∀ {t}, Spread b t → Spread a t := by
  induction h with
  | slnil => intro t _; exact .nil t
  | cons l _ ih =>
    intro t ht
    cases ht with
    | cons g _ hs => exact (ih hs).pre _
  | cons_cons l _ ih =>
    intro t ht
    cases ht with
    | cons g _ hs => exact .cons g l (ih hs)

/-- **C18** In a printable configuration (the quotes in its regular expressions are balanced, and
these have no newline outside quotes) all regular expressions are printed byte for byte, in order. -/
theorem C18_regexps (c : Config) (h : Printable c) :
    Spread ((regexps c).map fun r => b!"/" ++ r ++ b!"/") c.str := by
  refine spread_sublist ?_ (C22_literals c h)
  unfold regexps configLits
  induction c.input ++ c.filter ++ c.output with
  | nil => exact .slnil
  | cons s l ih =>
    simp only [List.flatMap_cons, List.map_append] at ih ⊢
    exact (block_regexps s.bops).append ih

private theorem witness {content : Bytes} (P : Config → Bool) (h : (configOf content).any P = true) :
    ∃ c, configOf content = some c ∧ P c = true := by
  cases hc : configOf content with
  | none => rw [hc] at h; cases h
  | some c => rw [hc] at h; exact ⟨c, rfl, h⟩

/-- **C18** Violated: a quote in a regular expression, or in a field reference, makes the formatter
lose the beginning of the line; the result is not a configuration any more. -/
theorem C18_violated_quote :
    (∃ c, configOf b!"filter { if [a] =~ /it's/ { x {} } }" = some c ∧
      c.str = b!"filter {\n  s/ {\n    x {}\n  }\n}\n" ∧ valid c.str = false) ∧
    ∃ c, configOf b!"filter { if [it's] { x {} } }" = some c ∧
      c.str = b!"filter {\n  s] {\n    x {}\n  }\n}\n" ∧ valid c.str = false := by
  constructor
  · obtain ⟨c, h, hp⟩ := witness (content := b!"filter { if [a] =~ /it's/ { x {} } }")
      (fun c => c.str = b!"filter {\n  s/ {\n    x {}\n  }\n}\n" ∧ valid c.str = false) (by decide +kernel)
    exact ⟨c, h, by simpa using hp⟩
  · obtain ⟨c, h, hp⟩ := witness (content := b!"filter { if [it's] { x {} } }")
      (fun c => c.str = b!"filter {\n  s] {\n    x {}\n  }\n}\n" ∧ valid c.str = false) (by decide +kernel)
    exact ⟨c, h, by simpa using hp⟩

/-- **C18** Violated: a newline in a regular expression is followed by blanks after formatting, two
more every time. -/
theorem C18_violated_newline : ∃ c c', configOf b!"filter { if [a] =~ /x\ny/ { } }" = some c ∧
    regexps c = [b!"x\ny"] ∧ configOf c.str = some c' ∧ regexps c' = [b!"x\n  y"] := by
  obtain ⟨c, h, hp⟩ := witness (content := b!"filter { if [a] =~ /x\ny/ { } }")
    (fun c => regexps c = [b!"x\ny"] ∧ (configOf c.str).any (fun c' => regexps c' = [b!"x\n  y"]) = true) (by decide +kernel)
  simp only [decide_eq_true_eq] at hp
  obtain ⟨c', h', hp'⟩ := witness _ hp.2
  simp only [decide_eq_true_eq] at hp'
  exact ⟨c, c', h, hp.1, h', hp'⟩

/-- **C17** Violated: formatting once is not enough when a first comment is preceded by a line of blanks. -/
theorem C17_violated : ∃ content c c', configOf content = some c ∧ configOf c.str = some c' ∧ c'.str ≠ c.str := by
  obtain ⟨c, h, hp⟩ := witness (content := b!"input {\n \n\n # c\n x { } }")
    (fun c => (configOf c.str).any (fun c' => !decide (c'.str = c.str)) = true) (by decide +kernel)
  simp only [decide_eq_true_eq] at hp
  obtain ⟨c', h', hp'⟩ := witness _ hp
  exact ⟨_, c, c', h, h', by simpa using hp'⟩

/-- The comments of the input sections. -/
def sectionComments (c : Config) : List (List Bytes) := c.input.map fun s => s.comment.map (·.text)

/-- **C20** Violated: the comment of the second section of a type is replaced by that of the first. -/
theorem C20_violated_sections : ∃ c c', configOf b!"# one\ninput { }\n# two\ninput { }" = some c ∧
    sectionComments c = [[b!"one"], [b!"two"]] ∧ configOf c.str = some c' ∧
    sectionComments c' = [[b!"one"], [b!"one"]] := by
  obtain ⟨c, h, hp⟩ := witness (content := b!"# one\ninput { }\n# two\ninput { }")
    (fun c => sectionComments c = [[b!"one"], [b!"two"]] ∧
      (configOf c.str).any (fun c' => sectionComments c' = [[b!"one"], [b!"one"]]) = true) (by decide +kernel)
  simp only [decide_eq_true_eq] at hp
  obtain ⟨c', h', hp'⟩ := witness _ hp.2
  simp only [decide_eq_true_eq] at hp'
  exact ⟨c, c', h, hp.1, h', hp'⟩

/-- **C20** Violated: formatting a file of comments without a section makes it empty. -/
theorem C20_violated_empty : ∃ c, configOf b!"# one\n# two\n" = some c ∧ c.str = [] := by
  obtain ⟨c, h, hp⟩ := witness (content := b!"# one\n# two\n") (fun c => c.str = []) (by decide +kernel)
  exact ⟨c, h, by simpa using hp⟩

/-! ### A concrete case -/

private def b0 : BoolExpr := ⟨Pos.zero, ⟨.noOp, Pos.zero⟩⟩
private def b1 : BoolExpr := ⟨Pos.zero, ⟨.or, Pos.zero⟩⟩
private def com (t : Bytes) : CommentBlock := [⟨t, true, false⟩]

/-- A nested configuration with comments, strings with newlines, numbers, arrays, hashes, regular
expressions and field references. -/
def formatSample : Config :=
  ⟨[⟨Pos.zero, .input, [.plugin (.mk Pos.zero b!"stdin" [] (com b!"a plugin") [])], com b!"it's", []⟩],
   [⟨Pos.zero, .filter, [
      .branch Pos.zero [.cmp Pos.zero b0 (.sel ⟨Pos.zero, [⟨Pos.zero, b!"a"⟩, ⟨Pos.zero, b!"b"⟩]⟩) ⟨.ge, Pos.zero⟩ (.num ⟨Pos.zero, [], ⟨false, 4503599627370496, 8⟩, []⟩),
          .negCond Pos.zero b1 [.re Pos.zero b0 (.sel ⟨Pos.zero, [⟨Pos.zero, b!"c"⟩]⟩) ⟨.match, Pos.zero⟩ (.re ⟨Pos.zero, b!"^x\\/.*\"y'\"$"⟩)]]
        [.plugin (.mk Pos.zero b!"mutate" [
            .str ⟨Pos.zero, b!"text", b!"line # one\n\nline 'three'", .doubleQuoted, com b!"a comment"⟩,
            .arr Pos.zero b!"list" [.str ⟨Pos.zero, [], b!"x y", .singleQuoted, com b!"an element"⟩, .num ⟨Pos.zero, [], ⟨true, 0, -1074⟩, []⟩] [] [],
            .hash Pos.zero b!"map" [.mk Pos.zero (.str ⟨Pos.zero, [], b!"key", .bareword, []⟩)
              (.str ⟨Pos.zero, [], b!"val", .singleQuoted, []⟩) (com b!"an entry")] [] (com b!"the end")] [] [])]
        (com b!"a branch") [] [.mk Pos.zero [.rval Pos.zero b0 (.sel ⟨Pos.zero, [⟨Pos.zero, b!"d"⟩]⟩)] [] [] []]
        (.mk Pos.zero [.plugin (.mk Pos.zero b!"drop" [] [] [])] [] [])], [], com b!"footer"⟩],
   [], com b!"the end", []⟩

private def bodyB (q : UInt8) : Bool → Bytes → Bool
  | p, [] => !p
  | p, b :: r => (b != q || p) && bodyB q (b == 92) r

private theorem bodyB_sound (q : UInt8) (s : Bytes) : ∀ p, bodyB q p s = true →
    (∀ l r, s = l ++ q :: r → (l = [] ∧ p = true) ∨ ∃ l', l = l' ++ [92]) ∧ (s = [] → p = false) ∧ s.getLast? ≠ some 92 := by
  induction s with
  | nil => intro p h; exact ⟨fun l r h => by simp at h, fun _ => by simpa [bodyB] using h, by simp⟩
  | cons b s ih =>
    intro p h
    simp only [bodyB, Bool.and_eq_true, Bool.or_eq_true, bne_iff_ne] at h
    obtain ⟨h1, h2⟩ := h
    obtain ⟨i1, i2, i3⟩ := ih _ h2
    refine ⟨fun l r hl => ?_, fun h => by simp at h, ?_⟩
    · cases l with
      | nil =>
        simp only [List.nil_append, List.cons.injEq] at hl
        exact .inl ⟨rfl, h1.resolve_left (fun h => h hl.1)⟩
      | cons x l =>
        simp only [List.cons_append, List.cons.injEq] at hl
        rcases i1 l r hl.2 with ⟨rfl, hb⟩ | ⟨l', rfl⟩
        · exact .inr ⟨[], by rw [← hl.1, beq_iff_eq.1 hb]; rfl⟩
        · exact .inr ⟨x :: l', rfl⟩
    · cases s with
      | nil => simpa using i2 rfl
      | cons y s => rw [List.getLast?_cons_cons]; exact i3

private theorem body_of {q : UInt8} {s : Bytes} (h : bodyB q false s = true) : StringBody q s := by
  obtain ⟨h1, -, h3⟩ := bodyB_sound q s false h
  exact ⟨fun l r hl => (h1 l r hl).resolve_left (fun h => by simp at h), h3⟩

theorem formatSample_printable : Printable formatSample := by
  have hn : ∀ n : Bytes, n ≠ [] → n.all isNameChar = true → NameOk n := fun n h1 h2 =>
    ⟨⟨.bareword, n⟩, by simp [StrLit.Name, h1, h2], by simp [StrLit.text, StrLit.quote]⟩
  have hw : ∀ n : Bytes, n.head?.any isWordStart = true → n.tail ≠ [] → n.tail.all isWordChar = true → (⟨.bareword, n⟩ : StrLit).Value := by
    intro n h1 h2 h3
    cases n with
    | nil => simp at h1
    | cons c r => exact .inl ⟨rfl, c, r, rfl, by simpa using h1, h2, h3⟩
  have hd : ∀ s, bodyB 34 false s = true → (⟨.doubleQuoted, s⟩ : StrLit).Value := fun s h => .inr (.inl ⟨rfl, body_of h⟩)
  have hq : ∀ s, bodyB 39 false s = true → (⟨.singleQuoted, s⟩ : StrLit).Value := fun s h => .inr (.inr ⟨rfl, body_of h⟩)
  have hc : ∀ t, t.all (fun c => c != 10 && c != 13) = true → trim 32 t = t → CommentsOk (com t) := by
    intro t h1 h2 c hc
    simp only [com, List.mem_singleton] at hc
    subst hc
    exact ⟨⟨fun c hc => by simpa using List.all_eq_true.1 h1 c hc, h2⟩, rfl⟩
  have hc0 : CommentsOk [] := fun c hc => by cases hc
  have hb : ∀ b : Bytes, b.all (fun c => c != 34 && c != 39 && c != 10) = true → Balanced b := by
    intro b
    induction b with
    | nil => intro _; exact .nil
    | cons c b ih =>
      intro h
      simp only [List.all_cons, Bool.and_eq_true, bne_iff_ne] at h
      exact .plain c b h.1.1.1 h.1.1.2 h.1.2 (ih h.2)
  have hre : Balanced b!"^x\\/.*\"y'\"$" := by
    have := balanced_append (hb b!"^x\\/.*" (by decide)) (.quoted 34 b!"y'" b!"$" (.inl rfl) (body_of (by decide)) (hb _ (by decide)))
    exact this
  have hif : ∀ n : Bytes, n.take 2 ≠ b!"if" → ¬ IfLike n := by
    rintro _ h ⟨c, r, -, rfl, -⟩
    exact h rfl
  have hsel : ∀ n : Bytes, n ≠ [] → n.all isSelChar = true → SelOk [n] := fun n h1 h2 => ⟨by simp, by simpa using ⟨h1, by simpa using h2⟩⟩
  refine ⟨?_, ?_, ?_, hc _ (by decide) (by decide)⟩
  · intro s hs
    simp only [formatSample, List.mem_singleton] at hs
    subst hs
    refine ⟨rfl, ?_, ⟨?_, ?_⟩, hc0⟩
    · simp only [BlockOk, BopOk, PluginOk, AttrsOk, BOP.isOpen]
      exact ⟨⟨⟨hn _ (by decide) (by decide), trivial, hc _ (by decide) (by decide), hc0⟩, fun _ => hif _ (by decide)⟩, by simp, trivial⟩
    · exact fun c h => (hc b!"it's" (by decide) (by decide) c h).1
    · simp [com]
  · intro s hs
    simp only [formatSample, List.mem_singleton] at hs
    subst hs
    refine ⟨rfl, ?_, ⟨by simp, by simp⟩, hc _ (by decide) (by decide)⟩
    simp only [BlockOk, BopOk, PluginOk, AttrsOk, BOP.isOpen, ElifsOk, ElseOk, Spec.CondOk, Spec.ExprOk, JoinOk, RvalueOk, ValueOk, ElemsOk,
      EntriesOk, KeyOk, Attr.isPlug, Attr.name, Attr.comment, NoElse, b0, b1]
    have e1 : Exact ⟨false, 4503599627370496, 8⟩ := by unfold Exact; decide +kernel
    have e2 : Exact ⟨true, 0, -1074⟩ := by unfold Exact; decide +kernel
    have s2 : SelOk [b!"a", b!"b"] := ⟨by decide, by decide⟩
    have k1 : ∀ n ∈ [b!"mutate", b!"drop", b!"text", b!"list", b!"map"], NameOk n ∧ ¬ IfLike n := by
      intro n hh
      simp only [List.mem_cons, List.not_mem_nil, or_false] at hh
      rcases hh with rfl | rfl | rfl | rfl | rfl <;> exact ⟨hn _ (by decide) (by decide), hif _ (by decide)⟩
    simp only [List.mem_cons, List.not_mem_nil, or_false, forall_eq_or_imp, forall_eq] at k1
    have k2 : ∀ t ∈ [b!"a branch", b!"an entry", b!"an element", b!"a comment", b!"the end"], CommentsOk (com t) := by
      intro n hh
      simp only [List.mem_cons, List.not_mem_nil, or_false] at hh
      rcases hh with rfl | rfl | rfl | rfl | rfl <;> exact hc _ (by decide) (by decide)
    simp only [List.mem_cons, List.not_mem_nil, or_false, forall_eq_or_imp, forall_eq] at k2
    have v1 := hd b!"line # one\n\nline 'three'" (by decide)
    have v2 := hq b!"x y" (by decide)
    have v3 := hq b!"val" (by decide)
    have v4 := hw b!"key" (by decide) (by decide) (by decide)
    have r1 : StringBody 47 b!"^x\\/.*\"y'\"$" := body_of (by decide)
    have sa := hsel b!"c" (by decide) (by decide)
    have sb := hsel b!"d" (by decide) (by decide)
    have ba : Balanced b!"a" := hb _ (by decide)
    have bb : Balanced b!"b" := hb _ (by decide)
    have bc : Balanced b!"c" := hb _ (by decide)
    have bd : Balanced b!"d" := hb _ (by decide)
    simp [e1, e2, s2, k1, k2, v1, v2, v3, v4, r1, sa, sb, ba, bb, bc, bd, hre, hc0, IsPattern, Plugin.name, Spec.CondOk, Spec.ExprOk, JoinOk, RvalueOk]
  · intro s hs
    simp [formatSample] at hs

/-- The sample meets the hypotheses of the theorems above; formatting and parsing it again gives back
what is expected. -/
example : Printable formatSample ∧ CommentsKept formatSample ∧ valid formatSample.str = true ∧
    configLits formatSample = [b!"stdin", b!"[a][b]", b!"[c]", b!"/^x\\/.*\"y'\"$/", b!"mutate", b!"text",
      b!"\"line # one\n\nline 'three'\"", b!"list", b!"'x y'", b!"map", b!"key", b!"'val'", b!"[d]", b!"drop"] ∧
    regexps formatSample = [b!"^x\\/.*\"y'\"$"] :=
  ⟨formatSample_printable, ⟨by simp [SameComments, formatSample], by simp [SameComments, formatSample],
    by simp [SameComments, formatSample], by simp [formatSample]⟩, by decide +kernel, by decide +kernel, by decide +kernel⟩

end Verif.Props
