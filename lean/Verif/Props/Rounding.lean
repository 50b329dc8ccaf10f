import Verif.Props.Exact
import Verif.Proofs.Rounding
import Verif.Proofs.Fewest
import Verif.Proofs.RisksText
/-
C57: the values of number literals; C16: which parsed configurations are printable.
-/
namespace Verif.Props
open Verif Verif.Spec

/-! ### C57 -/

/-- **C57** The value of a number literal is the binary64 value closest to the number written, ties going
to the even significand; there is none exactly if the number is beyond the range of binary64. -/
theorem C57_nearest (l : NumLit) (h : l.Ok) (x : F64) :
    parseFloat l.text = some x ↔ Nearest l.neg l.value x ∧ l.value < rangeLimit := parseFloat_iff h x

/-- **C57** No other value is closest: the value of a literal is determined. -/
theorem C57_determined (neg : Bool) (v : ℚ) (x y : F64) (hx : Nearest neg v x) (hy : Nearest neg v y) : x = y :=
  nearest_unique hx hy

/-- **C57** Exactly the literals within the range are admissible where a number can stand. -/
theorem C57_range (t : Bytes) : NumOk t ↔ ∃ l : NumLit, l.Ok ∧ l.text = t ∧ l.value < rangeLimit := by
  constructor
  · rintro ⟨h1, h2⟩
    obtain ⟨l, h3, rfl⟩ := numTok_lit.1 h1
    obtain ⟨x, hx⟩ := Option.isSome_iff_exists.1 h2
    exact ⟨l, h3, rfl, ((C57_nearest l h3 x).1 hx).2⟩
  · rintro ⟨l, h1, rfl, h2⟩
    refine ⟨numTok_lit.2 ⟨l, h1, rfl⟩, ?_⟩
    obtain ⟨a, b, hb, hv, hp⟩ := parse_lit h1
    rw [hp, Option.isSome_iff_ne_none, ne_eq, roundPos_none hb, hv, ← rangeLimit_eq]
    exact not_le.2 h2

private theorem mem_numbers {c : Config} {x : F64} : x ∈ numbers c ↔ Risk.number x ∈ risks c := by
  simp only [numbers, List.mem_filterMap]
  constructor
  · rintro ⟨r, h1, h2⟩
    cases r <;> simp at h2
    subst h2; exact h1
  · exact fun h => ⟨_, h, rfl⟩
private theorem mem_patterns {c : Config} {x : Bytes} : x ∈ patterns c ↔ Risk.pattern x ∈ risks c := by
  simp only [patterns, List.mem_filterMap]
  constructor
  · rintro ⟨r, h1, h2⟩
    cases r <;> simp at h2
    subst h2; exact h1
  · exact fun h => ⟨_, h, rfl⟩
private theorem mem_arrays {c : Config} {x : Bytes} : x ∈ arraysInConditions c ↔ Risk.array x ∈ risks c := by
  simp only [arraysInConditions, List.mem_filterMap]
  constructor
  · rintro ⟨r, h1, h2⟩
    cases r <;> simp at h2
    subst h2; exact h1
  · exact fun h => ⟨_, h, rfl⟩
private theorem mem_names {c : Config} {x : Bytes} : x ∈ namesAfterBranches c ↔ Risk.afterIf x ∈ risks c := by
  simp only [namesAfterBranches, List.mem_filterMap]
  constructor
  · rintro ⟨r, h1, h2⟩
    cases r <;> simp at h2
    subst h2; exact h1
  · exact fun h => ⟨_, h, rfl⟩

/-- **C57** Every number in a configuration `Parse` returns is the correctly rounded value of a literal
that stands in the file. -/
theorem C57_parsed (o : Opts) (f data : Bytes) (ff : List FF) (c : Config)
    (h : (parse o f data ff).1 = .done (.config c) []) (x : F64) (hx : x ∈ numbers c) :
    ∃ l : NumLit, l.Ok ∧ l.text <:+: data ∧ Nearest l.neg l.value x ∧ l.value < rangeLimit := by
  obtain ⟨k, c', h1, -, h2, h3, h4⟩ := C02_tree o f data ff (by rw [h]; rfl)
  rw [h] at h3
  injection h3 with h3
  injection h3 with h3
  subst h3
  have h5 := from_file o.ignoreComments h1
  rw [← h4, risks_content, h2] at h5
  obtain ⟨n, h6, h7, h8⟩ := h5 x (mem_numbers.1 hx)
  obtain ⟨l, h9, rfl⟩ := numTok_lit.1 h6
  exact ⟨l, h9, h7, (C57_nearest l h9 x).1 h8⟩

/-- A tie: `9007199254740993` is read as `9007199254740992`, whose significand is even. -/
example : Nearest false (NumLit.value ⟨false, b!"9007199254740993", false, []⟩) ⟨false, 2 ^ 52, 1⟩ :=
  ((C57_nearest ⟨false, b!"9007199254740993", false, []⟩ (by unfold NumLit.Ok; decide +kernel) _).1 (by decide +kernel)).1

/-- Not a tie: `-0.1`. -/
example : Nearest true (NumLit.value ⟨true, b!"0", true, b!"1"⟩) ⟨true, 7205759403792794, -56⟩ :=
  ((C57_nearest ⟨true, b!"0", true, b!"1"⟩ (by unfold NumLit.Ok; decide +kernel) _).1 (by decide +kernel)).1

/-- Numbers are found in attributes, hash keys and conditions. -/
example : ∃ c, configOf b!"input { if 1.5 == [x] { a { b => { 2 => [ 3, 4 ] } } } }" = some c ∧
    (numbers c).map (fun x => numString x) = [b!"1.5", b!"2", b!"3", b!"4"] := by
  obtain ⟨c, h, hp⟩ := config_witness (content := b!"input { if 1.5 == [x] { a { b => { 2 => [ 3, 4 ] } } } }")
    (fun c => (numbers c).map (fun x => numString x) = [b!"1.5", b!"2", b!"3", b!"4"]) (by decide +kernel)
  exact ⟨c, h, by simpa using hp⟩

/-! ### C16 -/

/-- **C16** No plugin in the blocks of a parsed configuration has a name that reads as the beginning of a
branch. -/
theorem C16_names (o : Opts) (f data : Bytes) (ff : List FF) (c : Config)
    (h : (parse o f data ff).1 = .done (.config c) []) : ∀ p ∈ plugins c, ¬ IfLike p.name := by
  obtain ⟨k, c', h1, hcl, h2, h3, h4⟩ := C02_tree o f data ff (by rw [h]; rfl)
  rw [h] at h3
  injection h3 with h3
  injection h3 with h3
  subst h3
  refine noIf_content c ?_
  rw [h4]
  exact noIf_file _ k hcl

private theorem exact_iff {x : F64} (hx : x.Canon) : Exact x ↔ magnitude x = 0 ∨ 1 / 10000 ≤ magnitude x := by
  have h := x.num_den
  have hd : (0 : ℚ) < x.den := by exact_mod_cast x.den_pos
  have hm : magnitude x = (x.num : ℚ) / x.den := h.symm
  have h0 : magnitude x = 0 ↔ x.m = 0 := by
    unfold magnitude
    rw [mul_eq_zero]
    have := (two_zpow_pos x.e).ne'
    simp [this]
  unfold Exact
  rw [h0, hm, div_le_div_iff₀ (by norm_num) hd]
  constructor
  · rintro ⟨-, h1 | h1⟩
    · exact .inl h1
    · right
      have : (x.den : ℚ) ≤ ((10 ^ 4 * x.num : Nat) : ℚ) := by exact_mod_cast h1
      push_cast at this
      linarith
  · rintro (h1 | h1)
    · exact ⟨hx, .inl h1⟩
    · refine ⟨hx, .inr ?_⟩
      have : (x.den : ℚ) ≤ ((10 ^ 4 * x.num : Nat) : ℚ) := by push_cast; linarith
      exact_mod_cast this

/-- **C16** When a configuration `Parse` returned is printable: its numbers are zero or at least 1e-4 in
magnitude, the quotes in its regular expressions and field references are balanced (with no newline
outside them), no array in a condition looks like a field reference when printed, and no plugin whose
name reads as the beginning of an else block follows a branch that is printed without one. -/
theorem C16_printable (o : Opts) (f data : Bytes) (ff : List FF) (c : Config)
    (h : (parse o f data ff).1 = .done (.config c) []) :
    Printable c ↔
      (∀ x ∈ numbers c, magnitude x = 0 ∨ 1 / 10000 ≤ magnitude x) ∧
      (∀ b ∈ patterns c, Balanced b) ∧
      (∀ b ∈ arraysInConditions c, ¬ SelLike b) ∧
      (∀ n ∈ namesAfterBranches c, ¬ ElseName n) := by
  have hcan : ∀ x ∈ numbers c, x.Canon := by
    intro x hx
    obtain ⟨l, -, -, h1, -⟩ := C57_parsed o f data ff c h x hx
    exact h1.2.1
  rw [printable_iff]
  have h1 := (C16_shape o f data ff c h).1
  have h2 := C16_names o f data ff c h
  constructor
  · rintro ⟨-, h3, -⟩
    refine ⟨fun x hx => (exact_iff (hcan x hx)).1 (h3 _ (mem_numbers.1 hx)), fun b hb => h3 _ (mem_patterns.1 hb),
      fun b hb => h3 _ (mem_arrays.1 hb), fun b hb => h3 _ (mem_names.1 hb)⟩
  · rintro ⟨h3, h4, h5, h6⟩
    refine ⟨h1, fun r hr => ?_, h2⟩
    cases r with
    | number x => exact (exact_iff (hcan x (mem_numbers.2 hr))).2 (h3 x (mem_numbers.2 hr))
    | pattern b => exact h4 b (mem_patterns.2 hr)
    | array b => exact h5 b (mem_arrays.2 hr)
    | afterIf n => exact h6 n (mem_names.2 hr)

/-- **C16** Formatting a file preserves its configuration, under these conditions on what was read. -/
theorem C16_faithful (o : Opts) (f f' data : Bytes) (ff ff' : List FF) (c : Config) (hm : o.maxExpr = none)
    (h : (parse o f data ff).1 = .done (.config c) [])
    (h1 : ∀ x ∈ numbers c, magnitude x = 0 ∨ 1 / 10000 ≤ magnitude x) (h2 : ∀ b ∈ patterns c, Balanced b)
    (h3 : ∀ b ∈ arraysInConditions c, ¬ SelLike b) (h4 : ∀ n ∈ namesAfterBranches c, ¬ ElseName n) :
    ∃ c', (parse o f' c.str ff').1 = .done (.config c') [] ∧ skeleton c' = skeleton c :=
  C16_file o f f' data ff ff' c hm h ((C16_printable o f data ff c h).2 ⟨h1, h2, h3, h4⟩)

/-- **C16** Violated without the restriction on else blocks: an empty else block is not printed, and a
plugin named `else` after it becomes the else block. -/
theorem C16_violated_else : ∃ content c c', configOf content = some c ∧ configOf c.str = some c' ∧
    namesAfterBranches c = [b!"else"] ∧
    (plugins c).map (·.name) = [b!"else"] ∧ (plugins c').map (·.name) = [] := by
  obtain ⟨c, h, hp⟩ := config_witness (content := b!"input { if [a] { } else { } else { } }")
    (fun c => namesAfterBranches c = [b!"else"] ∧ (plugins c).map (·.name) = [b!"else"] ∧
      (configOf c.str).any (fun c' => (plugins c').map (·.name) = []))
    (by decide +kernel)
  simp only [decide_eq_true_eq] at hp
  obtain ⟨c', h', hp'⟩ := config_witness _ hp.2.2
  exact ⟨_, c, c', h, h', hp.1, hp.2.1, by simpa using hp'⟩

/-- **C16** Violated without the restriction on arrays in conditions: an array of one string is printed
like a field reference.  (Such an array can only be written with a plugin as first element, which is
dropped, C19, or with a comment in it that the parser is told to ignore.) -/
theorem C16_violated_array : ∃ content c c', configOf content = some c ∧ configOf c.str = some c' ∧
    patterns c = [] ∧ (arraysInConditions c).length = 1 ∧ arraysInConditions c' = [] ∧
    patterns c' = [b!"\n    'b'\n  "] := by
  obtain ⟨c, h, hp⟩ := config_witness (content := b!"input { if [ x { }, 'b' ] == 1 { } }")
    (fun c => patterns c = [] ∧ (arraysInConditions c).length = 1 ∧
      (configOf c.str).any (fun c' => arraysInConditions c' = [] ∧ patterns c' = [b!"\n    'b'\n  "]))
    (by decide +kernel)
  simp only [decide_eq_true_eq] at hp
  obtain ⟨c', h', hp'⟩ := config_witness _ hp.2.2
  simp only [decide_eq_true_eq] at hp'
  exact ⟨_, c, c', h, h', hp.1, hp.2.1, hp'⟩

/-! ### C23: the printed decimal -/

/-- **C23** Every number other than zero is printed as a literal; if it has digits after the point, then among the literals that have
this value and as many digits after the point, or less, none is closer to the number. -/
theorem C23_closest (a : NumAttr) (h : a.value.Canon) (h0 : a.value.m ≠ 0) : ∃ l : NumLit, l.Ok ∧ l.text = a.valueStr ∧ (l.frac ≠ [] →
    ∀ l' : NumLit, l'.Ok → parseFloat l'.text = some a.value → l'.frac.length ≤ l.frac.length →
      |l.value - magnitude a.value| ≤ |l'.value - magnitude a.value|) :=
  numString_closest h (Nat.pos_of_ne_zero h0)

/-- **C23** A number from 1 up to 100000 is printed with as few digits after the point as any literal with this value has. -/
theorem C23_fewest (a : NumAttr) (h : a.value.Canon) (h1 : 1 ≤ magnitude a.value) (h2 : magnitude a.value < 100000) :
    ∃ l : NumLit, l.Ok ∧ l.text = a.valueStr ∧
      ∀ l' : NumLit, l'.Ok → parseFloat l'.text = some a.value → l.frac.length ≤ l'.frac.length := numString_fewest h h1 h2

/-- `2.5` meets the hypotheses. -/
example : let x : F64 := ⟨false, 5629499534213120, -51⟩
    x.Canon ∧ 1 ≤ magnitude x ∧ magnitude x < 100000 ∧ numString x = b!"2.5" := by
  refine ⟨by decide +kernel, by norm_num [magnitude], by norm_num [magnitude], by decide +kernel⟩

/-- Two literals with 12 digits after the point have the same value; the closer one is printed. -/
example : ∃ x, parseFloat b!"65159.471475789934" = some x ∧ parseFloat b!"65159.471475789935" = some x ∧ x.Canon ∧ x.m ≠ 0 ∧
    numString x = b!"65159.471475789935" := by
  refine ⟨(parseFloat b!"65159.471475789934").getD default, ?_, ?_, ?_, ?_, ?_⟩ <;> decide +kernel

end Verif.Props
