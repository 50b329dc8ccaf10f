import Verif.Proofs.Depth
import Verif.Proofs.Complete
import Verif.Proofs.Utf8Split
import Verif.Proofs.RunParse
import Verif.Spec.Clear
/-
A stack of any fixed size is too small for some input.
-/
namespace Verif
open Spec

/-- The projected evaluation with bounded depth. -/
def revalDepth (o : Opts) (G : Gram) (L : Nat) : Nat → Ex → Bytes → Frame → Res
  | 0, _, _, _ => .timeout
  | d + 1, e, b, fr => stepR o G (revalDepth o G L d) L e b fr

theorem evalDepth_proj {o : Opts} (hm : o.maxExpr = none) (G : Gram) (L d : Nat) :
    Agree o (evalDepth o G L d) (revalDepth o G L d) := by
  induction d with
  | zero => intro e s _ _ h; exact absurd rfl h
  | succ d ih =>
    intro e s he hv hn
    simp only [evalDepth, tooMany, hm] at hn ⊢
    simp only [Bool.false_eq_true, if_false] at hn ⊢
    exact step_proj (evalDepth_good o G L d) (fun e s h1 h2 => proj_bad (evalDepth_good o G L d e s) h1 h2) ih L e
      { s with cnt := s.cnt + 1 } he hv hn

theorem revalDepth_below (o : Opts) (L d : Nat) : Below (revalDepth o gram L d) (run o) := by
  suffices h : Below (revalDepth o gram L d) (reval o gram (L + d)) by
    intro e b fr hn
    rw [run_of_reval o (n := L + d) (by rw [h e b fr hn]; exact hn), h e b fr hn]
  induction d with
  | zero => intro e b fr h; exact absurd rfl h
  | succ d ih =>
    intro e b fr hn
    simp only [revalDepth] at hn
    show stepR o gram (reval o gram (L + d)) (L + d) e b fr = stepR o gram (revalDepth o gram L d) L e b fr
    exact stepR_mono o gram ih L (L + d) (by omega) e b fr hn

/-! ### Too deep -/

section
variable (o : Opts) (L : Nat)

/-- The depth `d` is not enough for the expression at `b`. -/
def TO (d : Nat) (e : Ex) (b : Bytes) : Prop := ∀ fr, revalDepth o gram L d e b fr = .timeout

/-- The depth `d` is not enough for the elements of a sequence at `b`. -/
def TOs (d : Nat) (es : List Ex) (b : Bytes) : Prop := ∀ acc fr, seqR (revalDepth o gram L d) es acc b fr = .timeout

/-- The depth `d` is not enough for the alternatives of a choice at `b`. -/
def TOc (d : Nat) (es : List Ex) (b : Bytes) : Prop := ∀ fr, choiceR (revalDepth o gram L d) es b fr = .timeout

/-- The expression leads from `b` to `b'`. -/
def Passes (e : Ex) (b b' : Bytes) : Prop := ∀ fr, ∃ v fr', run o e b fr = .ok v b' fr'

end

section
variable {o : Opts} {L d : Nat} {b b' : Bytes}

theorem TO.zero (e : Ex) : TO o L 0 e b := fun _ => rfl

theorem TO.action {a : Act} {e : Ex} (h : TO o L d e b) : TO o L (d + 1) (.action a e) b := by
  intro fr
  simp only [revalDepth, stepR]
  rw [h fr]

theorem TO.labeled {l : Lbl} {e : Ex} (h : TO o L d e b) : TO o L (d + 1) (.labeled l e) b := by
  intro fr
  simp only [revalDepth, stepR]
  rw [h []]

theorem TO.opt {e : Ex} (h : TO o L d e b) : TO o L (d + 1) (.opt e) b := by
  intro fr
  simp only [revalDepth, stepR]
  rw [h []]

theorem TO.ref {r : Rule} (h : TO o L d (gram r) b) : TO o L (d + 1) (.ref r) b := by
  intro fr
  simp only [revalDepth, stepR]
  rw [h []]

theorem TO.star {e : Ex} (h : TO o L d e b) : TO o L (d + 1) (.star e) b := by
  intro fr
  simp only [revalDepth, stepR]
  cases L with
  | zero => rfl
  | succ L => simp only [starR]; rw [h []]

theorem TO.seq {es : List Ex} (h : TOs o L d es b) : TO o L (d + 1) (.seq es) b := fun fr => h [] fr

theorem TO.choice {es : List Ex} (h : TOc o L d es b) : TO o L (d + 1) (.choice es) b := fun fr => h fr

theorem TOs.head {e : Ex} {es : List Ex} (h : TO o L d e b) : TOs o L d (e :: es) b := by
  intro acc fr
  simp only [seqR]
  rw [h fr]

theorem TOs.cons {e : Ex} {es : List Ex} (hp : Passes o e b b') (h : TOs o L d es b') : TOs o L d (e :: es) b := by
  intro acc fr
  simp only [seqR]
  obtain ⟨v, fr', hv⟩ := hp fr
  by_cases ht : revalDepth o gram L d e b fr = .timeout
  · rw [ht]
  · rw [← revalDepth_below o L d e b fr ht, hv]
    exact h _ _

theorem TOc.head {e : Ex} {es : List Ex} (h : TO o L d e b) : TOc o L d (e :: es) b := by
  intro fr
  simp only [choiceR]
  rw [h []]

theorem TOc.skip {e : Ex} {es : List Ex} (hp : Fails o e b) (h : TOc o L d es b) : TOc o L d (e :: es) b := by
  intro fr
  simp only [choiceR]
  by_cases ht : revalDepth o gram L d e b [] = .timeout
  · rw [ht]
  · rw [← revalDepth_below o L d e b [] ht, hp]
    exact h _

theorem Passes.labeled {l : Lbl} {e : Ex} {v : Val} (h : Runs o e b v b') : Passes o (.labeled l e) b b' :=
  fun _ => ⟨_, _, labA h⟩

theorem Passes.gap (h : Stop b) : Runs o G.gap b (gapVal o Gap.empty) b := by
  rw [runs_gap, gapOf_stop h]
  exact ⟨rfl, rfl⟩

theorem Passes.lgap {l : Lbl} (h : Stop b) : Passes o (.labeled l G.gap) b b := Passes.labeled (Passes.gap h)

theorem Passes.gapS (h : Stop b) : Passes o G.gapS b b := by
  intro fr
  rw [run_gapS, gapOf_stop h]
  exact ⟨_, _, rfl⟩

theorem Passes.warn : Passes o G.warn b b := fun fr => ⟨_, _, run_warn b fr⟩

theorem Passes.tok {t : Bytes} (h : t.all (fun c => decide (c < 128)) = true) : Passes o (.lit t) (t ++ b) b :=
  fun fr => ⟨_, _, tok_append h b fr⟩

/-! ### Nested arrays -/

theorem stop_opens (k : Nat) {X : Bytes} (h : Stop X) : Stop (List.replicate k 91 ++ X) := by
  cases k with
  | zero => exact h
  | succ k => exact stop_cons (by decide)

/-- Ten calls for every opening square bracket. -/
theorem value_deep (k : Nat) {X : Bytes} (hX : Stop X) : TO o L (10 * k) (.ref .value) (List.replicate k 91 ++ X) := by
  induction k with
  | zero => exact TO.zero _
  | succ k ih =>
    have hb : List.replicate (k + 1) 91 ++ X = b!"[" ++ (List.replicate k 91 ++ X) := by
      simp [List.replicate_succ]
    rw [hb]
    have hs := stop_opens k hX
    generalize List.replicate k 91 ++ X = Y at ih hs
    have h1 : Fails o (.ref .plugin) (b!"[" ++ Y) := refF (open_plugin_fail (.inl rfl))
    have h2 : Fails o G.bareword (b!"[" ++ Y) := bareword_fail_head (by intro c hc; cases hc; decide)
    have h3 : Fails o G.stringValue (b!"[" ++ Y) := by rw [fails_stringValue]; exact ⟨by simp, by simp⟩
    have h4 : Fails o G.number (b!"[" ++ Y) := number_fail_head (by decide) (by decide)
    rw [show 10 * (k + 1) = 10 * k + 1 + 1 + 1 + 1 + 1 + 1 + 1 + 1 + 1 + 1 from rfl]
    refine TO.ref (TO.choice (.skip h1 (.skip h2 (.skip h3 (.skip h4 (.head (TO.ref ?_)))))))
    refine TO.action (TO.seq (.cons (Passes.tok (by decide)) (.head (TO.labeled (TO.opt (TO.action ?_))))))
    exact TO.seq (.cons (Passes.lgap hs) (.head (TO.labeled ih)))

theorem name_passes {l : Lbl} {c : UInt8} {n Y : Bytes} (hn : n ≠ []) (ha : n.all isNameChar = true) (hc : isNameChar c = false) :
    Passes o (.labeled l G.name) (n ++ c :: Y) (c :: Y) := by
  refine Passes.labeled (v := .attr (.str (StrLit.ast ⟨.bareword, n⟩))) (runs_name.2 ⟨⟨.bareword, n⟩, .inl ⟨rfl, hn, ha⟩, ?_, rfl, fun _ => ?_⟩)
  · simp [StrLit.text, StrLit.quote]
  · simp [hc]

theorem attr_deep {Y : Bytes} (hs : Stop Y) (h : TO o L d (.ref .value) Y) :
    TO o L (d + 3) G.attr (b!"bb=>" ++ Y) := by
  refine TO.action (TO.seq (.cons (b' := b!"=>" ++ Y) (name_passes (n := b!"bb") (c := 61) (by decide) (by decide) (by decide))
    (.cons (Passes.gapS (stop_cons (by decide))) (.cons Passes.warn (.cons (Passes.tok (by decide)) (.cons (Passes.gapS hs)
    (.cons Passes.warn (.head (TO.labeled h)))))))))

theorem plugin_deep {Y : Bytes} (h : TO o L d G.attr (b!"bb=>" ++ Y)) :
    TO o L (d + 8) G.plugin (b!"aa{bb=>" ++ Y) := by
  refine TO.action (TO.seq (.cons (Passes.lgap (stop_cons (by decide))) (.cons (b' := b!"{bb=>" ++ Y)
    (name_passes (n := b!"aa") (c := 123) (by decide) (by decide) (by decide)) (.cons (Passes.gapS (stop_cons (by decide)))
    (.cons Passes.warn (.cons (b' := b!"bb=>" ++ Y) (Passes.tok (t := b!"{") (by decide)) (.head (TO.labeled (TO.opt (TO.action ?_))))))))))
  exact TO.seq (.cons (Passes.lgap (stop_cons (by decide))) (.head (TO.labeled (TO.ref h))))

theorem branch_fails (Y : Bytes) : Fails o G.branch (b!"aa{bb=>" ++ Y) := by
  refine actF (seqA (labA (Passes.gap (stop_cons (by decide)))) (seqF (labeled_fail.2 (refF (actF (seqF ?_))))))
  exact tokF (by decide) (by simp)

theorem init_deep {Y : Bytes} (h : TO o L d G.plugin (b!"aa{bb=>" ++ Y)) :
    TO o L (d + 21) G.init (b!"filter{aa{bb=>" ++ Y) := by
  have hp : TO o L (d + 9) G.pluginSection (b!"filter{aa{bb=>" ++ Y) := by
    refine TO.action (TO.seq (.cons (b' := b!"{aa{bb=>" ++ Y) ?_ (.cons (Passes.gapS (stop_cons (by decide)))
      (.cons Passes.warn (.cons (b' := b!"aa{bb=>" ++ Y) (Passes.tok (t := b!"{") (by decide))
      (.head (TO.labeled (TO.star (TO.action (TO.labeled (TO.ref ?_)))))))))))
    · exact Passes.labeled (v := .ptype .filter) (runs_ptype.2 ⟨.filter, by decide, rfl, rfl⟩)
    · exact TO.choice (.skip (refF (branch_fails Y)) (.head (TO.ref h)))
  refine TO.action (TO.seq (.cons (fun fr => ⟨_, _, run_state ..⟩) (.cons (fun fr => ⟨_, _, run_initParser ..⟩) (.head (TO.labeled
    (TO.choice (.head (TO.action (TO.seq (.head (TO.labeled (TO.ref (TO.action ?_)))))))))))))
  exact TO.seq (.cons (Passes.lgap (stop_cons (by decide))) (.head (TO.labeled (TO.ref hp))))

end

theorem parseDepth_none {o : Opts} (hm : o.maxExpr = none) (filename : Bytes) (ff : List FF) {d : Nat} {data : Bytes}
    (hv : ValidUTF8 data) (h : ∀ L, TO o L d G.init data) : parseDepth d o filename data ff = none := by
  have hn : evalDepth o gram (data.length + 1) d G.init (initSt o data ff) = .timeout := by
    false_or_by_contra
    rename_i hc
    have hr := initSt_rest o data ff
    have h1 := evalDepth_proj hm gram (data.length + 1) d G.init (initSt o data ff) (initSt_errs ff (.inr (validRest_of_valid hv))) (by rw [hr]; exact .inr (validRest_of_valid hv)) hc
    rw [hr, h] at h1
    cases he : evalDepth o gram (data.length + 1) d G.init (initSt o data ff) with
    | timeout => exact hc he
    | ok v t => rw [he] at h1; simp only [proj] at h1; split at h1 <;> cases h1
    | fail t => rw [he] at h1; simp only [proj] at h1; split at h1 <;> cases h1
    | panic m t => rw [he] at h1; cases h1
  rw [parseDepth_eq, hn]

/-! ### The nested arrays are a valid configuration -/

/-- Nested arrays, `k + 1` deep. -/
def nestVal : Nat → CVal
  | 0 => .arr [] Gap.empty
  | k + 1 => .arr [.mk Gap.empty Gap.empty (nestVal k)] Gap.empty

/-- The file `nestedArrays k`. -/
def nestFile (k : Nat) : CFile :=
  .config ⟨Gap.empty, .filter, Gap.empty,
    [.plugin Gap.empty (.mk ⟨.bareword, b!"aa"⟩ Gap.empty
      [.mk [] Gap.empty ⟨.bareword, b!"bb"⟩ Gap.empty Gap.empty (nestVal k)] Gap.empty)], Gap.empty⟩ [] Gap.empty

theorem gap_empty_text : Gap.empty.text = [] := rfl

theorem nestVal_ok (k : Nat) : (nestVal k).Ok := by
  induction k with
  | zero => simp only [nestVal, CVal.Ok, elemsOk]; exact ⟨trivial, gap_empty_ok⟩
  | succ k ih =>
    simp only [nestVal, CVal.Ok, elemsOk]
    exact ⟨⟨gap_empty_ok, gap_empty_ok, ih, fun h => (nomatch h), trivial⟩, gap_empty_ok⟩

theorem nestVal_text (k : Nat) : (nestVal k).text = List.replicate (k + 1) 91 ++ List.replicate (k + 1) 93 := by
  induction k with
  | zero => rfl
  | succ k ih =>
    simp only [nestVal, CVal.text, elemsText, ih, gap_empty_text]
    rw [List.replicate_succ' (n := k + 1) (a := (93 : UInt8)), List.replicate_succ (n := k + 1) (a := (91 : UInt8))]
    simp

theorem nestFile_ok (k : Nat) : (nestFile k).Ok := by
  refine ⟨⟨gap_empty_ok, (by simp), gap_empty_ok, ?_, gap_empty_ok⟩, fun _ h => (nomatch h), .inl gap_empty_ok⟩
  simp only [itemsOk, CItem.Ok, CPlugin.Ok, attrsOk]
  exact ⟨⟨gap_empty_ok, .inl ⟨rfl, by decide, by decide⟩, gap_empty_ok, ⟨fun h => (nomatch h), gap_empty_ok,
    .inl ⟨rfl, by decide, by decide⟩, gap_empty_ok, gap_empty_ok, nestVal_ok k, trivial⟩, gap_empty_ok⟩, trivial⟩

theorem nestFile_clear (k : Nat) : (nestFile k).Clear := by
  refine ⟨?_, fun _ h => (nomatch h)⟩
  simp only [itemsClear, CItem.Clear, CPlugin.name]
  refine ⟨?_, fun h => (nomatch h), trivial⟩
  rintro ⟨c, r, -, h, -⟩
  simp [StrLit.text, StrLit.quote] at h

theorem nestFile_text (k : Nat) : (nestFile k).text = nestedArrays k := by
  simp [nestFile, CFile.text, CSection.text, itemsText, CItem.text, CPlugin.text, attrsText, nestVal_text, gap_empty_text,
    StrLit.text, StrLit.quote, ptypeText, nestedArrays]

theorem nested_utf8 (k : Nat) : ValidUTF8 (nestedArrays k) := by
  apply validUTF8_ascii
  simp only [nestedArrays, asciiB, List.all_append, Bool.and_eq_true]
  simp

theorem nested_deep (o : Opts) (L k : Nat) : TO o L (10 * (k + 1) + 32) G.init (nestedArrays k) := by
  have h1 : Stop (List.replicate (k + 1) 93 ++ b!"}}") := by
    rw [List.replicate_succ]
    exact stop_cons (by decide)
  have h2 := value_deep (o := o) (L := L) (k + 1) h1
  have h3 := init_deep (plugin_deep (attr_deep (stop_opens (k + 1) h1) h2))
  simp only [nestedArrays, List.append_assoc] at h3 ⊢
  exact h3

theorem nested_none {o : Opts} (hm : o.maxExpr = none) (filename : Bytes) (ff : List FF) (k d : Nat) (hd : d ≤ 10 * (k + 1) + 32) :
    parseDepth d o filename (nestedArrays k) ff = none := by
  have h := parseDepth_none hm filename ff (nested_utf8 k) (fun L => nested_deep o L k)
  cases hr : parseDepth d o filename (nestedArrays k) ff with
  | none => rfl
  | some r =>
    rw [parseDepth_mono hd hr] at h
    cases h

end Verif
