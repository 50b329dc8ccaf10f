import Verif.Proofs.SoundPosBlock
import Verif.Proofs.CompleteBlock
/-
Completeness with positions and warnings, first part: tokens.  A token that succeeds without
positions succeeds with positions (`quiet_rp`).
-/
namespace Verif
open Spec

section
variable {o : Opts} {pf : Bytes → Pos}

/-- What a successful run without positions gives: a run with positions. -/
def Lifts (o : Opts) (pf : Bytes → Pos) (e : Ex) : Prop :=
  ∀ b fr v b' fr' ws, run o e b (erF fr) = .ok v b' fr' → ∃ v' fr'', RP o pf e b fr ws v' b' fr'' ws

theorem Lifts.runs {e : Ex} (h : Lifts o pf e) {b v b'} (hr : Runs o e b v b') (ws : List Bytes) :
    ∃ v', RunsP o pf e b ws v' b' ws ∧ er v' = v := by
  obtain ⟨f, hr⟩ := hr
  obtain ⟨v', f', h1⟩ := h b [] v b' f ws hr
  refine ⟨v', ⟨f', h1⟩, ?_⟩
  have := h1.run
  rw [show erF [] = [] from rfl, hr] at this
  injection this with this
  exact this.symm

theorem Lifts.steps {e : Ex} (h : Lifts o pf e) {b vs b'} (hs : Steps o e b vs b') (ws : List Bytes) :
    ∃ vs', RStar o pf e b ws vs' b' ws := by
  induction hs with
  | nil => exact ⟨[], .nil⟩
  | cons h1 _ ih =>
    obtain ⟨v', ⟨f, h2⟩, _⟩ := h.runs h1 ws
    obtain ⟨vs', h3⟩ := ih
    exact ⟨_, .cons h2 h3⟩

theorem act_val {a : Act} {fr : Frame} {p : Pos} {t : Bytes} {ws : List Bytes} {v : Val}
    (h : runAct o a (erF fr) Pos.zero t [] = .val v) : ∃ v', runAct o a fr p t ws = .val v' := by
  rw [runAct_er o a fr p t ws] at h
  cases hr : runAct o a fr p t ws with
  | val v' => exact ⟨v', rfl⟩
  | err v' m => rw [hr] at h; simp [VMap.act] at h
  | panic m => rw [hr] at h; simp [VMap.act] at h

theorem lifts_term {e : Ex} (ht : e.isTerm = true) : Lifts o pf e := by
  intro b fr v b' fr' ws h
  refine ⟨v, fr, .term ht ?_⟩
  cases e with
  | any =>
    intro fr2
    rw [run_any] at h ⊢
    split at h
    · cases h
    · rename_i hne
      rw [if_neg hne]
      injection h with h1 h2
      rw [h1, h2]
  | cls x i c r =>
    intro fr2
    rw [run_cls] at h ⊢
    split at h
    · cases h
    · rename_i hne
      rw [if_neg hne]
      split at h
      · rename_i hc
        rw [if_pos hc]
        injection h with h1 h2
        rw [h1, h2]
      · cases h
  | lit x =>
    intro fr2
    rw [run_lit] at h ⊢
    exact litR_frame h fr2
  | _ => cases ht

mutual
/-- Expressions without rules that record no warning. -/
theorem quiet_rp : (e : Ex) → e.quiet = true → Lifts o pf e
  | .action a e => fun q b fr v b' fr' ws h => by
    obtain ⟨v1, h1, h2⟩ := action_ok.1 h
    obtain ⟨v', fr'', h3⟩ := quiet_rp e (by simpa [Ex.quiet] using q) b fr v1 b' fr' ws h1
    have h4 := h3.run
    rw [h1] at h4
    injection h4 with _ _ h4
    rw [h4] at h2
    obtain ⟨v2, h5⟩ := act_val (p := pf b) (ws := ws) h2
    exact ⟨v2, fr'', .action h3 h5⟩
  | .andCode .initParser => fun _ b fr v b' fr' ws h => by
    rw [run_initParser] at h
    injection h with _ h2
    subst h2
    exact ⟨_, _, .initParser⟩
  | .andCode (.pushError m) => fun _ b fr v b' fr' ws h => by rw [run_pushError] at h; cases h
  | .andCode (.fatalError m) => fun _ b fr v b' fr' ws h => by rw [run_fatalError] at h; cases h
  | .any => fun _ => lifts_term rfl
  | .cls .. => fun _ => lifts_term rfl
  | .lit _ => fun _ => lifts_term rfl
  | .choice es => fun q b fr v b' fr' ws h => by
    rw [run_choice] at h
    obtain ⟨pre, e, post, v', f, rfl, h2, h3⟩ := quiet_choice es (by simpa [Ex.quiet] using q) b (erF fr) v b' fr' ws h
    exact ⟨v', fr, .choice h2 h3⟩
  | .labeled l e => fun q b fr v b' fr' ws h => by
    obtain ⟨⟨f, h1⟩, _⟩ := labeled_ok.1 h
    obtain ⟨v', f', h2⟩ := quiet_rp e (by simpa [Ex.quiet] using q) b [] v b' f ws h1
    exact ⟨v', _, .labeled h2⟩
  | .not e => fun _ b fr v b' fr' ws h => by
    obtain ⟨h1, _, rfl, _⟩ := not_ok.1 h
    exact ⟨_, _, .not h1⟩
  | .plus e => fun q b fr v b' fr' ws h => by
    have ih := quiet_rp e (by simpa [Ex.quiet] using q)
    obtain ⟨_, vs, h0, _, h1, h2⟩ := plus_ok.1 h
    cases h1 with
    | nil => exact absurd rfl h0
    | cons h3 h4 =>
      obtain ⟨v', ⟨f, h5⟩, _⟩ := ih.runs h3 ws
      obtain ⟨vs', h6⟩ := ih.steps h4 ws
      exact ⟨_, _, .plus h5 h6 h2⟩
  | .star e => fun q b fr v b' fr' ws h => by
    obtain ⟨_, vs, _, h1, h2⟩ := star_ok.1 h
    obtain ⟨vs', h6⟩ := (quiet_rp e (by simpa [Ex.quiet] using q)).steps h1 ws
    exact ⟨_, _, .star h6 h2⟩
  | .opt e => fun q b fr v b' fr' ws h => by
    rcases opt_ok.1 h with ⟨h1, _⟩ | ⟨h1, _, rfl, _⟩
    · obtain ⟨v', ⟨f, h2⟩, _⟩ := (quiet_rp e (by simpa [Ex.quiet] using q)).runs h1 ws
      exact ⟨_, _, .optSome h2⟩
    · exact ⟨_, _, .optNone h1⟩
  | .seq es => fun q b fr v b' fr' ws h => by
    rw [run_seq] at h
    obtain ⟨vs, f, h1⟩ := quiet_seq es (by simpa [Ex.quiet] using q) (b, b) [] b fr v b' fr' ws h
    exact ⟨_, _, .seq h1⟩
  | .state .initState => fun _ b fr v b' fr' ws h => by
    rw [run_state] at h
    injection h with _ h2
    subst h2
    exact ⟨_, _, .initState⟩
  | .state .warnComment => fun q => by simp [Ex.quiet] at q
  | .ref _ => fun q => by simp [Ex.quiet] at q
theorem quiet_choice : (es : List Ex) → quietAll es = true → ∀ b fr v b' fr' ws,
    choiceR (run o) es b fr = .ok v b' fr' →
    ∃ pre e post v' f, es = pre ++ e :: post ∧ (∀ x ∈ pre, Fails o x b) ∧ RP o pf e b [] ws v' b' f ws
  | [] => fun _ b fr v b' fr' ws h => by rw [choiceR_nil_ok] at h; cases h
  | e :: es => fun q b fr v b' fr' ws h => by
    simp only [quietAll, Bool.and_eq_true] at q
    rcases choiceR_cons_ok.1 h with ⟨h1, _⟩ | ⟨h1, h2⟩
    · obtain ⟨v', ⟨f, h2⟩, _⟩ := (quiet_rp e q.1).runs h1 ws
      exact ⟨[], e, es, v', f, rfl, by simp, h2⟩
    · obtain ⟨pre, x, post, v', f, rfl, h3, h4⟩ := quiet_choice es q.2 b fr v b' fr' ws h2
      refine ⟨e :: pre, x, post, v', f, rfl, ?_, h4⟩
      intro y hy
      rcases List.mem_cons.1 hy with rfl | hy
      · exact h1
      · exact h3 y hy
theorem quiet_seq : (es : List Ex) → quietAll es = true → ∀ last acc b fr v b' fr' ws,
    seqR (run o) es acc b (erF fr) = .ok v b' fr' → ∃ vs f, RSeq o pf last es b fr ws vs b' f ws
  | [] => fun _ last acc b fr v b' fr' ws h => by
    obtain ⟨_, rfl, _⟩ := seqR_nil_ok.1 h
    exact ⟨_, _, .nil⟩
  | e :: es => fun q last acc b fr v b' fr' ws h => by
    simp only [quietAll, Bool.and_eq_true] at q
    obtain ⟨v1, b1, fr1, h1, h2⟩ := seqR_cons_ok.1 h
    obtain ⟨v', f, h3⟩ := quiet_rp e q.1 b fr v1 b1 fr1 ws h1
    have h4 := h3.run
    rw [h1] at h4
    injection h4 with _ _ h4
    rw [h4] at h2
    obtain ⟨vs, f', h5⟩ := quiet_seq es q.2 (b, b1) _ b1 f v b' fr' ws h2
    exact ⟨_, _, .cons h3 h5⟩
end

/-! ### Building runs -/

/-- A sequence succeeds, whatever stood before. -/
def SeqQ (o : Opts) (pf : Bytes → Pos) (es : List Ex) (b : Bytes) (fr : Frame) (ws : List Bytes) (b' : Bytes) (fr' : Frame)
    (ws' : List Bytes) : Prop := ∀ last, ∃ vs, RSeq o pf last es b fr ws vs b' fr' ws'

theorem seqQ {e : Ex} {es : List Ex} {b fr ws v b1 fr1 ws1 b' fr' ws'} (h : RP o pf e b fr ws v b1 fr1 ws1)
    (h2 : SeqQ o pf es b1 fr1 ws1 b' fr' ws') : SeqQ o pf (e :: es) b fr ws b' fr' ws' := by
  intro last
  obtain ⟨vs, h2⟩ := h2 (b, b1)
  exact ⟨_, .cons h h2⟩
theorem endQ {b fr ws} : SeqQ o pf [] b fr ws b fr ws := fun _ => ⟨_, .nil⟩
theorem labQ {l : Lbl} {e : Ex} {b fr ws v b1 ws1} (h : RunsP o pf e b ws v b1 ws1) :
    RP o pf (.labeled l e) b fr ws v b1 ((l, v) :: fr) ws1 := by
  obtain ⟨f, h⟩ := h
  exact .labeled h
theorem refQ {r : Rule} {b ws v b1 ws1} (h : RunsP o pf (gram r) b ws v b1 ws1) : RunsP o pf (.ref r) b ws v b1 ws1 :=
  runsP_ref.2 h
theorem actQ {a : Act} {es : List Ex} {b ws v b1 ws1} (fr : Frame) (h : SeqQ o pf es b [] ws b1 fr ws1)
    (h2 : runAct o a fr (pf b) (consumed b b1) ws1 = .val v) : RunsP o pf (.action a (.seq es)) b ws v b1 ws1 := by
  obtain ⟨vs, h⟩ := h (b, b)
  exact ⟨fr, .action (.seq h) h2⟩
theorem litQ {tok : Bytes} (h : Ascii tok) {X : Bytes} {fr ws} : RP o pf (.lit tok) (tok ++ X) fr ws (.bytes tok) X fr ws :=
  (tok_rp h).2 ⟨rfl, rfl, rfl, rfl⟩
theorem choice1Q {e : Ex} {es : List Ex} {b ws v b1 ws1} (h : RunsP o pf e b ws v b1 ws1) :
    RunsP o pf (.choice (e :: es)) b ws v b1 ws1 := runsP_choice.2 (.inl h)
theorem choice2Q {e : Ex} {es : List Ex} {b ws v b1 ws1} (hf : Fails o e b) (h : RunsP o pf (.choice es) b ws v b1 ws1) :
    RunsP o pf (.choice (e :: es)) b ws v b1 ws1 := runsP_choice.2 (.inr ⟨hf, h⟩)
theorem optQ {e : Ex} {b ws v b1 ws1} (h : RunsP o pf e b ws v b1 ws1) : RunsP o pf (.opt e) b ws v b1 ws1 :=
  runsP_opt.2 (.inl h)
theorem optNQ {e : Ex} {b ws} (h : Fails o e b) : RunsP o pf (.opt e) b ws .nil b ws := runsP_opt.2 (.inr ⟨h, rfl, rfl, rfl⟩)
theorem StepsP.star {e : Ex} {b ws vs b' ws'} (h : StepsP o pf e b ws vs b' ws') : RStar o pf e b ws vs b' ws' := by
  induction h with
  | nil => exact .nil
  | cons h1 _ ih =>
    obtain ⟨f, h1⟩ := h1
    exact .cons h1 ih
theorem starQ {e : Ex} {b ws vs b' ws'} (h : StepsP o pf e b ws vs b' ws') (hf : Fails o e b') :
    RunsP o pf (.star e) b ws (.list vs) b' ws' := ⟨[], .star h.star hf⟩
theorem RunsP.w {e : Ex} {b ws v b' ws1 ws2} (h : RunsP o pf e b ws v b' ws1) (hw : ws1 = ws2) : RunsP o pf e b ws v b' ws2 := hw ▸ h
theorem RunsP.vw {e : Ex} {b ws v v2 b' ws1 ws2} (h : RunsP o pf e b ws v b' ws1) (hv : v = v2) (hw : ws1 = ws2) :
    RunsP o pf e b ws v2 b' ws2 := hv ▸ hw ▸ h

/-! ### Tokens -/

theorem gapQ_of {b : Bytes} {ws} : RunsP o pf G.gap b ws (gapVal o (gapOf b).1) (gapOf b).2 ws := by
  obtain ⟨v', h1, h2⟩ := (quiet_rp (o := o) (pf := pf) G.gap (by decide)).runs (runs_gap.2 ⟨rfl, rfl⟩ : Runs o G.gap b _ _) ws
  rw [er_eq_plain h2 (gapVal_plain _)] at h1
  exact h1
theorem gapQ {g : Gap} {X : Bytes} {ws} (hg : g.Ok) (hs : Stop X) : RunsP o pf G.gap (g.text ++ X) ws (gapVal o g) X ws := by
  have h := gapQ_of (o := o) (pf := pf) (b := g.text ++ X) (ws := ws)
  rwa [gapOf_text hg hs] at h
theorem gapEndQ {g : Gap} {ws} (h : g.OkEnd) : RunsP o pf G.gap g.text ws (gapVal o g) [] ws := by
  have h1 := gapQ_of (o := o) (pf := pf) (b := g.text) (ws := ws)
  rwa [gapOf_end h] at h1
theorem gapSQ {b : Bytes} {fr ws} : ∃ v, RP o pf G.gapS b fr ws v (gapOf b).2 fr ws := by
  obtain ⟨v', fr', h1⟩ := quiet_rp (o := o) (pf := pf) G.gapS (by decide) b fr _ _ _ ws (gapS_ok.2 ⟨rfl, rfl, rfl⟩)
  obtain ⟨_, rfl, _⟩ := gapS_rp h1
  exact ⟨v', h1⟩
theorem closeQ {tok : Bytes} (h : Ascii tok) {c : Code} (hc : c ≠ .initParser) {X : Bytes} {fr ws} :
    RP o pf (G.close tok c) (tok ++ X) fr ws (.bytes tok) X fr ws := (close_rp h hc).2 ⟨rfl, rfl, rfl, rfl⟩
theorem gapCloseQ {l : Lbl} {g : Gap} (hg : g.Ok) {c : UInt8} (hc : isStop c = true) {X : Bytes} {fr ws}
    {code : Code} (hcode : code ≠ .initParser) (ha : Ascii [c]) :
    SeqQ o pf [.labeled l G.gap, G.close [c] code] (g.text ++ ([c] ++ X)) fr ws X ((l, gapVal o g) :: fr) ws :=
  seqQ (labQ (gapQ hg (stop_cons hc))) (seqQ (closeQ ha hcode) endQ)
theorem wsQ {b : Bytes} {fr ws} (h : b.takeWhile isWs ≠ []) : ∃ v, RP o pf G.whitespace b fr ws v (b.dropWhile isWs) fr ws := by
  obtain ⟨v', fr', h1⟩ := quiet_rp (o := o) (pf := pf) G.whitespace (by decide) b fr _ _ _ ws (ws_ok.2 ⟨h, rfl, rfl, rfl⟩)
  obtain ⟨_, _, rfl, _⟩ := ws_p h1
  exact ⟨v', h1⟩

theorem strLit_ast_inj {s t : StrLit} (h : er (.attr (.str (s.astAt p))) = .attr (.str t.ast)) : s = t := by
  obtain ⟨a, b⟩ := s
  obtain ⟨c, d⟩ := t
  simp only [er, valMap, AMap.attr, AMap.str, AMap.noPos, StrLit.ast, StrLit.astAt, Val.attr.injEq, Attr.str.injEq, StrAttr.mk.injEq] at h
  obtain ⟨_, _, rfl, rfl, _⟩ := h
  rfl

section
variable {pos : Nat → Pos} {D : Nat}

theorem nameQ (hp : PosFn pf pos D) {s : StrLit} (h : s.Name) {X : Bytes} (hX : X.takeWhile isNameChar = []) {k ws}
    (hk : k + (s.text ++ X).length = D) : RunsP o pf G.name (s.text ++ X) ws (.attr (.str (s.astAt (pos k)))) X ws := by
  obtain ⟨v', h1, h2⟩ := (quiet_rp (o := o) (pf := pf) G.name (by decide)).runs (nameA h hX) ws
  obtain ⟨s', _, _, rfl, _⟩ := name_p hp hk h1
  rw [strLit_ast_inj h2] at h1
  exact h1
theorem stringQ (hp : PosFn pf pos D) {s : StrLit} (h : s.Quoted) {X : Bytes} {k ws}
    (hk : k + (s.text ++ X).length = D) : RunsP o pf G.stringValue (s.text ++ X) ws (.attr (.str (s.astAt (pos k)))) X ws := by
  obtain ⟨v', h1, h2⟩ := (quiet_rp (o := o) (pf := pf) G.stringValue (by decide)).runs (runs_stringValue.2 ⟨s, h, rfl, rfl⟩ : Runs o G.stringValue (s.text ++ X) _ X) ws
  obtain ⟨s', _, _, rfl, _⟩ := stringValue_p hp hk h1
  rw [strLit_ast_inj h2] at h1
  exact h1
theorem barewordQ (hp : PosFn pf pos D) {x : Bytes} (h : BareOk x) {X : Bytes} (hX : X.takeWhile isWordChar = []) {k ws}
    (hk : k + (x ++ X).length = D) :
    RunsP o pf G.bareword (x ++ X) ws (.attr (.str (StrLit.astAt (pos k) ⟨.bareword, x⟩))) X ws := by
  obtain ⟨v', h1, h2⟩ := (quiet_rp (o := o) (pf := pf) G.bareword (by decide)).runs (runs_bareword.2 ⟨x, h, rfl, hX, rfl⟩ : Runs o G.bareword (x ++ X) _ X) ws
  obtain ⟨s', _, _, rfl, _⟩ := bareword_p hp hk h1
  rw [strLit_ast_inj (t := ⟨.bareword, x⟩) h2] at h1
  exact h1
theorem numberQ {t : Bytes} (h : NumOk t) {X : Bytes} (hX : X.takeWhile isNumChar = []) {ws} :
    RunsP o pf G.number (t ++ X) ws (.attr (.num (numAst t))) X ws := by
  obtain ⟨v', h1, h2⟩ := (quiet_rp (o := o) (pf := pf) G.number (by decide)).runs (number_complete h hX) ws
  obtain ⟨t', _, _, rfl, _⟩ := number_p h1
  have : er (.attr (.num (numAst t'))) = .attr (.num (numAst t')) := by
    simp [er, valMap, AMap.attr, AMap.num, AMap.noPos, numAst]
  rw [this] at h2
  rw [h2] at h1
  exact h1
theorem regexpQ (hp : PosFn pf pos D) {x : Bytes} (h : StringBody 47 x) {X : Bytes} {k ws}
    (hk : k + ((b!"/" ++ x ++ b!"/") ++ X).length = D) :
    RunsP o pf G.regexp ((b!"/" ++ x ++ b!"/") ++ X) ws (.regexp ⟨pos k, x⟩) X ws := by
  obtain ⟨v', h1, h2⟩ := (quiet_rp (o := o) (pf := pf) G.regexp (by decide)).runs
    (runs_regexp.2 ⟨x, h, by simp, rfl⟩ : Runs o G.regexp ((b!"/" ++ x ++ b!"/") ++ X) _ X) ws
  obtain ⟨s', _, _, rfl, _⟩ := regexp_p hp hk h1
  simp only [er, valMap, AMap.regexp, AMap.noPos, Val.regexp.injEq, RegexpLit.mk.injEq, true_and] at h2
  rw [h2] at h1
  exact h1
theorem selElemsAt_names (k : Nat) (a : List Bytes) : (selElemsAt pos k a).map (·.name) = a := by
  induction a generalizing k with
  | nil => rfl
  | cons n ns ih => simp [selElemsAt, ih]
theorem selectorQ (hp : PosFn pf pos D) {names : List Bytes} (h : SelOk names) {X : Bytes} (hX : ¬ SelLike X) {k ws}
    (hk : k + (selText names ++ X).length = D) :
    RunsP o pf G.selector (selText names ++ X) ws (.selector (selAt pos k names)) X ws := by
  obtain ⟨v', h1, h2⟩ := (quiet_rp (o := o) (pf := pf) G.selector (by decide)).runs
    (runs_selector.2 ⟨names, h, rfl, hX, rfl⟩ : Runs o G.selector (selText names ++ X) _ X) ws
  obtain ⟨s', _, _, rfl, _⟩ := selector_p hp hk h1
  have : s' = names := by
    simp only [er, valMap, AMap.selector, selAt, selAst, Val.selector.injEq, Selector.mk.injEq] at h2
    have h3 := congrArg (List.map SelElem.name) h2.2
    simp only [List.map_map] at h3
    have e1 : ∀ l : List SelElem, l.map (SelElem.name ∘ AMap.selElem .noPos) = l.map (·.name) := fun l => rfl
    have e2 : names.map (SelElem.name ∘ fun n => (⟨Pos.zero, n⟩ : SelElem)) = names := by
      conv => rhs; rw [← List.map_id names]
      rfl
    first
      | rw [e1, selElemsAt_names, e2] at h3; exact h3
      | (rw [e1, selElemsAt_names] at h3; simpa using h3)
  rw [this] at h1
  exact h1
theorem boolOpQ (hp : PosFn pf pos D) {op : BoolOpKind} (h : op ≠ .undefined ∧ op ≠ .noOp) {X : Bytes} {k ws}
    (hk : k + (boolText op ++ X).length = D) :
    RunsP o pf G.booleanOperator (boolText op ++ X) ws (.boolOp ⟨op, pos k⟩) X ws := by
  obtain ⟨v', h1, h2⟩ := (quiet_rp (o := o) (pf := pf) G.booleanOperator (by decide)).runs
    (runs_boolOp.2 ⟨op, h, rfl, rfl⟩ : Runs o G.booleanOperator (boolText op ++ X) _ X) ws
  obtain ⟨s', _, _, rfl, _⟩ := boolOp_p hp hk h1
  simp only [er, valMap, AMap.boolOp, AMap.noPos, Val.boolOp.injEq, BoolOp.mk.injEq, and_true] at h2
  rw [h2] at h1
  exact h1
theorem cmpOpQ (hp : PosFn pf pos D) {op : CmpKind} {X : Bytes} {k ws}
    (hr : Runs o G.compareOperator (cmpText op ++ X) (.cmpOp ⟨op, Pos.zero⟩) X) (hk : k + (cmpText op ++ X).length = D) :
    RunsP o pf G.compareOperator (cmpText op ++ X) ws (.cmpOp ⟨op, pos k⟩) X ws := by
  obtain ⟨v', h1, h2⟩ := (quiet_rp (o := o) (pf := pf) G.compareOperator (by decide)).runs hr ws
  obtain ⟨s', _, _, rfl, _⟩ := cmpOp_p hp hk h1
  simp only [er, valMap, AMap.cmpOp, AMap.noPos, Val.cmpOp.injEq, CmpOp.mk.injEq, and_true] at h2
  rw [h2] at h1
  exact h1
theorem reOpQ (hp : PosFn pf pos D) {op : ReKind} (h : op ≠ .undefined) {X : Bytes} {k ws}
    (hk : k + (reText op ++ X).length = D) :
    RunsP o pf G.regexpOperator (reText op ++ X) ws (.reOp ⟨op, pos k⟩) X ws := by
  obtain ⟨v', h1, h2⟩ := (quiet_rp (o := o) (pf := pf) G.regexpOperator (by decide)).runs
    (runs_reOp.2 ⟨op, h, rfl, rfl⟩ : Runs o G.regexpOperator (reText op ++ X) _ X) ws
  obtain ⟨s', _, _, rfl, _⟩ := reOp_p hp hk h1
  simp only [er, valMap, AMap.reOp, AMap.noPos, Val.reOp.injEq, ReOp.mk.injEq, and_true] at h2
  rw [h2] at h1
  exact h1
theorem ptypeQ {t : PluginType} (h : t ≠ .undefined) {X : Bytes} {ws} :
    RunsP o pf G.pluginType (ptypeText t ++ X) ws (.ptype t) X ws := by
  obtain ⟨v', h1, h2⟩ := (quiet_rp (o := o) (pf := pf) G.pluginType (by decide)).runs
    (runs_ptype.2 ⟨t, h, rfl, rfl⟩ : Runs o G.pluginType (ptypeText t ++ X) _ X) ws
  rw [er_eq_plain h2 rfl] at h1
  exact h1

/-- A gap whose comments have no place. -/
theorem gapSWQ (hp : PosFn pf pos D) {g : Gap} {X : Bytes} {es : List Ex} {fr ws b' fr' ws'} (k : Nat)
    (hk : k + (g.text ++ X).length = D) (hg : g.Ok) (hs : Stop X)
    (h : SeqQ o pf es X fr (ws ++ wl o pos [(k, g)]) b' fr' ws') :
    SeqQ o pf (G.gapS :: G.warn :: es) (g.text ++ X) fr ws b' fr' ws' := by
  intro last
  have e := gapOf_text hg hs
  obtain ⟨vs, h⟩ := h (g.text ++ X, X)
  obtain ⟨v, h1⟩ := gapSQ (o := o) (pf := pf) (b := g.text ++ X) (fr := fr) (ws := ws)
  have hw := warnOf_wl (o := o) hp hk
  rw [e] at h1 hw
  rw [← hw] at h
  exact ⟨_, .cons h1 (.warn h)⟩
theorem gapTokQ (hp : PosFn pf pos D) {g : Gap} {c : UInt8} {t X : Bytes} {es : List Ex} {fr ws b' fr' ws'} (k : Nat)
    (hk : k + (g.text ++ ((c :: t) ++ X)).length = D) (hg : g.Ok) (hc : isStop c = true)
    (ha : Ascii (c :: t)) (h : SeqQ o pf es X fr (ws ++ wl o pos [(k, g)]) b' fr' ws') :
    SeqQ o pf (G.gapS :: G.warn :: .lit (c :: t) :: es) (g.text ++ ((c :: t) ++ X)) fr ws b' fr' ws' :=
  gapSWQ hp k hk hg (stop_cons hc) (seqQ (litQ ha) h)
end

end
end Verif
