import Verif.Proofs.RunPos
import Verif.Proofs.Sound
/-
Inversion of the relation `RP`, its projection to `run`, and its tokens.
-/
namespace Verif
open Spec

section
variable {o : Opts} {pf : Bytes → Pos}

/-- Success with some final variables. -/
def RunsP (o : Opts) (pf : Bytes → Pos) (e : Ex) (b : Bytes) (ws : List Bytes) (v : Val) (b' : Bytes) (ws' : List Bytes) :
    Prop := ∃ f, RP o pf e b [] ws v b' f ws'

/-! ### The projection -/

theorem star_fails_nil {e : Ex} {b : Bytes} (h : Fails o e b) (fr : Frame) : run o (.star e) b fr = .ok (.list []) b fr := by
  rw [run_star, show run o e b [] = .fail from h]

theorem choice_skip {pre es : List Ex} {b : Bytes} {fr : Frame} (h : ∀ x ∈ pre, Fails o x b) :
    choiceR (run o) (pre ++ es) b fr = choiceR (run o) es b fr := by
  induction pre with
  | nil => rfl
  | cons x pre ih =>
    rw [List.cons_append, choiceR, show run o x b [] = .fail from h x (by simp)]
    exact ih fun y hy => h y (by simp [hy])

mutual
theorem RP.run {e b fr ws v b' fr' ws'} : RP o pf e b fr ws v b' fr' ws' →
    run o e b (erF fr) = .ok (er v) b' (erF fr')
  | .action (a := a) (v0 := v0) h ha => by
    rw [run_action, RP.run h]
    simp only [actR]
    rw [runAct_er o a fr' (pf b) (consumed b b') ws', ha]
    rfl
  | .term ht h => by
    rw [h (erF fr)]
    cases e with
    | any =>
      have h1 := h []
      rw [run_any] at h1
      split at h1
      · cases h1
      · injection h1 with h1; rw [← h1]; rfl
    | cls x i c r =>
      have h1 := h []
      rw [run_cls] at h1
      split at h1
      · cases h1
      · split at h1
        · injection h1 with h1; rw [← h1]; rfl
        · cases h1
    | lit x =>
      have h1 := h []
      rw [run_lit] at h1
      obtain ⟨y, rfl⟩ := litR_bytes h1
      rfl
    | _ => cases ht
  | .initParser => run_initParser _ _
  | .initState => run_state _ _ _
  | .choice hp h => by
    have := RP.run h
    rw [run_choice, choice_skip hp, choiceR]
    rw [show erF [] = [] from rfl] at this
    rw [this]
  | .labeled h => by
    have := RP.run h
    rw [show erF [] = [] from rfl] at this
    rw [run_labeled, this]; rfl
  | .not h => by rw [run_not, show run o _ b [] = .fail from h]; rfl
  | .optSome h => by
    have := RP.run h
    rw [show erF [] = [] from rfl] at this
    rw [run_opt, this]
  | .optNone h => by rw [run_opt, show run o _ b [] = .fail from h]; rfl
  | .ref h => by
    have := RP.run h
    rw [show erF [] = [] from rfl] at this
    rw [run_ref, this]
  | .star h hf => by
    rw [RStar.run h hf, er_list]
  | .plus h h2 hf => by
    have := RP.run h
    rw [show erF [] = [] from rfl] at this
    rw [run_plus, this]
    simp only
    rw [RStar.run h2 hf, er_list]
    rfl
  | .seq h => by
    rw [run_seq, RSeq.run h [], er_list]; rfl
theorem RSeq.run {last es b fr ws vs b' fr' ws'} : RSeq o pf last es b fr ws vs b' fr' ws' → ∀ acc,
    seqR (run o) es acc b (erF fr) = .ok (.list (acc ++ vs.map er)) b' (erF fr')
  | .nil => fun acc => by simp [seqR]
  | .cons h h2 => fun acc => by
    rw [seqR, RP.run h]
    simp only
    rw [RSeq.run h2]
    simp
  | .warn h => fun acc => by
    rw [seqR, run_state]
    simp only
    rw [RSeq.run h]
    simp [er, valMap]
theorem RStar.run {e b ws vs b' ws'} : RStar o pf e b ws vs b' ws' → Fails o e b' → ∀ {fr},
    run o (.star e) b fr = .ok (.list (vs.map er)) b' fr
  | .nil => fun hf {fr} => star_fails_nil hf fr
  | .cons h h2 => fun hf {fr} => by
    have := RP.run h
    rw [show erF [] = [] from rfl] at this
    rw [run_star, this]
    simp only
    rw [RStar.run h2 hf]
    rfl
end

theorem RunsP.runs {e b ws v b' ws'} (h : RunsP o pf e b ws v b' ws') : Runs o e b (er v) b' := by
  obtain ⟨f, h⟩ := h
  exact ⟨_, h.run⟩

/-! ### Expressions that record no warning -/

mutual
/-- No state code and no rule inside. -/
def Ex.quiet : Ex → Bool
  | .action _ e => e.quiet
  | .choice es => quietAll es
  | .labeled _ e => e.quiet
  | .not _ => true
  | .plus e => e.quiet
  | .star e => e.quiet
  | .opt e => e.quiet
  | .seq es => quietAll es
  | .state c => c != .warnComment
  | .ref _ => false
  | _ => true
/-- All of them. -/
def quietAll : List Ex → Bool
  | [] => true
  | e :: es => e.quiet && quietAll es
end

theorem quietAll_mem {es : List Ex} (h : quietAll es = true) {e : Ex} (he : e ∈ es) : e.quiet = true := by
  induction es with
  | nil => cases he
  | cons x es ih =>
    simp only [quietAll, Bool.and_eq_true] at h
    rcases List.mem_cons.1 he with rfl | he
    · exact h.1
    · exact ih h.2 he

mutual
theorem RP.quiet {e b fr ws v b' fr' ws'} : RP o pf e b fr ws v b' fr' ws' → e.quiet = true → ws' = ws
  | .action h _ => fun q => RP.quiet h (by simpa [Ex.quiet] using q)
  | .term _ _ => fun _ => rfl
  | .initParser => fun _ => rfl
  | .initState => fun _ => rfl
  | .choice _ h => fun q => RP.quiet h (quietAll_mem (es := _) (by simpa [Ex.quiet] using q) (by simp))
  | .labeled h => fun q => RP.quiet h (by simpa [Ex.quiet] using q)
  | .not _ => fun _ => rfl
  | .optSome h => fun q => RP.quiet h (by simpa [Ex.quiet] using q)
  | .optNone _ => fun _ => rfl
  | .ref _ => fun q => by simp [Ex.quiet] at q
  | .star h _ => fun q => RStar.quiet h (by simpa [Ex.quiet] using q)
  | .plus h h2 _ => fun q => by
    rw [RStar.quiet h2 (by simpa [Ex.quiet] using q), RP.quiet h (by simpa [Ex.quiet] using q)]
  | .seq h => fun q => RSeq.quiet h (by simpa [Ex.quiet] using q)
theorem RSeq.quiet {last es b fr ws vs b' fr' ws'} : RSeq o pf last es b fr ws vs b' fr' ws' → quietAll es = true → ws' = ws
  | .nil => fun _ => rfl
  | .cons h h2 => fun q => by
    simp only [quietAll, Bool.and_eq_true] at q
    rw [RSeq.quiet h2 q.2, RP.quiet h q.1]
  | .warn _ => fun q => by simp [quietAll, Ex.quiet] at q
theorem RStar.quiet {e b ws vs b' ws'} : RStar o pf e b ws vs b' ws' → e.quiet = true → ws' = ws
  | .nil => fun _ => rfl
  | .cons h h2 => fun q => by rw [RStar.quiet h2 q, RP.quiet h q]
end

theorem RunsP.quiet {e b ws v b' ws'} (h : RunsP o pf e b ws v b' ws') (q : e.quiet = true) : ws' = ws := by
  obtain ⟨f, h⟩ := h
  exact h.quiet q

/-! ### Inversion -/

theorem action_rp {a e b fr ws v b' fr' ws'} : RP o pf (.action a e) b fr ws v b' fr' ws' ↔
    ∃ v1, RP o pf e b fr ws v1 b' fr' ws' ∧ runAct o a fr' (pf b) (consumed b b') ws' = .val v := by
  constructor
  · intro h
    cases h with
    | action h h2 => exact ⟨_, h, h2⟩
    | term h => cases h
  · rintro ⟨v1, h, h2⟩; exact .action h h2

theorem labeled_rp {l e b fr ws v b' fr' ws'} : RP o pf (.labeled l e) b fr ws v b' fr' ws' ↔
    RunsP o pf e b ws v b' ws' ∧ fr' = (l, v) :: fr := by
  constructor
  · intro h
    cases h with
    | labeled h => exact ⟨⟨_, h⟩, rfl⟩
    | term h => cases h
  · rintro ⟨⟨f, h⟩, rfl⟩; exact .labeled h

theorem ref_rp {r b fr ws v b' fr' ws'} : RP o pf (.ref r) b fr ws v b' fr' ws' ↔
    RunsP o pf (gram r) b ws v b' ws' ∧ fr' = fr := by
  constructor
  · intro h
    cases h with
    | ref h => exact ⟨⟨_, h⟩, rfl⟩
    | term h => cases h
  · rintro ⟨⟨f, h⟩, rfl⟩; exact .ref h

theorem runsP_ref {r b ws v b' ws'} : RunsP o pf (.ref r) b ws v b' ws' ↔ RunsP o pf (gram r) b ws v b' ws' := by
  constructor
  · rintro ⟨f, h⟩; exact (ref_rp.1 h).1
  · intro h; exact ⟨[], ref_rp.2 ⟨h, rfl⟩⟩

theorem seq_rp {es b fr ws v b' fr' ws'} : RP o pf (.seq es) b fr ws v b' fr' ws' ↔
    ∃ vs, RSeq o pf (b, b) es b fr ws vs b' fr' ws' ∧ v = .list vs := by
  constructor
  · intro h
    cases h with
    | seq h => exact ⟨_, h, rfl⟩
    | term h => cases h
  · rintro ⟨vs, h, rfl⟩; exact .seq h

theorem rseq_nil {last b fr ws vs b' fr' ws'} : RSeq o pf last [] b fr ws vs b' fr' ws' ↔
    vs = [] ∧ b' = b ∧ fr' = fr ∧ ws' = ws := by
  constructor
  · intro h; cases h; exact ⟨rfl, rfl, rfl, rfl⟩
  · rintro ⟨rfl, rfl, rfl, rfl⟩; exact .nil

/-- Is it the state code that records a warning? -/
def Ex.isWarn : Ex → Bool
  | .state .warnComment => true
  | _ => false

/-- Does the sequence start with it? -/
def headWarn : List Ex → Bool
  | [] => false
  | e :: _ => e.isWarn

theorem rseq_cons {last e es b fr ws vs b' fr' ws'} (hn : e.isWarn = false) (_hw : headWarn es = false) :
    RSeq o pf last (e :: es) b fr ws vs b' fr' ws' ↔
    ∃ v b1 fr1 ws1 vs1, RP o pf e b fr ws v b1 fr1 ws1 ∧ RSeq o pf (b, b1) es b1 fr1 ws1 vs1 b' fr' ws' ∧ vs = v :: vs1 := by
  constructor
  · intro h
    cases h with
    | cons h h2 => exact ⟨_, _, _, _, _, h, h2, rfl⟩
    | warn h => simp [Ex.isWarn] at hn
  · rintro ⟨v, b1, fr1, ws1, vs1, h, h2, rfl⟩; exact .cons h h2

theorem no_warn_rp {b fr ws v b' fr' ws'} : ¬ RP o pf warnEx b fr ws v b' fr' ws' := by
  intro h; cases h with | term h => cases h

theorem opt_rp {e b fr ws v b' fr' ws'} : RP o pf (.opt e) b fr ws v b' fr' ws' ↔
    (RunsP o pf e b ws v b' ws' ∧ fr' = fr) ∨ (Fails o e b ∧ v = .nil ∧ b' = b ∧ fr' = fr ∧ ws' = ws) := by
  constructor
  · intro h
    cases h with
    | optSome h => exact .inl ⟨⟨_, h⟩, rfl⟩
    | optNone h => exact .inr ⟨h, rfl, rfl, rfl, rfl⟩
    | term h => cases h
  · rintro (⟨⟨f, h⟩, rfl⟩ | ⟨h, rfl, rfl, rfl, rfl⟩)
    · exact .optSome h
    · exact .optNone h

theorem runsP_opt {e b ws v b' ws'} : RunsP o pf (.opt e) b ws v b' ws' ↔
    RunsP o pf e b ws v b' ws' ∨ (Fails o e b ∧ v = .nil ∧ b' = b ∧ ws' = ws) := by
  unfold RunsP
  simp only [opt_rp]
  constructor
  · rintro ⟨f, ⟨h, rfl⟩ | ⟨h1, h2, h3, h4, h5⟩⟩
    · exact .inl h
    · exact .inr ⟨h1, h2, h3, h5⟩
  · rintro (h | ⟨h1, h2, h3, h4⟩)
    · exact ⟨[], .inl ⟨h, rfl⟩⟩
    · exact ⟨[], .inr ⟨h1, h2, h3, rfl, h4⟩⟩

theorem star_rp {e b fr ws v b' fr' ws'} : RP o pf (.star e) b fr ws v b' fr' ws' ↔
    ∃ vs, v = .list vs ∧ RStar o pf e b ws vs b' ws' ∧ Fails o e b' ∧ fr' = fr := by
  constructor
  · intro h
    cases h with
    | star h h2 => exact ⟨_, rfl, h, h2, rfl⟩
    | term h => cases h
  · rintro ⟨vs, rfl, h, h2, rfl⟩; exact .star h h2

theorem runsP_star {e b ws v b' ws'} : RunsP o pf (.star e) b ws v b' ws' ↔
    ∃ vs, v = .list vs ∧ RStar o pf e b ws vs b' ws' ∧ Fails o e b' := by
  unfold RunsP
  simp only [star_rp]
  constructor
  · rintro ⟨f, vs, h1, h2, h3, _⟩; exact ⟨vs, h1, h2, h3⟩
  · rintro ⟨vs, h1, h2, h3⟩; exact ⟨[], vs, h1, h2, h3, rfl⟩

theorem choice_nil_rp {b fr ws v b' fr' ws'} : RP o pf (.choice []) b fr ws v b' fr' ws' ↔ False := by
  constructor
  · generalize hx : Ex.choice [] = x
    intro h
    cases h with
    | choice h1 h2 => rw [Ex.choice.injEq] at hx; exact absurd hx.symm (by simp)
    | term h => rw [← hx] at h; cases h
    | _ => cases hx
  · intro h; cases h

theorem choice_rp {e es b fr ws v b' fr' ws'} : RP o pf (.choice (e :: es)) b fr ws v b' fr' ws' ↔
    (RunsP o pf e b ws v b' ws' ∧ fr' = fr) ∨ (Fails o e b ∧ RP o pf (.choice es) b fr ws v b' fr' ws') := by
  constructor
  · generalize hx : Ex.choice (e :: es) = x
    intro h
    cases h with
    | @choice pre x post _ _ _ _ _ f _ h1 h2 =>
      rw [Ex.choice.injEq] at hx
      cases pre with
      | nil =>
        simp only [List.nil_append, List.cons.injEq] at hx
        rw [hx.1]
        exact .inl ⟨⟨_, h2⟩, rfl⟩
      | cons y pre =>
        simp only [List.cons_append, List.cons.injEq] at hx
        rw [hx.1, hx.2]
        exact .inr ⟨h1 y (by simp), .choice (fun z hz => h1 z (by simp [hz])) h2⟩
    | term h => rw [← hx] at h; cases h
    | _ => cases hx
  · rintro (⟨⟨f, h⟩, rfl⟩ | ⟨h1, h2⟩)
    · exact .choice (pre := []) (by simp) h
    · generalize hx : Ex.choice es = x at h2
      cases h2 with
      | @choice pre x post _ _ _ _ _ f _ h3 h4 =>
        rw [Ex.choice.injEq] at hx
        rw [hx]
        refine .choice (pre := e :: pre) ?_ h4
        intro z hz
        rcases List.mem_cons.1 hz with rfl | hz
        · exact h1
        · exact h3 z hz
      | term h => rw [← hx] at h; cases h
      | _ => cases hx

theorem runsP_choice {e es b ws v b' ws'} : RunsP o pf (.choice (e :: es)) b ws v b' ws' ↔
    RunsP o pf e b ws v b' ws' ∨ (Fails o e b ∧ RunsP o pf (.choice es) b ws v b' ws') := by
  constructor
  · rintro ⟨f, h⟩
    rcases choice_rp.1 h with ⟨h, _⟩ | ⟨h1, h2⟩
    · exact .inl h
    · exact .inr ⟨h1, _, h2⟩
  · rintro (h | ⟨h1, f, h2⟩)
    · exact ⟨[], choice_rp.2 (.inl ⟨h, rfl⟩)⟩
    · exact ⟨f, choice_rp.2 (.inr ⟨h1, h2⟩)⟩

theorem runsP_choice_nil {b ws v b' ws'} : RunsP o pf (.choice []) b ws v b' ws' ↔ False := by
  unfold RunsP; simp only [choice_nil_rp]; simp

theorem pushError_rp {m b fr ws v b' fr' ws'} : RP o pf (.andCode (.pushError m)) b fr ws v b' fr' ws' ↔ False := by
  constructor
  · intro h; cases h with | term h => cases h
  · intro h; cases h

theorem fatalError_rp {m b fr ws v b' fr' ws'} : RP o pf (.andCode (.fatalError m)) b fr ws v b' fr' ws' ↔ False := by
  constructor
  · intro h; cases h with | term h => cases h
  · intro h; cases h

theorem runsP_pushError {m b ws v b' ws'} : RunsP o pf (.andCode (.pushError m)) b ws v b' ws' ↔ False := by
  unfold RunsP; simp only [pushError_rp]; simp

theorem runsP_fatalError {m b ws v b' ws'} : RunsP o pf (.andCode (.fatalError m)) b ws v b' ws' ↔ False := by
  unfold RunsP; simp only [fatalError_rp]; simp

theorem not_rp {e b fr ws v b' fr' ws'} : RP o pf (.not e) b fr ws v b' fr' ws' ↔
    Fails o e b ∧ v = .nil ∧ b' = b ∧ fr' = fr ∧ ws' = ws := by
  constructor
  · intro h
    cases h with
    | not h => exact ⟨h, rfl, rfl, rfl, rfl⟩
    | term h => cases h
  · rintro ⟨h, rfl, rfl, rfl, rfl⟩; exact .not h

/-! ### Tokens -/

theorem tok_rp {tok : Bytes} (h : tok.all (fun c => decide (c < 128)) = true) {b fr ws v b' fr' ws'} :
    RP o pf (.lit tok) b fr ws v b' fr' ws' ↔ b = tok ++ b' ∧ v = .bytes tok ∧ fr' = fr ∧ ws' = ws := by
  constructor
  · intro hh
    cases hh with
    | term _ h2 =>
      obtain ⟨h3, h4, _⟩ := (tok_ok h).1 (h2 [])
      exact ⟨h3, h4, rfl, rfl⟩
  · rintro ⟨h1, rfl, rfl, rfl⟩
    exact .term rfl fun fr => (tok_ok h).2 ⟨h1, rfl, rfl⟩

theorem runsP_tok {tok : Bytes} (h : tok.all (fun c => decide (c < 128)) = true) {b ws v b' ws'} :
    RunsP o pf (.lit tok) b ws v b' ws' ↔ b = tok ++ b' ∧ v = .bytes tok ∧ ws' = ws := by
  unfold RunsP
  simp only [tok_rp h]
  constructor
  · rintro ⟨f, h1, h2, _, h4⟩; exact ⟨h1, h2, h4⟩
  · rintro ⟨h1, h2, h4⟩; exact ⟨[], h1, h2, rfl, h4⟩

theorem close_rp {tok : Bytes} (h : tok.all (fun c => decide (c < 128)) = true) {c : Code} (hc : c ≠ .initParser)
    {b fr ws v b' fr' ws'} :
    RP o pf (G.close tok c) b fr ws v b' fr' ws' ↔ b = tok ++ b' ∧ v = .bytes tok ∧ fr' = fr ∧ ws' = ws := by
  rw [G.close, choice_rp, choice_rp, choice_nil_rp, runsP_tok h]
  have : RunsP o pf (.andCode c) b ws v b' ws' ↔ False := by
    cases c with
    | initParser => exact absurd rfl hc
    | pushError => exact runsP_pushError
    | fatalError => exact runsP_fatalError
  rw [this]
  simp [and_assoc, and_left_comm, and_comm]

/-- Values without positions. -/
def Val.plain : Val → Bool
  | .nil => true
  | .bytes _ => true
  | .list l => plainL l
  | .str _ => true
  | .ptype _ => true
  | .ws => true
  | .comments _ => true
  | _ => false
where
  /-- All of them. -/
  plainL : List Val → Bool
    | [] => true
    | v :: l => v.plain && plainL l

mutual
theorem er_plain : ∀ v : Val, (er v).plain = true → er v = v
  | .nil, _ => rfl
  | .bytes _, _ => rfl
  | .list l, h => by
    rw [er_list]; rw [er_list] at h
    simp only [Val.plain] at h
    rw [er_plainL l h]
  | .str _, _ => rfl
  | .ptype _, _ => rfl
  | .ws, _ => rfl
  | .comments c, _ => by simp [er, valMap, AMap.noPos]
  | .attr _, h => by simp [er, valMap, Val.plain] at h
  | .attrs _, h => by simp [er, valMap, Val.plain] at h
  | .hentry _, h => by simp [er, valMap, Val.plain] at h
  | .hentries _, h => by simp [er, valMap, Val.plain] at h
  | .plugin _, h => by simp [er, valMap, Val.plain] at h
  | .ifBlock _ _ _ _ _, h => by simp [er, valMap, Val.plain] at h
  | .elif _, h => by simp [er, valMap, Val.plain] at h
  | .elseB _, h => by simp [er, valMap, Val.plain] at h
  | .branch _ _ _ _ _ _ _, h => by simp [er, valMap, Val.plain] at h
  | .cond _, h => by simp [er, valMap, Val.plain] at h
  | .expr _, h => by simp [er, valMap, Val.plain] at h
  | .selElem _, h => by simp [er, valMap, Val.plain] at h
  | .selector _, h => by simp [er, valMap, Val.plain] at h
  | .regexp _, h => by simp [er, valMap, Val.plain] at h
  | .boolOp _, h => by simp [er, valMap, Val.plain] at h
  | .cmpOp _, h => by simp [er, valMap, Val.plain] at h
  | .reOp _, h => by simp [er, valMap, Val.plain] at h
  | .sect _, h => by simp [er, valMap, Val.plain] at h
  | .config _, h => by simp [er, valMap, Val.plain] at h
theorem er_plainL : ∀ l : List Val, Val.plain.plainL (l.map er) = true → l.map er = l
  | [], _ => rfl
  | v :: l, h => by
    simp only [List.map_cons, Val.plain.plainL, Bool.and_eq_true] at h
    rw [List.map_cons, er_plain v h.1, er_plainL l h.2]
end

theorem er_eq_plain {v w : Val} (h : er v = w) (hw : w.plain = true) : v = w := by
  rw [← h] at hw; rw [← er_plain v hw, h]

theorem gapVal_plain (g : Gap) : (gapVal o g).plain = true := by
  unfold gapVal linesVal tailVal
  cases g.lines <;> cases g.tail <;> rfl

theorem runsP_gap {b ws v b' ws'} (h : RunsP o pf G.gap b ws v b' ws') :
    v = gapVal o (gapOf b).1 ∧ b' = (gapOf b).2 ∧ ws' = ws := by
  obtain ⟨h1, h2⟩ := runs_gap.1 h.runs
  exact ⟨er_eq_plain h1 (gapVal_plain _), h2, h.quiet (by decide)⟩

end

end Verif
