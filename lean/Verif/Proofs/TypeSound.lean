import Verif.Proofs.TypeCheck
/-
Every evaluation of a well-typed expression yields a value of its type and reports only the
messages foreseen for its rule.
-/
namespace Verif
open Spec

theorem FrTy.nil : FrTy [] [] := fun _ => ⟨by simp [Frame.get, FTy.get, Val.kind], by intro l h; simp [Frame.get] at h⟩

theorem FrTy.cons {fr : Frame} {f : FTy} (h : FrTy fr f) {l : Lbl} {v : Val} {T : Ty} (hv : HasTy v T) :
    FrTy ((l, v) :: fr) ((l, T) :: f) := by
  intro k
  simp only [Frame.get, FTy.get]
  split
  · exact hv
  · exact h k

theorem hasTy_bytes (b : Bytes) : HasTy (.bytes b) ⟨[.bytes], []⟩ := hasTy_one rfl (by decide)
theorem hasTy_nil : HasTy .nil ⟨[.nil], []⟩ := hasTy_one rfl (by decide)

/-- All reported errors and recorded failures are foreseen; `L` are failures left by earlier parses. -/
theorem _root_.Verif.Spec.Raises.reports {lim : Bool} {r : Option Rule} {m : Bytes} (h : Raises lim r m) : Reports r m := by
  cases h with
  | encoding => exact .encoding _
  | limit _ _ => exact .limit _
  | closing r c m h1 h2 h3 => exact .closing r c m h1 h2 h3
  | semantic r m h => exact .semantic r m h

structure RepOk (lim : Bool) (L : List FF) (s : St) : Prop where
  errs : ∀ e ∈ s.errs, Raises lim e.rule e.msg
  ff : ∀ x ∈ s.ff, x.msg ∈ expectations ∨ x ∈ L

def RepO (lim : Bool) (L : List FF) (T : Ty) (f : FTy) : Out → Prop
  | .ok v t => RepOk lim L t ∧ HasTy v T ∧ FrTy t.frame f
  | .fail t => RepOk lim L t
  | .panic m t => RepOk lim L t ∧ Raises lim t.rstack.head? m
  | .timeout => True

theorem RepOk.failAt {lim : Bool} {L : List FF} {s : St} (h : RepOk lim L s) (b : Bool) (p : Pos) (w : Bytes) : RepOk lim L (s.failAt b p w) := by
  have h1 : (s.failAt b p w).errs = s.errs ∧ (s.failAt b p w).ff = s.ff := by
    unfold St.failAt; split
    · split
      · exact ⟨rfl, rfl⟩
      · simp only; split <;> exact ⟨rfl, rfl⟩
    · exact ⟨rfl, rfl⟩
  exact ⟨by rw [h1.1]; exact h.errs, by rw [h1.2]; exact h.ff⟩

theorem RepOk.addErrAt {lim : Bool} {L : List FF} {s : St} (h : RepOk lim L s) {m : Bytes} {p : Pos} (hm : Raises lim s.rstack.head? m) :
    RepOk lim L (s.addErrAt m p) := by
  refine ⟨?_, h.ff⟩
  intro e he
  simp only [St.addErrAt, List.mem_append, List.mem_singleton] at he
  rcases he with he | rfl
  · exact h.errs e he
  · exact hm

theorem RepOk.read {lim : Bool} {L : List FF} {s : St} (h : RepOk lim L s) (o : Opts) : RepOk lim L (s.read o) := by
  unfold St.read
  simp only
  split
  · exact RepOk.addErrAt (s := { s with pt := s.pt.next }) ⟨h.errs, h.ff⟩ (.encoding _)
  · exact ⟨h.errs, h.ff⟩

theorem pushFF_mem_or {ff : List FF} {e x : FF} (h : x ∈ pushFF ff e) : x ∈ ff ∨ x = e := by
  cases ff with
  | nil => simp only [pushFF, List.mem_singleton] at h; exact .inr h
  | cons f r =>
    simp only [pushFF] at h
    split at h
    · simp only [List.mem_singleton] at h; exact .inr h
    · split at h
      · split at h
        · exact .inl h
        · rcases List.mem_append.1 h with h | h
          · exact .inl h
          · simp only [List.mem_singleton] at h; exact .inr h
      · exact .inl h

variable {o : Opts} {L : List FF}

theorem eval_typed (n : Nat) (r : Rule) (e : Ex) (f : FTy) (T : Ty) (f' : FTy) (s : St) (hT : tyEx r e f = some (T, f'))
    (hs : RepOk o.maxExpr.isSome L s) (hr : s.rstack.head? = some r) (hf : FrTy s.frame f) : RepO o.maxExpr.isSome L T f' (eval o gram n e s) := by
  induction n generalizing r e f T f' s with
  | zero => trivial
  | succ n ih =>
    simp only [eval]
    split
    · rename_i hl
      refine ⟨⟨hs.errs, hs.ff⟩, .limit _ ?_⟩
      unfold tooMany at hl
      split at hl
      · rename_i h; rw [h]; rfl
      · cases hl
    have hs : RepOk o.maxExpr.isSome L ({ s with cnt := s.cnt + 1 } : St) := ⟨hs.errs, hs.ff⟩
    have hr : ({ s with cnt := s.cnt + 1 } : St).rstack.head? = some r := hr
    have hf : FrTy ({ s with cnt := s.cnt + 1 } : St).frame f := hf
    generalize ({ s with cnt := s.cnt + 1 } : St) = s at hs hr hf
    have hgood := fun e s => eval_good o gram n e s
    have hstar : ∀ e T0 f0 m acc s f, tyEx r e [] = some (T0, f0) → (∀ v ∈ acc, v.kind ∈ T0.ks) → RepOk o.maxExpr.isSome L s →
        s.rstack.head? = some r → FrTy s.frame f → RepO o.maxExpr.isSome L ⟨[.list], T0.ks⟩ f (starLoop (eval o gram n e) m acc s) := by
      intro e T0 f0 m
      induction m with
      | zero => intros; trivial
      | succ m ihm =>
        intro acc s f hT hacc hs hr hf
        simp only [starLoop]
        have h1 := ih r e [] _ _ { s with frame := [] } hT ⟨hs.errs, hs.ff⟩ hr FrTy.nil
        have hg := hgood e { s with frame := [] }
        cases h : eval o gram n e { s with frame := [] } with
        | ok v t =>
          rw [h] at h1 hg
          refine ihm _ _ _ hT ?_ ⟨h1.1.errs, h1.1.ff⟩ (by rw [show t.rstack = s.rstack from hg.1.rstack]; exact hr) hf
          intro w hw
          rcases List.mem_append.1 hw with hw | hw
          · exact hacc w hw
          · simp only [List.mem_singleton] at hw; subst hw; exact h1.2.1.1
        | fail t =>
          rw [h] at h1
          refine ⟨⟨h1.errs, h1.ff⟩, ⟨by simp [Val.kind], ?_⟩, hf⟩
          intro l hl; injection hl with hl; subst hl; exact hacc
        | panic m t => rw [h] at h1; exact h1
        | timeout => trivial
    unfold step
    cases e with
    | action a e =>
      simp only
      simp only [tyEx] at hT
      split at hT
      · cases hT
      rename_i p hp
      split at hT
      · cases hT
      rename_i q hq
      rw [Option.ite_none_right_eq_some] at hT
      obtain ⟨hall, hT⟩ := hT
      simp only [Option.some.injEq, Prod.mk.injEq] at hT
      obtain ⟨rfl, rfl⟩ := hT
      have h1 := ih r e f _ _ s hp hs hr hf
      have hg := hgood e s
      cases h : eval o gram n e s with
      | ok v t =>
        rw [h] at h1 hg
        simp only
        have hact := actTy_sound (o := o) (pos := s.pt.pos) (text := sliceFrom s.pt t.pt) (ws := t.warns) h1.2.2 hq
        have hrs : t.rstack.head? = some r := by rw [hg.1.rstack]; exact hr
        have hrep : ∀ m ∈ q.2, Raises o.maxExpr.isSome (some r) m := by
          intro m hm
          simp only [List.all_eq_true, List.contains_iff_mem] at hall
          exact .semantic _ _ (hall m hm)
        split
        · rename_i heq; rw [heq] at hact; exact ⟨⟨h1.1.errs, h1.1.ff⟩, hact, h1.2.2⟩
        · rename_i heq; rw [heq] at hact
          have h5 : RepOk o.maxExpr.isSome L ({ t with curPos := s.pt.pos, curText := sliceFrom s.pt t.pt } : St) := ⟨h1.1.errs, h1.1.ff⟩
          refine ⟨h5.addErrAt ?_, hact.1, h1.2.2⟩
          show Raises o.maxExpr.isSome t.rstack.head? _
          rw [hrs]; exact hrep _ hact.2
        · rename_i heq; rw [heq] at hact
          refine ⟨⟨h1.1.errs, h1.1.ff⟩, ?_⟩
          show Raises o.maxExpr.isSome t.rstack.head? _
          rw [hrs]; exact hrep _ hact
      | fail t => rw [h] at h1; exact h1
      | panic m t => rw [h] at h1; exact h1
      | timeout => trivial
    | andCode c =>
      simp only [tyEx, Option.ite_none_right_eq_some, Option.some.injEq, Prod.mk.injEq] at hT
      obtain ⟨hc, rfl, rfl⟩ := hT
      cases c with
      | initParser => exact ⟨⟨hs.errs, by simp⟩, hasTy_nil, hf⟩
      | pushError m =>
        refine ⟨hs.errs, ?_⟩
        intro x hx
        simp only [codeOk, List.contains_iff_mem] at hc
        rcases pushFF_mem_or hx with hx | rfl
        · exact hs.ff x hx
        · exact .inl hc
      | fatalError m =>
        simp only [codeOk, List.contains_iff_mem, Bool.and_eq_true] at hc
        refine ⟨⟨hs.errs, ?_⟩, ?_⟩
        · intro x hx
          simp only [List.mem_singleton] at hx; subst hx
          exact .inl hc.2
        · show Raises o.maxExpr.isSome s.rstack.head? _
          rw [hr]
          refine .closing _ m _ hc.1 ?_ ?_
          · unfold ffHeader; simp only [List.append_assoc]; exact List.prefix_append _ _
          · unfold ffLine; exact List.suffix_append _ _
    | any =>
      simp only [tyEx, Option.some.injEq, Prod.mk.injEq] at hT
      obtain ⟨rfl, rfl⟩ := hT
      simp only
      split
      · exact hs.failAt _ _ _
      · refine ⟨(hs.read o).failAt _ _ _, hasTy_bytes _, ?_⟩
        simp only [(failAt_fields _ _ _ _).2.2.2.1, (read_fields o s).2.2.1]; exact hf
    | cls val inv chars ranges =>
      simp only [tyEx, Option.some.injEq, Prod.mk.injEq] at hT
      obtain ⟨rfl, rfl⟩ := hT
      simp only
      split
      · exact hs.failAt _ _ _
      · split
        · refine ⟨(hs.read o).failAt _ _ _, hasTy_bytes _, ?_⟩
          simp only [(failAt_fields _ _ _ _).2.2.2.1, (read_fields o s).2.2.1]; exact hf
        · exact hs.failAt _ _ _
    | choice alts =>
      simp only [tyEx] at hT
      split at hT
      · cases hT
      rename_i T0 hA
      simp only [Option.some.injEq, Prod.mk.injEq] at hT
      obtain ⟨rfl, rfl⟩ := hT
      simp only
      suffices H : ∀ (alts : List Ex) (T1 : Ty) (s : St), tyAlts r alts = some T1 → (∀ v, HasTy v T1 → HasTy v T0) →
          RepOk o.maxExpr.isSome L s → s.rstack.head? = some r → FrTy s.frame f → RepO o.maxExpr.isSome L T0 f (choiceLoop (eval o gram n) alts s) from
        H alts T0 s hA (fun _ h => h) hs hr hf
      intro alts
      induction alts with
      | nil => intro _ s _ _ hs _ _; exact hs
      | cons e es ihl =>
        intro T1 s hA hsub hs hr hf
        simp only [tyAlts] at hA
        split at hA
        case h_2 => cases hA
        rename_i p T2 hp h2
        simp only [Option.some.injEq] at hA
        subst hA
        simp only [choiceLoop]
        have h1 := ih r e [] _ _ { s with frame := [] } hp ⟨hs.errs, hs.ff⟩ hr FrTy.nil
        have hg := hgood e { s with frame := [] }
        cases h : eval o gram n e { s with frame := [] } with
        | ok v t =>
          rw [h] at h1
          refine ⟨⟨h1.1.errs, h1.1.ff⟩, hsub v ?_, hf⟩
          exact ⟨List.mem_append_left _ h1.2.1.1, fun l hl x hx => List.mem_append_left _ (h1.2.1.2 l hl x hx)⟩
        | fail t =>
          rw [h] at h1 hg
          refine ihl T2 _ h2 (fun v hv => hsub v ⟨List.mem_append_right _ hv.1, fun l hl x hx => List.mem_append_right _ (hv.2 l hl x hx)⟩)
            ⟨h1.errs, h1.ff⟩ ?_ hf
          show t.rstack.head? = some r
          rw [hg.1.rstack]; exact hr
        | panic m t => rw [h] at h1; exact h1
        | timeout => trivial
    | labeled l e =>
      simp only [tyEx] at hT
      split at hT
      · cases hT
      rename_i p hp
      simp only [Option.some.injEq, Prod.mk.injEq] at hT
      obtain ⟨rfl, rfl⟩ := hT
      simp only
      have h1 := ih r e [] _ _ { s with frame := [] } hp ⟨hs.errs, hs.ff⟩ hr FrTy.nil
      cases h : eval o gram n e { s with frame := [] } with
      | ok v t => rw [h] at h1; exact ⟨⟨h1.1.errs, h1.1.ff⟩, h1.2.1, hf.cons h1.2.1⟩
      | fail t => rw [h] at h1; exact ⟨h1.errs, h1.ff⟩
      | panic m t => rw [h] at h1; exact h1
      | timeout => trivial
    | lit v =>
      simp only [tyEx, Option.some.injEq, Prod.mk.injEq] at hT
      obtain ⟨rfl, rfl⟩ := hT
      simp only
      generalize litWant v = w
      generalize s.pt = p
      clear hr
      induction v generalizing s with
      | nil =>
        refine ⟨hs.failAt _ _ _, hasTy_bytes _, ?_⟩
        simp only [(failAt_fields s _ _ _).2.2.2.1]; exact hf
      | cons c cs ihv =>
        simp only [litLoop]
        split
        · exact ihv _ (hs.read o) (by rw [(read_fields o s).2.2.1]; exact hf)
        · exact ⟨(hs.failAt _ _ _).errs, (hs.failAt _ _ _).ff⟩
    | not e =>
      simp only [tyEx] at hT
      split at hT
      · cases hT
      rename_i p hp
      simp only [Option.some.injEq, Prod.mk.injEq] at hT
      obtain ⟨rfl, rfl⟩ := hT
      simp only
      have h1 := ih r e [] _ _ { s with frame := [], mfInv := !s.mfInv } hp ⟨hs.errs, hs.ff⟩ hr FrTy.nil
      cases h : eval o gram n e { s with frame := [], mfInv := !s.mfInv } with
      | ok v t => rw [h] at h1; exact ⟨h1.1.errs, h1.1.ff⟩
      | fail t => rw [h] at h1; exact ⟨⟨h1.errs, h1.ff⟩, hasTy_nil, hf⟩
      | panic m t => rw [h] at h1; exact h1
      | timeout => trivial
    | plus e =>
      simp only [tyEx] at hT
      split at hT
      · cases hT
      rename_i p hp
      simp only [Option.some.injEq, Prod.mk.injEq] at hT
      obtain ⟨rfl, rfl⟩ := hT
      simp only
      have h1 := ih r e [] _ _ { s with frame := [] } hp ⟨hs.errs, hs.ff⟩ hr FrTy.nil
      have hg := hgood e { s with frame := [] }
      cases h : eval o gram n e { s with frame := [] } with
      | ok v t =>
        rw [h] at h1 hg
        refine hstar e p.1 p.2 n _ _ _ hp ?_ ⟨h1.1.errs, h1.1.ff⟩ (by rw [show t.rstack = s.rstack from hg.1.rstack]; exact hr) hf
        intro w hw
        simp only [List.mem_singleton] at hw; subst hw; exact h1.2.1.1
      | fail t => rw [h] at h1; exact ⟨h1.errs, h1.ff⟩
      | panic m t => rw [h] at h1; exact h1
      | timeout => trivial
    | ref r' =>
      simp only [tyEx, Option.some.injEq, Prod.mk.injEq] at hT
      obtain ⟨rfl, rfl⟩ := hT
      simp only [evalRule]
      have hk := gram_typed r'
      unfold ruleOk at hk
      split at hk
      · cases hk
      rename_i p hp
      simp only [Bool.and_eq_true] at hk
      have h1 := ih r' (gram r') [] _ _ { s with rstack := r' :: s.rstack, frame := [] } hp ⟨hs.errs, hs.ff⟩ rfl FrTy.nil
      cases h : eval o gram n (gram r') { s with rstack := r' :: s.rstack, frame := [] } with
      | ok v t =>
        rw [h] at h1
        exact ⟨⟨h1.1.errs, h1.1.ff⟩, ⟨sub_mem hk.1 h1.2.1.1, fun l hl x hx => sub_mem hk.2 (h1.2.1.2 l hl x hx)⟩, hf⟩
      | fail t => rw [h] at h1; exact ⟨h1.errs, h1.ff⟩
      | panic m t => rw [h] at h1; exact h1
      | timeout => trivial
    | seq es =>
      simp only [tyEx] at hT
      split at hT
      · cases hT
      rename_i p hp
      simp only [Option.some.injEq, Prod.mk.injEq] at hT
      obtain ⟨rfl, rfl⟩ := hT
      simp only
      suffices H : ∀ (es : List Ex) (f : FTy) (q : List Kind × FTy) s0 acc s, tySeq r es f = some q → (∀ v ∈ acc, v.kind ∈ p.1) →
          (∀ k ∈ q.1, k ∈ p.1) → q.2 = p.2 →
          RepOk o.maxExpr.isSome L s → s.rstack.head? = some r → FrTy s.frame f → RepO o.maxExpr.isSome L ⟨[.list], p.1⟩ p.2 (seqLoop (eval o gram n) s0 es acc s) from
        H es f p s [] s hp (by simp) (fun _ h => h) rfl hs hr hf
      intro es
      induction es with
      | nil =>
        intro f q s0 acc s hq hacc _ h2 hs _ hf
        simp only [tySeq, Option.some.injEq] at hq
        subst hq
        simp only at h2
        subst h2
        refine ⟨hs, ⟨by simp [Val.kind], ?_⟩, hf⟩
        intro l hl; injection hl with hl; subst hl; exact hacc
      | cons e es ihl =>
        intro f q s0 acc s hq hacc hsub h2 hs hr hf
        simp only [tySeq] at hq
        split at hq
        · cases hq
        rename_i p1 hp1
        split at hq
        · cases hq
        rename_i q1 hq1
        simp only [Option.some.injEq] at hq
        subst hq
        simp only [seqLoop]
        have h1 := ih r e f _ _ s hp1 hs hr hf
        have hg := hgood e s
        cases h : eval o gram n e s with
        | ok v t =>
          rw [h] at h1 hg
          refine ihl p1.2 q1 s0 _ t hq1 ?_ (fun k hk => hsub k (List.mem_append_right _ hk)) h2 h1.1 (by rw [hg.1.rstack]; exact hr) h1.2.2
          intro w hw
          rcases List.mem_append.1 hw with hw | hw
          · exact hacc w hw
          · simp only [List.mem_singleton] at hw; subst hw
            exact hsub _ (List.mem_append_left _ h1.2.1.1)
        | fail t => rw [h] at h1; exact ⟨h1.errs, h1.ff⟩
        | panic m t => rw [h] at h1; exact h1
        | timeout => trivial
    | state c =>
      simp only [tyEx, Option.some.injEq, Prod.mk.injEq] at hT
      obtain ⟨rfl, rfl⟩ := hT
      cases c with
      | initState => exact ⟨hs, hasTy_nil, hf⟩
      | warnComment =>
        simp only [runState]
        split <;> exact ⟨⟨hs.errs, hs.ff⟩, hasTy_nil, hf⟩
    | star e =>
      simp only [tyEx] at hT
      split at hT
      · cases hT
      rename_i p hp
      simp only [Option.some.injEq, Prod.mk.injEq] at hT
      obtain ⟨rfl, rfl⟩ := hT
      exact hstar e p.1 p.2 n _ _ _ hp (by simp) hs hr hf
    | opt e =>
      simp only [tyEx] at hT
      split at hT
      · cases hT
      rename_i p hp
      simp only [Option.some.injEq, Prod.mk.injEq] at hT
      obtain ⟨rfl, rfl⟩ := hT
      simp only
      have h1 := ih r e [] _ _ { s with frame := [] } hp ⟨hs.errs, hs.ff⟩ hr FrTy.nil
      cases h : eval o gram n e { s with frame := [] } with
      | ok v t => rw [h] at h1; exact ⟨⟨h1.1.errs, h1.1.ff⟩, ⟨List.mem_cons_of_mem _ h1.2.1.1, h1.2.1.2⟩, hf⟩
      | fail t => rw [h] at h1; exact ⟨⟨h1.errs, h1.ff⟩, ⟨by simp [Val.kind], by intro l hl; cases hl⟩, hf⟩
      | panic m t => rw [h] at h1; exact h1
      | timeout => trivial

end Verif
