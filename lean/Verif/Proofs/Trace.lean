import Verif.Proofs.Debug
/-
What is printed with `Debug(true)` (Spec/Trace.lean).
-/
namespace Verif
open Spec Debug

theorem nested_append {data : Bytes} {st : Bool} {d : Nat} {a b : List Line} (ha : Nested data st d a)
    (hb : Nested data st d b) : Nested data st d (a ++ b) := by
  induction ha with
  | nil => exact hb
  | @block d name p q rn rn' body mt rest h1 h2 _ _ ih =>
    have := Nested.block (rn := rn) (rn' := rn') h1 h2 (ih hb)
    simpa using this

theorem verdict_stop {data : Bytes} {name : Bytes} {p q : Pos} {mt : Option Bytes} (h : Verdict data false name p q mt)
    (st : Bool) : Verdict data st name p q mt := by
  cases h with
  | rule a b c => exact .rule a b c
  | noRule a => exact .noRule a
  | action a b => exact .action a b
  | other a => exact .other a
  | abort a => cases a

theorem nested_stop {data : Bytes} {d : Nat} {a : List Line} (h : Nested data false d a) (st : Bool) :
    Nested data st d a := by
  induction h with
  | nil => exact .nil
  | block _ h2 _ ih1 ih2 => exact .block ih1 (verdict_stop h2 st) ih2

theorem exprCount_append (a b : List Line) : exprCount (a ++ b) = exprCount a + exprCount b := by
  simp [exprCount]

/-- The line was printed at a point that is reached from `p0`. -/
def ShownAt (p0 : Pt) (l : Line) : Prop := ∃ p, Adv false p0 p ∧ l.pos = p.pos ∧ l.rn = p.rn

/-- The lines printed on the way from one state to another. -/
def Told {υ : Type} (data : Bytes) (p0 : Pt) (st : Bool) (a b : Nat) (m t : DSt υ) : Prop :=
  t.depth = m.depth ∧ Adv false p0 t.s.pt ∧ ∃ new, t.out = m.out ++ new ∧ Nested data st m.depth new ∧
    (∀ l ∈ new, ShownAt p0 l) ∧ t.s.cnt + a = m.s.cnt + exprCount new + b

section
variable {υ : Type} {data : Bytes} {p0 : Pt} {E : Env υ}

theorem told_refl {m : DSt υ} (h : Adv false p0 m.s.pt) : Told data p0 false 0 0 m m :=
  ⟨rfl, h, [], by simp, .nil, by simp, rfl⟩

theorem told_trans {st : Bool} {a b : Nat} {m t u : DSt υ} (h1 : Told data p0 false 0 0 m t) (h2 : Told data p0 st a b t u) :
    Told data p0 st a b m u := by
  obtain ⟨d1, _, n1, o1, w1, s1, c1⟩ := h1
  obtain ⟨d2, p2, n2, o2, w2, s2, c2⟩ := h2
  refine ⟨d2.trans d1, p2, n1 ++ n2, by rw [o2, o1, List.append_assoc], ?_, ?_, ?_⟩
  · rw [d1] at w2
    exact nested_append (nested_stop w1 st) w2
  · intro l hl
    rcases List.mem_append.1 hl with h | h
    · exact s1 l h
    · exact s2 l h
  · rw [exprCount_append]; omega

theorem enter_on (hE : E.dbg = true) (name : Bytes) (m : DSt υ) :
    m.enter E name = DSt.print .enter name { m with depth := m.depth + 1 } := by unfold DSt.enter; rw [if_pos hE]

theorem leave_on (hE : E.dbg = true) (name : Bytes) (m : DSt υ) :
    m.leave E name = DSt.print .leave name { m with depth := m.depth - 1 } := by unfold DSt.leave; rw [if_pos hE]

/-- A whole block: `t` is reached inside of it, `mt` is the line `MATCH`. -/
theorem told_block (hE : E.dbg = true) {st : Bool} {b : Nat} {name : Bytes} {m t : DSt υ} {mt : Option Bytes}
    (hm : Adv false p0 m.s.pt) (h : Told data p0 st 0 b (m.enter E name) t)
    (hv : Verdict data st name m.s.pt.pos t.s.pt.pos mt) :
    Told data p0 st (if isExprName name then 1 else 0) b m
      (DSt.leave E name { t with out := t.out ++ (mt.map fun x => ⟨m.depth + 1, .matched, t.s.pt.pos, x, t.s.pt.rn⟩).toList }) := by
  rw [enter_on hE] at h
  obtain ⟨d, hp, new, ho, hn, hs, hc⟩ := h
  have hd : t.depth = m.depth + 1 := d
  have ho' : t.out = m.out ++ [⟨m.depth + 1, .enter, m.s.pt.pos, name, m.s.pt.rn⟩] ++ new := ho
  have hn' : Nested data st (m.depth + 1) new := hn
  have hc' : t.s.cnt = m.s.cnt + exprCount new + b := hc
  have hs' : ∀ l ∈ new, ShownAt p0 l := hs
  rw [leave_on hE]
  refine ⟨by show t.depth - 1 = m.depth; omega, hp,
    ⟨m.depth + 1, .enter, m.s.pt.pos, name, m.s.pt.rn⟩ ::
      (new ++ (mt.map fun x => (⟨m.depth + 1, .matched, t.s.pt.pos, x, t.s.pt.rn⟩ : Line)).toList ++
        ⟨m.depth, .leave, t.s.pt.pos, name, t.s.pt.rn⟩ :: []), ?_, .block hn' hv .nil, ?_, ?_⟩
  · show t.out ++ _ ++ [⟨t.depth - 1, _, _, _, _⟩] = _
    rw [ho', hd]
    simp
  · intro l hl
    simp only [List.mem_cons, List.mem_append, List.not_mem_nil, or_false, Option.mem_toList, Option.map_eq_some_iff] at hl
    rcases hl with rfl | (h | ⟨x, _, rfl⟩) | rfl
    · exact ⟨m.s.pt, hm, rfl, rfl⟩
    · exact hs' l h
    · exact ⟨t.s.pt, hp, rfl, rfl⟩
    · exact ⟨t.s.pt, hp, rfl, rfl⟩
  · show t.s.cnt + _ = _
    have h1 : exprCount (⟨m.depth + 1, .enter, m.s.pt.pos, name, m.s.pt.rn⟩ ::
      (new ++ (mt.map fun x => (⟨m.depth + 1, .matched, t.s.pt.pos, x, t.s.pt.rn⟩ : Line)).toList ++
        [⟨m.depth, .leave, t.s.pt.pos, name, t.s.pt.rn⟩])) = exprCount new + (if isExprName name then 1 else 0) := by
      have h2 : ∀ (l : Line) (k : List Line), exprCount (l :: k) = exprCount [l] + exprCount k := fun l k =>
        exprCount_append [l] k
      rw [h2, exprCount_append, exprCount_append]
      have h3 : exprCount (mt.map fun x => (⟨m.depth + 1, .matched, t.s.pt.pos, x, t.s.pt.rn⟩ : Line)).toList = 0 := by
        cases mt <;> rfl
      have h4 : exprCount [(⟨m.depth, .leave, t.s.pt.pos, name, t.s.pt.rn⟩ : Line)] = 0 := rfl
      rw [h3, h4]
      simp only [exprCount, List.filter]
      cases hi : isExprName name <;> simp [Nat.add_comm]
    rw [h1]; omega

/-- A block without a line `MATCH`. -/
theorem told_plain (hE : E.dbg = true) {st : Bool} {b : Nat} {name : Bytes} {m t : DSt υ}
    (hm : Adv false p0 m.s.pt) (h : Told data p0 st 0 b (m.enter E name) t)
    (hv : Verdict data st name m.s.pt.pos t.s.pt.pos none) :
    Told data p0 st (if isExprName name then 1 else 0) b m (t.leave E name) := by
  have h1 := told_block hE hm h hv
  have h2 : ({ t with out := t.out ++ ((none : Option Bytes).map fun x =>
      (⟨m.depth + 1, .matched, t.s.pt.pos, x, t.s.pt.rn⟩ : Line)).toList } : DSt υ) = t := by
    cases t; simp
  rwa [h2] at h1

theorem enter_pt (name : Bytes) (m : DSt υ) : (m.enter E name).s.pt = m.s.pt := by rw [enter_s]

theorem told_cloned (hE : E.dbg = true) {m : DSt υ} (hm : Adv false p0 m.s.pt) :
    Told data p0 false 0 0 m (m.cloned E) := by
  have h1 := told_plain (data := data) (st := false) (name := b!"cloneState") hE hm
    (told_refl (by rw [enter_pt]; exact hm)) (.other (by decide))
  exact h1

theorem told_restoreState (hE : E.dbg = true) {m : DSt υ} (d : Dict υ) (hm : Adv false p0 m.s.pt) :
    Told data p0 false 0 0 m (m.restoreState E d) := by
  have h0 : Told data p0 false 0 0 (m.enter E b!"restoreState") { m.enter E b!"restoreState" with dict := d } :=
    told_refl (m := m.enter E b!"restoreState") (by rw [enter_pt]; exact hm)
  have h1 := told_plain (data := data) (st := false) (name := b!"restoreState") hE hm h0 (.other (by decide))
  exact h1

theorem told_restore (hE : E.dbg = true) {m : DSt υ} {p : Pt} (hm : Adv false p0 m.s.pt) (hp : Adv false p0 p) :
    Told data p0 false 0 0 m (m.restore E p) := by
  have h0 : Told data p0 false 0 0 (m.enter E b!"restore")
      { m.enter E b!"restore" with s := { (m.enter E b!"restore").s with pt := p } } :=
    ⟨rfl, hp, [], by simp, .nil, by simp, rfl⟩
  have h1 := told_plain (data := data) (st := false) (name := b!"restore") hE hm h0 (.other (by decide))
  exact h1

theorem restore_pt (m : DSt υ) (p : Pt) : (m.restore E p).s.pt = p := by
  simp only [DSt.restore, leave_s]

/-- What an evaluation tells. -/
def Tell (data : Bytes) (p0 : Pt) (E : Env υ) (a : Nat) (m : DSt υ) : DOut υ → Prop
  | .ok _ t => Told data p0 false a 0 m t ∧ tooMany E.o t.s.cnt = false
  | .fail t => Told data p0 false a 0 m t ∧ tooMany E.o t.s.cnt = false
  | .panic _ t => Told data p0 true a (if tooMany E.o t.s.cnt then 1 else 0) m t
  | .timeout => True

theorem tell_trans {m t : DSt υ} {r : DOut υ} (h1 : Told data p0 false 0 0 m t) (h2 : Tell data p0 E 0 t r) :
    Tell data p0 E 0 m r := by
  cases r with
  | ok v u => exact ⟨told_trans h1 h2.1, h2.2⟩
  | fail u => exact ⟨told_trans h1 h2.1, h2.2⟩
  | panic x u => exact told_trans (m := m) h1 h2
  | timeout => trivial

/-- Every evaluation tells. -/
def EvTell (data : Bytes) (p0 : Pt) (E : Env υ) (ev : Ex → DSt υ → DOut υ) : Prop :=
  ∀ e m, Adv false p0 m.s.pt → Tell data p0 E 0 m (ev e m)

theorem failAt_pt (s : St) (f : Bool) (p : Pos) (w : Bytes) : (s.failAt f p w).pt = s.pt := (failAt_fields s f p w).1

theorem read_adv {p0 : Pt} {s : St} (o : Opts) (h : Adv false p0 s.pt) (hne : s.pt.rest ≠ []) :
    Adv false p0 (s.read o).pt := by
  rw [(read_fields o s).1]
  exact h.trans (.step _ _ hne (fun h => by cases h) (.refl _))

theorem litLoopD_tell (hE : E.dbg = true) (want : Bytes) (start : Pt) (hst : Adv false p0 start) (cs : Bytes) (m : DSt υ)
    (hm : Adv false p0 m.s.pt) (hc : tooMany E.o m.s.cnt = false) : Tell data p0 E 0 m (litLoopD E want start cs m) := by
  induction cs generalizing m with
  | nil =>
    refine ⟨⟨rfl, ?_, [], by simp, .nil, by simp, ?_⟩, ?_⟩
    · show Adv false p0 (m.s.failAt true start.pos want).pt
      rw [failAt_pt]; exact hm
    · show (m.s.failAt true start.pos want).cnt + 0 = _
      rw [(failAt_fields _ _ _ _).2.2.2.2.2.2.2.2.2]; rfl
    · show tooMany E.o (m.s.failAt true start.pos want).cnt = false
      rw [(failAt_fields _ _ _ _).2.2.2.2.2.2.2.2.2]; exact hc
  | cons c cs ih =>
    simp only [litLoopD]
    by_cases h : m.s.pt.rn = c.toNat
    · rw [if_pos h]
      have ha := read_adv E.o hm (Pt.rest_ne_of_rn h)
      have hk : (m.s.read E.o).cnt = m.s.cnt := by unfold St.read; simp only []; split <;> rfl
      refine tell_trans (t := { m with s := m.s.read E.o }) ⟨rfl, ha, [], by simp, .nil, by simp, ?_⟩ (ih _ ha ?_)
      · show (m.s.read E.o).cnt + 0 = _
        rw [hk]; rfl
      · show tooMany E.o (m.s.read E.o).cnt = false
        rw [hk]; exact hc
    · rw [if_neg h]
      have ha : Adv false p0 (m.s.failAt false start.pos want).pt := by rw [failAt_pt]; exact hm
      have hk := (failAt_fields m.s false start.pos want).2.2.2.2.2.2.2.2.2
      refine ⟨told_trans (t := { m with s := m.s.failAt false start.pos want })
        ⟨rfl, ha, [], by simp, .nil, by simp, ?_⟩ (told_restore hE (m := { m with s := m.s.failAt false start.pos want }) ha hst), ?_⟩
      · show (m.s.failAt false start.pos want).cnt + 0 = _
        rw [hk]; rfl
      · show tooMany E.o (DSt.restore E start { m with s := m.s.failAt false start.pos want }).s.cnt = false
        simp only [DSt.restore, leave_s, enter_s]
        rw [hk]; exact hc

theorem restoreState_cnt (d : Dict υ) (m : DSt υ) : (m.restoreState E d).s.cnt = m.s.cnt := by
  simp only [DSt.restoreState, leave_s, enter_s]

theorem restoreState_pt (d : Dict υ) (m : DSt υ) : (m.restoreState E d).s.pt = m.s.pt := by
  simp only [DSt.restoreState, leave_s, enter_s]

theorem restore_cnt (p : Pt) (m : DSt υ) : (m.restore E p).s.cnt = m.s.cnt := by
  simp only [DSt.restore, leave_s, enter_s]

/-- After `restoreState` and `restore`. -/
theorem told_back (hE : E.dbg = true) {m t : DSt υ} {p : Pt} (d : Dict υ) (h : Told data p0 false 0 0 m t)
    (hp : Adv false p0 p) : Told data p0 false 0 0 m ((t.restoreState E d).restore E p) :=
  told_trans h (told_trans (told_restoreState hE d h.2.1) (told_restore hE (by rw [restoreState_pt]; exact h.2.1) hp))

theorem seqLoopD_tell (hE : E.dbg = true) {ev : Ex → DSt υ → DOut υ} (h : EvTell data p0 E ev) (p : Pt) (hp : Adv false p0 p)
    (d : Dict υ) (es : List Ex) (acc : List Val) (m : DSt υ) (hm : Adv false p0 m.s.pt)
    (hc : tooMany E.o m.s.cnt = false) : Tell data p0 E 0 m (seqLoopD E ev p d es acc m) := by
  induction es generalizing acc m with
  | nil => exact ⟨told_refl hm, hc⟩
  | cons e es ih =>
    simp only [seqLoopD]
    have h1 := h e m hm
    cases hr : ev e m with
    | ok v t => rw [hr] at h1; exact tell_trans h1.1 (ih _ t h1.1.2.1 h1.2)
    | fail t =>
      rw [hr] at h1
      exact ⟨told_back hE d h1.1 hp, by rw [restore_cnt, restoreState_cnt]; exact h1.2⟩
    | panic x t => rw [hr] at h1; exact h1
    | timeout => trivial

theorem choiceLoopD_tell (hE : E.dbg = true) {ev : Ex → DSt υ → DOut υ} (h : EvTell data p0 E ev) (es : List Ex) (m : DSt υ)
    (hm : Adv false p0 m.s.pt) (hc : tooMany E.o m.s.cnt = false) : Tell data p0 E 0 m (choiceLoopD E ev es m) := by
  induction es generalizing m with
  | nil => exact ⟨told_refl hm, hc⟩
  | cons e es ih =>
    simp only [choiceLoopD]
    have h0 : Told data p0 false 0 0 m ((m.cloned E).vars []) := told_cloned hE hm
    have h1 := tell_trans h0 (h e ((m.cloned E).vars []) h0.2.1)
    cases hr : ev e ((m.cloned E).vars []) with
    | ok v t => rw [hr] at h1; exact h1
    | fail t =>
      rw [hr] at h1
      have h2 : Told data p0 false 0 0 m (t.vars m.s.frame) := h1.1
      have h3 := told_trans h2 (told_restoreState hE (m.dict.copy E.clone) h2.2.1)
      exact tell_trans h3 (ih _ h3.2.1 (by rw [restoreState_cnt]; exact h1.2))
    | panic x t => rw [hr] at h1; exact h1
    | timeout => trivial

theorem starLoopD_tell {ev : DSt υ → DOut υ} (h : ∀ m, Adv false p0 m.s.pt → Tell data p0 E 0 m (ev m)) (n : Nat)
    (acc : List Val) (m : DSt υ) (hm : Adv false p0 m.s.pt) : Tell data p0 E 0 m (starLoopD ev n acc m) := by
  induction n generalizing acc m with
  | zero => trivial
  | succ n ih =>
    simp only [starLoopD]
    have h1 : Tell data p0 E 0 m (ev (m.vars [])) := tell_trans (t := m.vars []) (told_refl hm) (h (m.vars []) hm)
    cases hr : ev (m.vars []) with
    | ok v t =>
      rw [hr] at h1
      have h2 : Told data p0 false 0 0 m (t.vars m.s.frame) := h1.1
      exact tell_trans h2 (ih _ _ h2.2.1)
    | fail t => rw [hr] at h1; exact h1
    | panic x t => rw [hr] at h1; exact h1
    | timeout => trivial

theorem adv_data (h0 : p0.offset = 0 ∧ p0.rest = data) {p : Pt} (h : Adv false p0 p) :
    p.rest = data.drop p.offset ∧ p.offset ≤ data.length := by
  have h1 := h.offset_le
  have h2 := h.slice
  unfold sliceFrom at h2
  rw [h0.1, h0.2] at h2
  rw [h0.1, h0.2] at h1
  simp only [Nat.sub_zero] at h2
  refine ⟨?_, by omega⟩
  have h3 : data = data.take p.offset ++ data.drop p.offset := (List.take_append_drop _ _).symm
  have h4 : data.take p.offset ++ p.rest = data.take p.offset ++ data.drop p.offset := by rw [← h2, ← h3]
  exact List.append_cancel_left h4

theorem matched_on (hE : E.dbg = true) (p : Pt) (m : DSt υ) :
    m.matched E p = { m with out := m.out ++ [⟨m.depth, .matched, m.s.pt.pos, sliceFrom p m.s.pt, m.s.pt.rn⟩] } := by
  unfold DSt.matched DSt.print; rw [if_pos hE]

theorem slice_between (h0 : p0.offset = 0 ∧ p0.rest = data) {p q : Pt} (hp : Adv false p0 p) :
    sliceFrom p q = between data p.pos q.pos := by
  unfold sliceFrom between
  rw [(adv_data h0 hp).1]
  rfl

theorem notRule_exName (e : Ex) : ¬ b!"parseRule " <+: exName e := by
  have h : b!"parseRule ".isPrefixOf (exName e) = false := by
    cases e with
    | ref r => cases r <;> decide
    | _ => rfl
  intro h'
  rw [List.isPrefixOf_iff_prefix.2 h'] at h
  cases h

theorem isExprName_exName (e : Ex) : isExprName (exName e) = true := by
  cases e with
  | ref r => cases r <;> decide
  | _ => rfl

theorem isExprName_rule (r : Rule) : isExprName (b!"parseRule " ++ r.name) = false := by
  cases r <;> decide

theorem told_matched (hE : E.dbg = true) (h0 : p0.offset = 0 ∧ p0.rest = data) {name : Bytes} {m t : DSt υ}
    (hm : Adv false p0 m.s.pt) (h : Told data p0 false 0 0 (m.enter E name) t)
    (hv : Verdict data false name m.s.pt.pos t.s.pt.pos (some (between data m.s.pt.pos t.s.pt.pos))) :
    Told data p0 false (if isExprName name then 1 else 0) 0 m ((t.matched E m.s.pt).leave E name) := by
  have h1 := told_block hE hm h hv
  rw [matched_on hE, slice_between h0 hm]
  have h2 : t.depth = m.depth + 1 := by rw [h.1, enter_on hE]; rfl
  have h3 := congrArg (fun k => (DSt.leave E name { t with out := t.out ++
    [⟨k, .matched, t.s.pt.pos, between data m.s.pt.pos t.s.pt.pos, t.s.pt.rn⟩] })) h2
  exact h3 ▸ h1

/-- The truth about the evaluation of an expression. -/
def Truth (data : Bytes) (p0 : Pt) (ev : Ex → DSt υ → DOut υ) : Prop :=
  ∀ e m, Adv false p0 m.s.pt →
    (∀ v t, ev e m = .ok v t → m.s.pt.offset ≤ t.s.pt.offset ∧
      ∃ neg log, Tries neg e m.s.pt.rest log (.ok t.s.pt.rest)) ∧
    (∀ t, ev e m = .fail t → t.s.pt = m.s.pt ∧ ∃ neg log, Tries neg e m.s.pt.rest log .fail)

theorem evalRuleD_tell (hE : E.dbg = true) (h0 : p0.offset = 0 ∧ p0.rest = data) {ev : Ex → DSt υ → DOut υ}
    (h : EvTell data p0 E ev) (ht : Truth data p0 ev) (r : Rule) (m : DSt υ) (hm : Adv false p0 m.s.pt) :
    Tell data p0 E 0 m (evalRuleD E ev gram r m) := by
  have hx : (if isExprName (b!"parseRule " ++ r.name) then 1 else 0) = 0 := by rw [isExprName_rule]; rfl
  have ha : Adv false p0 (m.enter E (b!"parseRule " ++ r.name)).s.pt := by rw [enter_pt]; exact hm
  simp only [evalRuleD, block]
  generalize hm1 : ({ m.enter E (b!"parseRule " ++ r.name) with
    s := { (m.enter E (b!"parseRule " ++ r.name)).s with
      rstack := r :: (m.enter E (b!"parseRule " ++ r.name)).s.rstack, frame := [] } } : DSt υ) = m1
  have hm1' : Told data p0 false 0 0 (m.enter E (b!"parseRule " ++ r.name)) m1 := by
    rw [← hm1]
    exact told_refl (m := m.enter E (b!"parseRule " ++ r.name)) ha
  have hpt : m1.s.pt = m.s.pt := by rw [← hm1]; exact enter_pt _ _
  have h1 := tell_trans hm1' (h (gram r) m1 hm1'.2.1)
  obtain ⟨ht1, ht2⟩ := ht (gram r) m1 hm1'.2.1
  cases hr : ev (gram r) m1 with
  | timeout => trivial
  | panic x t =>
    rw [hr] at h1
    have h2 := told_plain hE hm h1 (.abort rfl)
    rw [hx] at h2
    show Told data p0 true 0 (if tooMany E.o (t.leave E (b!"parseRule " ++ r.name)).s.cnt then 1 else 0) m _
    rw [leave_s]
    exact h2
  | fail t =>
    rw [hr] at h1
    obtain ⟨hq, neg, log, hT⟩ := ht2 t hr
    generalize hu : ({ t with s := { t.s with rstack := (m.enter E (b!"parseRule " ++ r.name)).s.rstack, frame := (m.enter E (b!"parseRule " ++ r.name)).s.frame } } : DSt υ) = u
    have h2 : Told data p0 false 0 0 (m.enter E (b!"parseRule " ++ r.name)) u := by rw [← hu]; exact h1.1
    have hup : u.s.pt = m.s.pt := by rw [← hu]; exact hq.trans hpt
    have h3 := told_plain hE hm h2 (by
      rw [hup]
      refine .noRule (neg := neg) (log := log) ?_
      have := (adv_data h0 hm).1
      unfold fromPos
      rw [hpt, this] at hT
      exact hT)
    rw [hx, ← hu] at h3
    exact ⟨h3, by rw [leave_s]; exact h1.2⟩
  | ok v t =>
    rw [hr] at h1
    obtain ⟨hq, neg, log, hT⟩ := ht1 v t hr
    generalize hu : ({ t with s := { t.s with rstack := (m.enter E (b!"parseRule " ++ r.name)).s.rstack, frame := (m.enter E (b!"parseRule " ++ r.name)).s.frame } } : DSt υ) = u
    have h2 : Told data p0 false 0 0 (m.enter E (b!"parseRule " ++ r.name)) u := by rw [← hu]; exact h1.1
    have hup : u.s.pt = t.s.pt := by rw [← hu]
    have h3 := told_matched hE h0 hm h2 (by
      refine .rule (neg := neg) (log := log) ?_ ?_ ?_
      · rw [hup, ← hpt]; exact Int.ofNat_le.2 hq
      · rw [hup]; exact Int.ofNat_le.2 (adv_data h0 h1.1.2.1).2
      · have e1 := (adv_data h0 hm).1
        have e2 := (adv_data h0 h1.1.2.1).1
        rw [hpt, e1, e2] at hT
        rw [hup]
        exact hT)
    rw [hx, ← hu] at h3
    refine ⟨?_, ?_⟩
    · rw [enter_pt]; exact h3
    · rw [leave_s, matched_on hE]
      exact h1.2

/-- Adding a block around. -/
theorem block_tell (hE : E.dbg = true) {name : Bytes} {f : DSt υ → DOut υ} {m : DSt υ} (hm : Adv false p0 m.s.pt)
    (hn : ¬ b!"parseRule " <+: name) (h : Tell data p0 E 0 (m.enter E name) (f (m.enter E name))) :
    Tell data p0 E (if isExprName name then 1 else 0) m (block E name f m) := by
  unfold block
  cases hr : f (m.enter E name) with
  | timeout => trivial
  | ok v t =>
    rw [hr] at h
    exact ⟨told_plain hE hm h.1 (.other hn), by rw [leave_s]; exact h.2⟩
  | fail t =>
    rw [hr] at h
    exact ⟨told_plain hE hm h.1 (.other hn), by rw [leave_s]; exact h.2⟩
  | panic x t =>
    rw [hr] at h
    show Told data p0 true _ (if tooMany E.o (t.leave E name).s.cnt then 1 else 0) m _
    rw [leave_s]
    exact told_plain hE hm h (.other hn)

theorem lift_tell {m : DSt υ} {r : Out} (hc : tooMany E.o m.s.cnt = false)
    (h : ∀ t, (∃ v, r = .ok v t) ∨ r = .fail t ∨ (∃ x, r = .panic x t) → Adv false p0 t.pt ∧ t.cnt = m.s.cnt) :
    Tell data p0 E 0 m (Debug.lift m r) := by
  have key : ∀ (st : Bool) (t : St), Adv false p0 t.pt → t.cnt = m.s.cnt → Told data p0 st 0 0 m { m with s := t } := by
    intro st t h1 h2
    exact ⟨rfl, h1, [], by simp, .nil, by simp, h2⟩
  cases r with
  | timeout => trivial
  | ok v t =>
    obtain ⟨h1, h2⟩ := h t (.inl ⟨v, rfl⟩)
    exact ⟨key _ t h1 h2, by show tooMany E.o t.cnt = false; rw [h2]; exact hc⟩
  | fail t =>
    obtain ⟨h1, h2⟩ := h t (.inr (.inl rfl))
    exact ⟨key _ t h1 h2, by show tooMany E.o t.cnt = false; rw [h2]; exact hc⟩
  | panic x t =>
    obtain ⟨h1, h2⟩ := h t (.inr (.inr ⟨x, rfl⟩))
    show Told data p0 true 0 (if tooMany E.o t.cnt then 1 else 0) m _
    rw [h2, hc]
    exact key _ t h1 h2

theorem read_count (o : Opts) (s : St) : (s.read o).cnt = s.cnt := by
  unfold St.read; simp only []; split <;> rfl

theorem failAt_count (s : St) (f : Bool) (p : Pos) (w : Bytes) : (s.failAt f p w).cnt = s.cnt :=
  (failAt_fields s f p w).2.2.2.2.2.2.2.2.2

theorem bodyD_tell (hE : E.dbg = true) (h0 : p0.offset = 0 ∧ p0.rest = data) {ev : Ex → DSt υ → DOut υ}
    (h : EvTell data p0 E ev) (ht : Truth data p0 ev) (n : Nat) (e : Ex) (hne : ∀ a e', e ≠ .action a e') (m : DSt υ)
    (hm : Adv false p0 m.s.pt) (hc : tooMany E.o m.s.cnt = false) : Tell data p0 E 0 m (bodyD E gram ev n e m) := by
  have hvars : ∀ f, Told data p0 false 0 0 m (m.vars f) := fun f => told_refl (m := m) hm
  cases e with
  | action a e => exact absurd rfl (hne a e)
  | andCode c =>
    simp only [bodyD]
    have h1 := told_cloned (data := data) hE hm
    have h2 : Tell data p0 E 0 (m.cloned E) (Debug.lift (m.cloned E) (runCode c (m.cloned E).s)) := by
      refine lift_tell (by rw [cloned_s]; exact hc) ?_
      intro t ht
      have hcs : (m.cloned E).s.pt = m.s.pt := by rw [cloned_s]
      cases c <;> simp only [runCode] at ht <;> rcases ht with ⟨v, ht⟩ | ht | ⟨x, ht⟩ <;> cases ht <;>
        exact ⟨by rw [hcs]; exact hm, rfl⟩
    have h3 := tell_trans h1 h2
    cases hr : Debug.lift (m.cloned E) (runCode c (m.cloned E).s) with
    | timeout => trivial
    | panic x t => rw [hr] at h3; exact h3
    | ok v t =>
      rw [hr] at h3
      exact ⟨told_trans h3.1 (told_restoreState hE _ h3.1.2.1), by rw [restoreState_cnt]; exact h3.2⟩
    | fail t =>
      rw [hr] at h3
      exact ⟨told_trans h3.1 (told_restoreState hE _ h3.1.2.1), by rw [restoreState_cnt]; exact h3.2⟩
  | any =>
    refine lift_tell hc ?_
    intro t ht
    simp only [step] at ht
    split at ht
    · rcases ht with ⟨v, ht⟩ | ht | ⟨x, ht⟩ <;> cases ht
      exact ⟨by rw [failAt_pt]; exact hm, failAt_count _ _ _ _⟩
    · rename_i hne
      rcases ht with ⟨v, ht⟩ | ht | ⟨x, ht⟩ <;> cases ht
      exact ⟨by rw [failAt_pt]; exact read_adv _ hm (Pt.rest_ne_of_not_atEof hne), by rw [failAt_count, read_count]⟩
  | cls val inv chars ranges =>
    refine lift_tell hc ?_
    intro t ht
    simp only [step] at ht
    split at ht
    · rcases ht with ⟨v, ht⟩ | ht | ⟨x, ht⟩ <;> cases ht
      exact ⟨by rw [failAt_pt]; exact hm, failAt_count _ _ _ _⟩
    · rename_i hne
      split at ht
      · rcases ht with ⟨v, ht⟩ | ht | ⟨x, ht⟩ <;> cases ht
        exact ⟨by rw [failAt_pt]; exact read_adv _ hm (Pt.rest_ne_of_not_atEof hne), by rw [failAt_count, read_count]⟩
      · rcases ht with ⟨v, ht⟩ | ht | ⟨x, ht⟩ <;> cases ht
        exact ⟨by rw [failAt_pt]; exact hm, failAt_count _ _ _ _⟩
  | lit v => exact litLoopD_tell hE (litWant v) m.s.pt hm v m hm hc
  | state c =>
    have hs : ∃ d, runStateD E c m = { m with dict := d } := by
      cases c with
      | initState =>
        simp only [runStateD]
        cases m.dict warnKey with
        | none => exact ⟨_, rfl⟩
        | some x => exact ⟨m.dict, rfl⟩
      | warnComment =>
        simp only [runStateD]
        split
        · exact ⟨_, rfl⟩
        · exact ⟨m.dict, rfl⟩
    obtain ⟨d, hd⟩ := hs
    simp only [bodyD, hd]
    exact ⟨told_refl (m := m) hm, hc⟩
  | choice es => exact choiceLoopD_tell hE h es m hm hc
  | labeled l e =>
    simp only [bodyD]
    have h1 := tell_trans (hvars []) (h e (m.vars []) hm)
    cases hr : ev e (m.vars []) <;> rw [hr] at h1 <;> exact h1
  | not e =>
    simp only [bodyD, cloned_s]
    have h1 : Told data p0 false 0 0 m { m.cloned E with s := { m.s with frame := [], mfInv := !m.s.mfInv } } := by
      have := told_cloned (data := data) hE hm
      obtain ⟨a1, a2, a3, a4, a5, a6, a7⟩ := this
      exact ⟨a1, hm, a3, a4, a5, a6, by rw [cloned_s] at a7; exact a7⟩
    have h2 := tell_trans h1 (h e { m.cloned E with s := { m.s with frame := [], mfInv := !m.s.mfInv } } hm)
    cases hr : ev e { m.cloned E with s := { m.s with frame := [], mfInv := !m.s.mfInv } } with
    | timeout => trivial
    | panic x t => rw [hr] at h2; exact h2
    | ok v t =>
      rw [hr] at h2
      refine ⟨told_back hE (t := { t with s := { t.s with frame := m.s.frame, mfInv := m.s.mfInv } })
        (m.dict.copy E.clone) h2.1 hm, ?_⟩
      rw [restore_cnt, restoreState_cnt]; exact h2.2
    | fail t =>
      rw [hr] at h2
      refine ⟨told_back hE (t := { t with s := { t.s with frame := m.s.frame, mfInv := m.s.mfInv } })
        (m.dict.copy E.clone) h2.1 hm, ?_⟩
      rw [restore_cnt, restoreState_cnt]; exact h2.2
  | plus e =>
    simp only [bodyD]
    have h1 := tell_trans (hvars []) (h e (m.vars []) hm)
    cases hr : ev e (m.vars []) with
    | ok v t =>
      rw [hr] at h1
      have h2 : Told data p0 false 0 0 m (t.vars m.s.frame) := h1.1
      exact tell_trans h2 (starLoopD_tell (h e) n [v] _ h2.2.1)
    | fail t => rw [hr] at h1; exact h1
    | panic x t => rw [hr] at h1; exact h1
    | timeout => trivial
  | ref r => exact evalRuleD_tell hE h0 h ht r m hm
  | seq es =>
    have h1 := told_cloned (data := data) hE hm
    exact tell_trans h1 (seqLoopD_tell hE h m.s.pt hm _ es [] (m.cloned E) h1.2.1 (by rw [cloned_s]; exact hc))
  | star e => exact starLoopD_tell (h e) n [] m hm
  | opt e =>
    simp only [bodyD]
    have h1 := tell_trans (hvars []) (h e (m.vars []) hm)
    cases hr : ev e (m.vars []) <;> rw [hr] at h1 <;> exact h1

theorem stepD_tell (hE : E.dbg = true) (h0 : p0.offset = 0 ∧ p0.rest = data) {ev : Ex → DSt υ → DOut υ}
    (h : EvTell data p0 E ev) (ht : Truth data p0 ev) (n : Nat) (e : Ex) (m : DSt υ)
    (hm : Adv false p0 m.s.pt) (hc : tooMany E.o m.s.cnt = false) : Tell data p0 E 1 m (stepD E gram ev n e m) := by
  have hx : (if isExprName (exName e) then 1 else 0) = 1 := by rw [isExprName_exName]; rfl
  by_cases hne : ∀ a e', e ≠ .action a e'
  · have h1 := block_tell hE (f := bodyD E gram ev n e) hm (notRule_exName e)
      (bodyD_tell hE h0 h ht n e hne _ (by rw [enter_pt]; exact hm) (by rw [enter_s]; exact hc))
    rw [hx] at h1
    exact h1
  · have hex : ∃ a e', e = .action a e' := by
      false_or_by_contra
      rename_i hh
      exact hne fun a e' he => hh ⟨a, e', he⟩
    obtain ⟨a, e', rfl⟩ := hex
    clear hne
    have hx1 : (if isExprName b!"parseActionExpr" then 1 else 0) = 1 := rfl
    simp only [stepD, block, bodyD]
    have hen : exName (.action a e') = b!"parseActionExpr" := rfl
    rw [hen]
    have hmp : Adv false p0 (m.enter E b!"parseActionExpr").s.pt := by rw [enter_pt]; exact hm
    have h1 := h e' (m.enter E b!"parseActionExpr") hmp
    have hle := (ht e' (m.enter E b!"parseActionExpr") hmp).1
    cases hr : ev e' (m.enter E b!"parseActionExpr") with
    | timeout => trivial
    | panic x t =>
      rw [hr] at h1
      have h2 := told_plain hE hm h1 (.abort rfl)
      rw [hx1] at h2
      show Told data p0 true 1 (if tooMany E.o (t.leave E b!"parseActionExpr").s.cnt then 1 else 0) m _
      rw [leave_s]
      exact h2
    | fail t =>
      rw [hr] at h1
      have h2 := told_plain hE hm h1.1 (.other (by decide))
      rw [hx1] at h2
      exact ⟨h2, by rw [leave_s]; exact h1.2⟩
    | ok v t =>
      rw [hr] at h1
      have hq := (hle v t hr).1
      rw [enter_pt] at hq
      simp only [enter_pt]
      -- the state in which the action runs
      generalize hu : ({ t with s := { t.s with curPos := m.s.pt.pos, curText := sliceFrom m.s.pt t.s.pt } } : DSt υ) = u
      have hup : u.s.pt = t.s.pt := by rw [← hu]
      have huc : u.s.cnt = t.s.cnt := by rw [← hu]
      have h2 : Told data p0 false 0 0 (m.enter E b!"parseActionExpr") u := by rw [← hu]; exact h1.1
      have h3 : Told data p0 false 0 0 (m.enter E b!"parseActionExpr") (u.cloned E) := told_trans h2 (told_cloned hE h2.2.1)
      have hfin : ∀ w : DSt υ, w.s.pt = t.s.pt → w.s.cnt = t.s.cnt →
          Told data p0 false 0 0 (m.enter E b!"parseActionExpr") w →
          Told data p0 false 1 0 m ((w.matched E m.s.pt).leave E b!"parseActionExpr") ∧
            tooMany E.o ((w.matched E m.s.pt).leave E b!"parseActionExpr").s.cnt = false := by
        intro w hwp hwc hw
        have h4 := told_matched hE h0 hm hw (.action (by rw [hwp]; exact Int.ofNat_le.2 hq)
          (by rw [hwp]; exact Int.ofNat_le.2 (adv_data h0 h1.1.2.1).2))
        rw [hx1] at h4
        refine ⟨h4, ?_⟩
        rw [leave_s, matched_on hE]
        show tooMany E.o w.s.cnt = false
        rw [hwc]; exact h1.2
      cases hra : runAct E.o a t.s.frame m.s.pt.pos (sliceFrom m.s.pt t.s.pt) (u.cloned E).dict.warns with
      | val v =>
        exact hfin _ (by rw [restoreState_pt, cloned_s, hup]) (by rw [restoreState_cnt, cloned_s, huc])
          (told_trans h3 (told_restoreState hE _ h3.2.1))
      | err v x =>
        have h4 : Told data p0 false 0 0 (m.enter E b!"parseActionExpr")
            { u.cloned E with s := ({ t.s with curPos := m.s.pt.pos, curText := sliceFrom m.s.pt t.s.pt } : St).addErrAt x m.s.pt.pos } := by
          obtain ⟨a1, a2, a3, a4, a5, a6, a7⟩ := h3
          rw [cloned_s] at a2 a7
          exact ⟨a1, by rw [hup] at a2; exact a2, a3, a4, a5, a6, by rw [huc] at a7; exact a7⟩
        exact hfin _ (by rw [restoreState_pt]; rfl) (by rw [restoreState_cnt]; rfl)
          (told_trans h4 (told_restoreState hE _ h4.2.1))
      | panic x =>
        obtain ⟨b1, b2, b3, b4, b5, b6, b7⟩ := h3
        have h5 := told_plain hE (st := true) hm ⟨b1, b2, b3, b4, nested_stop b5 true, b6, b7⟩ (.abort rfl)
        rw [hx1] at h5
        show Told data p0 true 1 (if tooMany E.o ((u.cloned E).leave E b!"parseActionExpr").s.cnt then 1 else 0) m _
        rw [leave_s, cloned_s, huc, h1.2]
        exact h5

theorem eval_truth (h0 : p0.offset = 0 ∧ p0.rest = data) (n : Nat) : Truth data p0 (evalD E gram n) := by
  intro e m hm
  have h1 := evalD_proj (E := E) n e m
  have hat : At data m.st := by
    show m.s.pt.offset + m.s.pt.rest.length = data.length
    have := adv_data h0 hm
    rw [this.1, List.length_drop]
    omega
  have h2 := eval_tried (o := E.o) (data := data) n e m.st hat
  have h3 := eval_good E.o gram n e m.st
  rw [← h1] at h2 h3
  constructor
  · intro v t hr
    rw [hr] at h2 h3
    obtain ⟨l, hl, _⟩ := h2
    exact ⟨h3.2.1.offset_le.1, _, l, hl⟩
  · intro t hr
    rw [hr] at h2 h3
    obtain ⟨l, hl, _⟩ := h2
    exact ⟨h3.2.1, _, l, hl⟩

theorem evalD_tell (hE : E.dbg = true) (h0 : p0.offset = 0 ∧ p0.rest = data) (n : Nat) :
    EvTell data p0 E (evalD E gram n) := by
  induction n with
  | zero => intro e m hm; trivial
  | succ n ih =>
    intro e m hm
    simp only [evalD]
    cases hc : tooMany E.o (m.s.cnt + 1) with
    | true =>
      rw [if_pos rfl]
      show Told data p0 true 0 (if tooMany E.o (m.s.cnt + 1) then 1 else 0) m _
      rw [hc]
      exact ⟨rfl, hm, [], by simp, .nil, by simp, rfl⟩
    | false =>
      rw [if_neg (by decide)]
      have h1 := stepD_tell hE h0 ih (eval_truth h0 n) n e { m with s := { m.s with cnt := m.s.cnt + 1 } } hm hc
      have conv : ∀ (st : Bool) (b : Nat) (t : DSt υ),
          Told data p0 st 1 b { m with s := { m.s with cnt := m.s.cnt + 1 } } t → Told data p0 st 0 b m t := by
        intro st b t ⟨a1, a2, a3, a4, a5, a6, a7⟩
        refine ⟨a1, a2, a3, a4, a5, a6, ?_⟩
        have a7' : t.s.cnt + 1 = m.s.cnt + 1 + exprCount a3 + b := a7
        omega
      cases hr : stepD E gram (evalD E gram n) n e { m with s := { m.s with cnt := m.s.cnt + 1 } } with
      | timeout => trivial
      | ok v t => rw [hr] at h1; exact ⟨conv _ _ _ h1.1, h1.2⟩
      | fail t => rw [hr] at h1; exact ⟨conv _ _ _ h1.1, h1.2⟩
      | panic x t => rw [hr] at h1; exact conv _ _ _ h1

theorem told_then {st : Bool} {a b : Nat} {m t u : DSt υ} (h1 : Told data p0 st a b m t) (h2 : Told data p0 false 0 0 t u) :
    Told data p0 st a b m u := by
  obtain ⟨d1, _, n1, o1, w1, s1, c1⟩ := h1
  obtain ⟨d2, p2, n2, o2, w2, s2, c2⟩ := h2
  refine ⟨d2.trans d1, p2, n1 ++ n2, by rw [o2, o1, List.append_assoc], ?_, ?_, ?_⟩
  · rw [d1] at w2
    exact nested_append w1 (nested_stop w2 st)
  · intro l hl
    rcases List.mem_append.1 hl with h | h
    · exact s1 l h
    · exact s2 l h
  · rw [exprCount_append]; omega

/-- The lines of the panic handler. -/
theorem told_handler (hE : E.dbg = true) {m : DSt υ} (hm : Adv false p0 m.s.pt) :
    Told data p0 false 0 0 m ((m.enter E b!"panic handler").leave E b!"panic handler") := by
  have h1 := told_plain (data := data) (st := false) (name := b!"panic handler") hE hm
    (told_refl (by rw [enter_pt]; exact hm)) (.other (by decide))
  exact h1

end
end Verif
