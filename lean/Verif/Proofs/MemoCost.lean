import Verif.Proofs.Memo
import Mathlib.Data.List.Perm.Subperm
/-
The parser with `Memoize(true)` evaluates no expression twice at the same place.
-/
namespace Verif.Memo
open Verif Spec

/-- Is it the key of a node? -/
def Key.isNode : Key → Bool
  | .rule _ => false
  | .node _ _ => true

/-- The nodes in the table. -/
def keysOf (tab : Table) : List (Key × Nat) := (tab.map (·.1)).filter fun x => x.1.isNode

/-- A node of the grammar at a place of the input, with the fuel it needs there. -/
def Real (data : Bytes) (N : Nat) (x : Key × Nat) : Prop :=
  ∃ r p e, x.1 = .node r p ∧ nodeAt x.1 = some e ∧ x.2 ≤ data.length ∧
    60 * (data.length - x.2) + e.need ruleNullable ruleNeed ≤ N

/-- New entries: as many as expressions evaluated, all different. -/
def Grow (data : Bytes) (old : List (Key × Nat)) (c N : Nat) (ks : List (Key × Nat)) (c' : Nat) : Prop :=
  ∃ new, ks = new ++ old ∧ c' = c + new.length ∧ ks.Nodup ∧ ∀ x ∈ new, Real data N x

/-- What an outcome satisfies. -/
def PostC (data : Bytes) (old : List (Key × Nat)) (c N : Nat) : MOut → Prop
  | .ok _ m => Grow data old c N (keysOf m.memo) m.s.cnt
  | .fail m => Grow data old c N (keysOf m.memo) m.s.cnt
  | .panic _ m => ∃ ks, Grow data old c N ks m.s.cnt
  | .timeout => True

variable {data : Bytes} {ev : Key → Ex → MSt → MOut} {N : Nat}

theorem Grow.refl {old : List (Key × Nat)} {c : Nat} (h : old.Nodup) : Grow data old c N old c := ⟨[], rfl, rfl, h, by simp⟩

theorem Grow.trans {o1 o2 o3 : List (Key × Nat)} {c1 c2 c3 : Nat} (h1 : Grow data o1 c1 N o2 c2) (h2 : Grow data o2 c2 N o3 c3) :
    Grow data o1 c1 N o3 c3 := by
  obtain ⟨n1, rfl, rfl, a1, b1⟩ := h1
  obtain ⟨n2, rfl, rfl, a2, b2⟩ := h2
  refine ⟨n2 ++ n1, by simp, by simp; omega, a2, ?_⟩
  intro x hx
  rcases List.mem_append.1 hx with hx | hx
  · exact b2 x hx
  · exact b1 x hx

theorem Grow.nodup {o1 o2 : List (Key × Nat)} {c1 c2 : Nat} (h : Grow data o1 c1 N o2 c2) : o2.Nodup := by
  obtain ⟨_, _, _, h, _⟩ := h; exact h

theorem Grow.mono {o1 o2 : List (Key × Nat)} {c1 c2 N' : Nat} (h : Grow data o1 c1 N o2 c2) (hn : N ≤ N') : Grow data o1 c1 N' o2 c2 := by
  obtain ⟨n1, h1, h2, h3, h4⟩ := h
  refine ⟨n1, h1, h2, h3, fun x hx => ?_⟩
  obtain ⟨r, p, e, a, b, c, d⟩ := h4 x hx
  exact ⟨r, p, e, a, b, c, by omega⟩

theorem PostC.trans {o1 o2 : List (Key × Nat)} {c1 c2 : Nat} {r : MOut} (h1 : Grow data o1 c1 N o2 c2) (h2 : PostC data o2 c2 N r) :
    PostC data o1 c1 N r := by
  cases r with
  | ok v m => exact h1.trans h2
  | fail m => exact h1.trans h2
  | panic x m => obtain ⟨ks, h2⟩ := h2; exact ⟨ks, h1.trans h2⟩
  | timeout => trivial

theorem get_none {m : MSt} {k : Key} (h : m.get k = none) : (k, m.s.pt.offset) ∉ keysOf m.memo := by
  unfold MSt.get at h
  rw [Option.map_eq_none_iff] at h
  intro hm
  unfold keysOf at hm
  rw [List.mem_filter, List.mem_map] at hm
  obtain ⟨⟨x, hx, he⟩, -⟩ := hm
  have := List.find?_eq_none.1 h x hx
  rw [he] at this
  simp at this

/-- The hypothesis about sub-expressions. -/
def EvC (data : Bytes) (ev : Key → Ex → MSt → MOut) : Prop :=
  ∀ k e m N, k.isNode = true → nodeAt k = some e → Inv data m → e.wf ruleNullable ruleNeed 60 = true →
    (keysOf m.memo).Nodup → 60 * m.s.pt.rest.length + e.need ruleNullable ruleNeed ≤ N → PostC data (keysOf m.memo) m.s.cnt N (ev k e m)

theorem sub_isNode (k : Key) (i : Nat) : (k.sub i).isNode = true := by cases k <;> rfl

theorem seqLoopM_postC (hg : EvG data ev) (hc : EvC data ev) {k : Key} (s0 : St) (es : List Ex) {i : Nat} (hs : Subs k i es)
    (acc : List Val) (m : MSt) (hi : Inv data m) (hw : wfAll ruleNullable ruleNeed 60 es = true) (hd : (keysOf m.memo).Nodup)
    (h : 60 * m.s.pt.rest.length + needSeq ruleNullable ruleNeed es ≤ N) :
    PostC data (keysOf m.memo) m.s.cnt N (seqLoopM ev k s0 i es acc m) := by
  induction es generalizing i acc m with
  | nil => exact Grow.refl hd
  | cons e es ih =>
    simp only [wfAll, Bool.and_eq_true] at hw
    simp only [needSeq] at h
    have hle : 60 * m.s.pt.rest.length + e.need ruleNullable ruleNeed ≤ N := by
      split at h
      · have := Nat.le_max_left (e.need ruleNullable ruleNeed) (needSeq ruleNullable ruleNeed es); omega
      · exact h
    have h1 := hc _ e m N (sub_isNode k i) hs.head hi hw.1 hd hle
    have h2 := hg _ e m hs.head hi
    simp only [seqLoopM]
    cases hr : ev (k.sub i) e m with
    | timeout => trivial
    | ok v m' =>
      rw [hr] at h1 h2
      obtain ⟨h3, h4, h5⟩ := h2
      refine PostC.trans h1 (ih hs.tail _ m' h3 hw.2 h1.nodup ?_)
      have hl := hi.rest_le h3 h4
      by_cases hlt : m.s.pt.offset < m'.s.pt.offset
      · have := hi.rest_lt h3 hlt
        have hn := wfAll_needSeq hw.2
        have := Ex.need_pos (nr := ruleNullable) (c := ruleNeed) e
        omega
      · split at h
        · have := Nat.le_max_right (e.need ruleNullable ruleNeed) (needSeq ruleNullable ruleNeed es); omega
        · rename_i hnn
          exact absurd (h5 (by simp [hnn])) hlt
    | fail m' => rw [hr] at h1; exact h1
    | panic x m' => rw [hr] at h1; exact h1

theorem choiceLoopM_postC (hg : EvG data ev) (hc : EvC data ev) {k : Key} (es : List Ex) {i : Nat} (hs : Subs k i es)
    (m : MSt) (hi : Inv data m) (hw : wfAll ruleNullable ruleNeed 60 es = true) (hd : (keysOf m.memo).Nodup)
    (h : 60 * m.s.pt.rest.length + needMax ruleNullable ruleNeed es ≤ N) :
    PostC data (keysOf m.memo) m.s.cnt N (choiceLoopM ev k i es m) := by
  induction es generalizing i m with
  | nil => exact Grow.refl hd
  | cons e es ih =>
    simp only [wfAll, Bool.and_eq_true] at hw
    simp only [needMax] at h
    have hm1 := Nat.le_max_left (e.need ruleNullable ruleNeed) (needMax ruleNullable ruleNeed es)
    have hm2 := Nat.le_max_right (e.need ruleNullable ruleNeed) (needMax ruleNullable ruleNeed es)
    have hi' : Inv data { m with s := { m.s with frame := [] } } := hi.of rfl rfl rfl
    have h1 := hc _ e { m with s := { m.s with frame := [] } } N (sub_isNode k i) hs.head hi' hw.1 hd (by simp only; omega)
    have h2 := hg _ e { m with s := { m.s with frame := [] } } hs.head hi'
    simp only [choiceLoopM]
    cases hr : ev (k.sub i) e { m with s := { m.s with frame := [] } } with
    | timeout => trivial
    | ok v t => rw [hr] at h1; exact h1
    | fail t =>
      rw [hr] at h1 h2
      have h3 : t.s.pt.rest.length ≤ m.s.pt.rest.length := hi'.rest_le h2.1 (Nat.le_of_eq h2.2.symm)
      refine PostC.trans (o2 := keysOf t.memo) (c2 := t.s.cnt) h1 ?_
      exact ih hs.tail { t with s := { t.s with frame := m.s.frame, warns := m.s.warns } } (h2.1.of rfl rfl rfl) hw.2 h1.nodup
        (by simp only; omega)
    | panic x t => rw [hr] at h1; exact h1

theorem starLoopM_postC {f : MSt → MOut} {b : Bool} (hg : ∀ m, Inv data m → PostG data m.s.pt.offset b (f m)) (a : Nat)
    (hc : ∀ m, Inv data m → (keysOf m.memo).Nodup → 60 * m.s.pt.rest.length + a ≤ N → PostC data (keysOf m.memo) m.s.cnt N (f m))
    (l : Nat) (acc : List Val) (m : MSt) (hi : Inv data m) (hd : (keysOf m.memo).Nodup) (h : 60 * m.s.pt.rest.length + a ≤ N) :
    PostC data (keysOf m.memo) m.s.cnt N (starLoopM f l acc m) := by
  induction l generalizing acc m with
  | zero => trivial
  | succ l ih =>
    have hi' : Inv data { m with s := { m.s with frame := [] } } := hi.of rfl rfl rfl
    have h1 := hc { m with s := { m.s with frame := [] } } hi' hd h
    have h2 := hg { m with s := { m.s with frame := [] } } hi'
    simp only [starLoopM]
    cases hr : f { m with s := { m.s with frame := [] } } with
    | timeout => trivial
    | ok v t =>
      rw [hr] at h1 h2
      have h3 : t.s.pt.rest.length ≤ m.s.pt.rest.length := hi'.rest_le h2.1 h2.2.1
      refine PostC.trans (o2 := keysOf t.memo) (c2 := t.s.cnt) h1 ?_
      exact ih _ { t with s := { t.s with frame := m.s.frame } } (h2.1.of rfl rfl rfl) h1.nodup (by simp only; omega)
    | fail t => rw [hr] at h1; exact h1
    | panic x t => rw [hr] at h1; exact h1

/-- The count is that of the start. -/
def SameCnt (c : Nat) : Out → Prop
  | .ok _ s => s.cnt = c
  | .fail s => s.cnt = c
  | .panic _ s => s.cnt = c
  | .timeout => True

theorem litLoop_cnt' (o : Opts) (want : Bytes) (start : Pt) (v : Bytes) (s : St) : SameCnt s.cnt (litLoop o want start v s) := by
  induction v generalizing s with
  | nil => exact failAt_cnt ..
  | cons b v ih =>
    simp only [litLoop]
    split
    · have := ih (s.read o); rw [read_cnt] at this; exact this
    · exact failAt_cnt ..

theorem basic_cnt (o : Opts) (n : Nat) (e : Ex) (s : St) (he : match e with | .any | .cls .. | .lit .. | .state _ => True | _ => False) :
    SameCnt s.cnt (step o gram (fun _ _ => .timeout) n e s) := by
  cases e with
  | any =>
    simp only [step]
    split
    · exact failAt_cnt ..
    · simp only [SameCnt]; rw [failAt_cnt, read_cnt]
  | cls val inv chars ranges =>
    simp only [step]
    split
    · exact failAt_cnt ..
    · split
      · simp only [SameCnt]; rw [failAt_cnt, read_cnt]
      · exact failAt_cnt ..
  | lit v => exact litLoop_cnt' ..
  | state c =>
    cases c with
    | initState => rfl
    | warnComment => simp only [step, SameCnt, runState]; split <;> rfl
  | _ => exact absurd he id

theorem same_postC {m : MSt} {r : Out} (hd : (keysOf m.memo).Nodup) (h : SameCnt m.s.cnt r) :
    PostC data (keysOf m.memo) m.s.cnt N (lift m.memo r) := by
  cases r with
  | ok v s => simp only [lift, PostC]; rw [show s.cnt = _ from h]; exact Grow.refl hd
  | fail s => simp only [lift, PostC]; rw [show s.cnt = _ from h]; exact Grow.refl hd
  | panic x s => exact ⟨keysOf m.memo, by rw [show s.cnt = _ from h]; exact Grow.refl hd⟩
  | timeout => trivial

theorem store_rule_postC {old : List (Key × Nat)} {c : Nat} {r : Rule} {p : Pt} {x : MOut} (h : PostC data old c N x) :
    PostC data old c N (store (.rule r) p x) := by
  cases x <;> exact h

theorem hit_postC {m : MSt} {t : Tuple} (hd : (keysOf m.memo).Nodup) : PostC data (keysOf m.memo) m.s.cnt N (hit t m) := by
  unfold hit
  cases t.val <;> exact Grow.refl hd

theorem evalRuleM_postC (hc : EvC data ev) (r : Rule) (m : MSt) (hi : Inv data m) (hd : (keysOf m.memo).Nodup)
    (h : 60 * m.s.pt.rest.length + ruleNeed r ≤ N) : PostC data (keysOf m.memo) m.s.cnt N (evalRuleM ev gram r m) := by
  unfold evalRuleM
  cases hg : m.get (.rule r) with
  | some t => exact hit_postC hd
  | none =>
    refine store_rule_postC ?_
    have := gram_need r
    have h1 := hc (.node r []) (gram r) { m with s := { m.s with rstack := r :: m.s.rstack, frame := [] } } N rfl rfl (hi.of rfl rfl rfl)
      (gram_wf r) hd (by simp only; omega)
    cases hr : ev (.node r []) (gram r) { m with s := { m.s with rstack := r :: m.s.rstack, frame := [] } } with
    | timeout => trivial
    | _ => rw [hr] at h1; exact h1

theorem stepM_postC {o : Opts} (hg : EvG data ev) (hc : EvC data ev) (n : Nat) (k : Key) (e : Ex) (m : MSt) (hk : nodeAt k = some e)
    (hi : Inv data m) (he : e.wf ruleNullable ruleNeed 60 = true) (hd : (keysOf m.memo).Nodup)
    (h : 60 * m.s.pt.rest.length + e.need ruleNullable ruleNeed ≤ N + 1) :
    PostC data (keysOf m.memo) m.s.cnt N (stepM o gram ev n k e m) := by
  have hi0 : Inv data { m with s := { m.s with frame := [] } } := hi.of rfl rfl rfl
  cases e with
  | action a e =>
    simp only [Ex.wf, Ex.need, Bool.and_eq_true, decide_eq_true_eq] at h he
    have h1 := hc (k.sub 0) e m N (sub_isNode k 0) (nodeAt_sub hk rfl) hi he.1 hd (by omega)
    simp only [stepM]
    cases hr : ev (k.sub 0) e m with
    | timeout => trivial
    | ok v t =>
      rw [hr] at h1
      simp only
      split
      · exact h1
      · exact h1
      · exact ⟨_, h1⟩
    | _ => rw [hr] at h1; exact h1
  | andCode c => exact same_postC hd (by cases c <;> rfl)
  | any => exact same_postC hd (basic_cnt o n .any m.s trivial)
  | cls val inv chars ranges => exact same_postC hd (basic_cnt o n (.cls val inv chars ranges) m.s trivial)
  | lit v => exact same_postC hd (basic_cnt o n (.lit v) m.s trivial)
  | state c => exact same_postC hd (basic_cnt o n (.state c) m.s trivial)
  | choice alts =>
    simp only [Ex.wf, Ex.need, Bool.and_eq_true, decide_eq_true_eq] at h he
    exact choiceLoopM_postC hg hc alts (subs_of fun i e h => nodeAt_sub hk h) m hi he.1 hd (by omega)
  | labeled l e =>
    simp only [Ex.wf, Ex.need, Bool.and_eq_true, decide_eq_true_eq] at h he
    have h1 := hc (k.sub 0) e { m with s := { m.s with frame := [] } } N (sub_isNode k 0) (nodeAt_sub hk rfl) hi0 he.1 hd (by simp only; omega)
    simp only [stepM]
    cases hr : ev (k.sub 0) e { m with s := { m.s with frame := [] } } with
    | timeout => trivial
    | _ => rw [hr] at h1; exact h1
  | not e =>
    simp only [Ex.wf, Ex.need, Bool.and_eq_true, decide_eq_true_eq] at h he
    have h1 := hc (k.sub 0) e { m with s := { m.s with frame := [], mfInv := !m.s.mfInv } } N (sub_isNode k 0) (nodeAt_sub hk rfl)
      (hi.of rfl rfl rfl) he.1 hd (by simp only; omega)
    simp only [stepM]
    cases hr : ev (k.sub 0) e { m with s := { m.s with frame := [], mfInv := !m.s.mfInv } } with
    | timeout => trivial
    | _ => rw [hr] at h1; exact h1
  | plus e =>
    simp only [Ex.wf, Ex.need, Bool.and_eq_true, decide_eq_true_eq] at h he
    have h1 := hc (k.sub 0) e { m with s := { m.s with frame := [] } } N (sub_isNode k 0) (nodeAt_sub hk rfl) hi0 he.1.1 hd (by simp only; omega)
    have h2 := hg (k.sub 0) e { m with s := { m.s with frame := [] } } (nodeAt_sub hk rfl) hi0
    simp only [stepM]
    cases hr : ev (k.sub 0) e { m with s := { m.s with frame := [] } } with
    | timeout => trivial
    | ok v t =>
      rw [hr] at h1 h2
      have hl : t.s.pt.rest.length ≤ m.s.pt.rest.length := hi0.rest_le h2.1 h2.2.1
      refine PostC.trans (o2 := keysOf t.memo) (c2 := t.s.cnt) h1 ?_
      exact starLoopM_postC (f := ev (k.sub 0) e) (fun m hm => hg (k.sub 0) e m (nodeAt_sub hk rfl) hm) (e.need ruleNullable ruleNeed)
        (fun m hm hd hs => hc (k.sub 0) e m N (sub_isNode k 0) (nodeAt_sub hk rfl) hm he.1.1 hd hs) n [v]
        { t with s := { t.s with frame := m.s.frame } } (h2.1.of rfl rfl rfl) h1.nodup (by simp only; omega)
    | _ => rw [hr] at h1; exact h1
  | ref r =>
    simp only [Ex.wf, Ex.need, Bool.and_eq_true, decide_eq_true_eq] at h he
    exact evalRuleM_postC hc r m hi hd (by omega)
  | seq es =>
    simp only [Ex.wf, Ex.need, Bool.and_eq_true, decide_eq_true_eq] at h he
    exact seqLoopM_postC hg hc m.s es (subs_of fun i e h => nodeAt_sub hk h) [] m hi he.1 hd (by omega)
  | star e =>
    simp only [Ex.wf, Ex.need, Bool.and_eq_true, decide_eq_true_eq] at h he
    exact starLoopM_postC (f := ev (k.sub 0) e) (fun m hm => hg (k.sub 0) e m (nodeAt_sub hk rfl) hm) (e.need ruleNullable ruleNeed)
      (fun m hm hd hs => hc (k.sub 0) e m N (sub_isNode k 0) (nodeAt_sub hk rfl) hm he.1.1 hd hs) n [] m hi hd (by omega)
  | opt e =>
    simp only [Ex.wf, Ex.need, Bool.and_eq_true, decide_eq_true_eq] at h he
    have h1 := hc (k.sub 0) e { m with s := { m.s with frame := [] } } N (sub_isNode k 0) (nodeAt_sub hk rfl) hi0 he.1 hd (by simp only; omega)
    simp only [stepM]
    cases hr : ev (k.sub 0) e { m with s := { m.s with frame := [] } } with
    | timeout => trivial
    | _ => rw [hr] at h1; exact h1

/-- The node itself is new after its sub-expressions. -/
theorem Grow.self {old ks : List (Key × Nat)} {c c' M : Nat} {x : Key × Nat} {e : Ex} (h : Grow data old (c + 1) M ks c')
    (hx : x ∉ old) (he : nodeAt x.1 = some e) (hM : M < 60 * (data.length - x.2) + e.need ruleNullable ruleNeed)
    (hr : Real data N x) (hN : M ≤ N) : Grow data old c N (x :: ks) c' := by
  obtain ⟨new, rfl, rfl, h3, h4⟩ := h
  refine ⟨x :: new, rfl, by simp; omega, ?_, ?_⟩
  · refine List.nodup_cons.2 ⟨?_, h3⟩
    intro hm
    rcases List.mem_append.1 hm with hm | hm
    · obtain ⟨r, p, e', h5, h6, h7, h8⟩ := h4 x hm
      rw [he] at h6; cases h6
      omega
    · exact hx hm
  · intro y hy
    rcases List.mem_cons.1 hy with rfl | hy
    · exact hr
    · obtain ⟨r, p, e', h5, h6, h7, h8⟩ := h4 y hy
      exact ⟨r, p, e', h5, h6, h7, by omega⟩

theorem evalM_postC (o : Opts) (data : Bytes) (n : Nat) : EvC data (evalM o gram n) := by
  induction n with
  | zero => intro k e m N _ _ _ _ _ _; trivial
  | succ n ih =>
    intro k e m N hkn hk hi he hd h
    simp only [evalM]
    cases hg : m.get k with
    | some t => exact hit_postC hd
    | none =>
      have hx := get_none hg
      have hneed := Ex.need_pos (nr := ruleNullable) (c := ruleNeed) e
      have hlen := hi.pt.length
      have hreal : Real data N (k, m.s.pt.offset) := by
        cases k with
        | rule r => cases hkn
        | node r p => exact ⟨r, p, e, rfl, hk, hi.pt.le, by simp only; rw [show data.length - m.s.pt.offset = m.s.pt.rest.length by omega]; exact h⟩
      have hM : 60 * m.s.pt.rest.length + e.need ruleNullable ruleNeed - 1 <
          60 * (data.length - (k, m.s.pt.offset).2) + e.need ruleNullable ruleNeed := by
        simp only; rw [show data.length - m.s.pt.offset = m.s.pt.rest.length by omega]; omega
      simp only
      split
      · refine ⟨(k, m.s.pt.offset) :: keysOf m.memo, ?_⟩
        exact Grow.self (Grow.refl (N := 60 * m.s.pt.rest.length + e.need ruleNullable ruleNeed - 1) hd) hx hk hM hreal (by omega)
      · have h1 := stepM_postC (o := o) (N := 60 * m.s.pt.rest.length + e.need ruleNullable ruleNeed - 1)
          (m := { m with s := { m.s with cnt := m.s.cnt + 1 } }) (evalM_postG o data n) ih n k e hk (hi.of rfl rfl rfl) he hd
          (by simp only; omega)
        cases hr : stepM o gram (evalM o gram n) n k e { m with s := { m.s with cnt := m.s.cnt + 1 } } with
        | timeout => trivial
        | ok v t =>
          rw [hr] at h1
          have h2 := Grow.self (N := N) h1 hx hk hM hreal (by omega)
          simp only [store, PostC, MSt.set, keysOf, List.map_cons, List.filter_cons, hkn, if_true]
          exact h2
        | fail t =>
          rw [hr] at h1
          have h2 := Grow.self (N := N) h1 hx hk hM hreal (by omega)
          simp only [store, PostC, MSt.set, keysOf, List.map_cons, List.filter_cons, hkn, if_true]
          exact h2
        | panic x t =>
          rw [hr] at h1
          obtain ⟨ks, h1⟩ := h1
          exact ⟨_, Grow.self (N := N) h1 hx hk hM hreal (by omega)⟩

/-! ### How many nodes there are -/

mutual
/-- The paths of the nodes of an expression. -/
def Ex.paths : Ex → List (List Nat)
  | .action _ e => [] :: (Ex.paths e).map (· ++ [0])
  | .labeled _ e => [] :: (Ex.paths e).map (· ++ [0])
  | .not e => [] :: (Ex.paths e).map (· ++ [0])
  | .plus e => [] :: (Ex.paths e).map (· ++ [0])
  | .star e => [] :: (Ex.paths e).map (· ++ [0])
  | .opt e => [] :: (Ex.paths e).map (· ++ [0])
  | .choice es => [] :: Ex.pathsL 0 es
  | .seq es => [] :: Ex.pathsL 0 es
  | _ => [[]]
/-- The same for a list. -/
def Ex.pathsL : Nat → List Ex → List (List Nat)
  | _, [] => []
  | i, e :: es => (Ex.paths e).map (· ++ [i]) ++ Ex.pathsL (i + 1) es
end

theorem nodeIn_snoc (e : Ex) (p : List Nat) (i : Nat) : nodeIn e (p ++ [i]) = (child e i).bind (nodeIn · p) := by
  induction p with
  | nil => simp [nodeIn]
  | cons j p ih =>
    simp only [List.cons_append, nodeIn, ih]
    cases child e i <;> simp [nodeIn]

theorem pathsL_mem {es : List Ex} {i j : Nat} {e : Ex} (h : es[j]? = some e) {q : List Nat} (hq : q ∈ Ex.paths e) :
    q ++ [i + j] ∈ Ex.pathsL i es := by
  induction es generalizing i j with
  | nil => simp at h
  | cons x es ih =>
    simp only [Ex.pathsL, List.mem_append, List.mem_map]
    cases j with
    | zero => simp only [List.getElem?_cons_zero, Option.some.injEq] at h; subst h; exact .inl ⟨q, hq, by simp⟩
    | succ j =>
      refine .inr ?_
      have := ih (i := i + 1) (j := j) (by simpa using h)
      rwa [show i + (j + 1) = i + 1 + j by omega]

theorem paths_nil (e : Ex) : [] ∈ Ex.paths e := by cases e <;> simp [Ex.paths]

theorem paths_mem {l : Nat} {e e' : Ex} {p : List Nat} (hl : p.length = l) (h : nodeIn e p = some e') : p ∈ Ex.paths e := by
  induction l generalizing e p with
  | zero => rw [List.length_eq_zero_iff.1 hl]; exact paths_nil e
  | succ l ih =>
    rcases List.eq_nil_or_concat p with rfl | ⟨q, i, rfl⟩
    · simp at hl
    · rw [List.concat_eq_append] at *
      rw [nodeIn_snoc] at h
      have hql : q.length = l := by simpa using hl
      cases hc : child e i with
      | none => rw [hc] at h; cases h
      | some x =>
        rw [hc] at h
        have hq := ih hql (show nodeIn x q = some e' from h)
        cases e with
        | choice es =>
          simp only [child] at hc
          have := pathsL_mem (i := 0) hc hq
          rw [Nat.zero_add] at this
          exact List.mem_cons_of_mem _ this
        | seq es =>
          simp only [child] at hc
          have := pathsL_mem (i := 0) hc hq
          rw [Nat.zero_add] at this
          exact List.mem_cons_of_mem _ this
        | _ =>
          cases i with
          | zero =>
            simp only [child, Option.some.injEq, reduceCtorEq] at hc <;>
              (subst hc; exact List.mem_cons_of_mem _ (List.mem_map.2 ⟨q, hq, rfl⟩))
          | succ i => simp [child] at hc

/-- All nodes at all places. -/
def places (data : Bytes) : List (Key × Nat) :=
  (Rule.all.flatMap fun r => (Ex.paths (gram r)).map (Key.node r)).flatMap fun k => (List.range (data.length + 1)).map (k, ·)

theorem real_mem {x : Key × Nat} (h : Real data N x) : x ∈ places data := by
  obtain ⟨r, p, e, h1, h2, h3, -⟩ := h
  obtain ⟨k, off⟩ := x
  simp only at h1 h2 h3
  subst h1
  refine List.mem_flatMap.2 ⟨.node r p, ?_, ?_⟩
  · refine List.mem_flatMap.2 ⟨r, ?_, List.mem_map.2 ⟨p, paths_mem rfl h2, rfl⟩⟩
    cases r <;> decide
  · exact List.mem_map.2 ⟨off, by simp; omega, rfl⟩

theorem places_length (data : Bytes) :
    (places data).length = (Rule.all.flatMap fun r => (Ex.paths (gram r)).map (Key.node r)).length * (data.length + 1) := by
  unfold places
  rw [List.length_flatMap]
  simp

theorem grow_le {c c' : Nat} {ks : List (Key × Nat)} (h : Grow data [] c N ks c') : c' ≤ c + (places data).length := by
  obtain ⟨new, rfl, rfl, h3, h4⟩ := h
  rw [List.append_nil] at h3
  have : new.Subperm (places data) := h3.subperm fun x hx => real_mem (h4 x hx)
  have := this.length_le
  omega

/-! ### The call -/

/-- The state in which the start rule is evaluated. -/
def start (o : Opts) (k : Nat) (data : Bytes) (ff : List FF) : MSt := ⟨{ St.start data ff with cnt := k }.firstRead o, []⟩

/-- The outcome of the start rule. -/
def out (o : Opts) (r : Rule) (k : Nat) (data : Bytes) (ff : List FF) : MOut :=
  evalRuleM (evalM o gram (parseFuel data)) gram r (start o k data ff)

theorem start_pt (o : Opts) (k : Nat) (data : Bytes) (ff : List FF) :
    (start o k data ff).s.pt.offset = 0 ∧ (start o k data ff).s.pt.rest = data := by
  unfold start
  rw [(firstRead_fields o _).1, Pt.moveTo_rest]
  refine ⟨?_, rfl⟩
  unfold Pt.moveTo; split <;> rfl

theorem start_inv (o : Opts) (k : Nat) (data : Bytes) (ff : List FF) : Inv data (start o k data ff) := by
  obtain ⟨h1, h2⟩ := start_pt o k data ff
  refine ⟨⟨by omega, by rw [h1, h2]; rfl⟩, ?_, fun x hx => absurd hx (by simp [start])⟩
  intro x hx
  unfold start St.firstRead at hx
  simp only at hx
  split at hx
  · have : (St.start data ff).errs = [] := rfl
    simp only [St.addErr, St.addErrAt, this, List.nil_append, List.mem_singleton] at hx
    subst hx
    exact List.mem_cons_self ..
  · exact absurd hx (by simp [St.start])

theorem out_term (o : Opts) (r : Rule) (k : Nat) (data : Bytes) (ff : List FF) : out o r k data ff ≠ .timeout := by
  refine evalRuleM_term (evalM_term o data _) r _ (start_inv o k data ff) ?_
  rw [(start_pt o k data ff).2]
  have : ruleNeed r ≤ 60 := by cases r <;> decide
  unfold parseFuel
  omega

theorem out_postG (o : Opts) (r : Rule) (k : Nat) (data : Bytes) (ff : List FF) :
    PostG data 0 false (out o r k data ff) := by
  have := evalRuleM_postG (evalM_postG o data (parseFuel data)) r _ (start_inv o k data ff)
  rw [(start_pt o k data ff).1] at this
  exact this.weaken

theorem out_postC (o : Opts) (r : Rule) (k : Nat) (data : Bytes) (ff : List FF) :
    PostC data [] k (60 * data.length + 60) (out o r k data ff) := by
  have := evalRuleM_postC (N := 60 * data.length + 60) (evalM_postC o data (parseFuel data)) r _ (start_inv o k data ff) List.nodup_nil (by
    rw [(start_pt o k data ff).2]
    have : ruleNeed r ≤ 60 := by cases r <;> decide
    omega)
  have hc : (start o k data ff).s.cnt = k := Entry.fr_cnt o _
  rw [hc] at this
  exact this

theorem out_postL (o : Opts) (r : Rule) (k : Nat) (T : List Char) (ff : List FF) :
    PostL T T (Spec.Treetop.Matches plain (.ref r) T) (out o r k (encode T) ff) := by
  obtain ⟨h1, h2⟩ := start_pt o k (encode T) ff
  exact evalRuleM_postL (evalM_postL o T _) r _ T (fun x hx => absurd hx (by simp [start])) ⟨[], rfl, h1, h2⟩

theorem nodes_length : (Rule.all.flatMap fun r => (Ex.paths (gram r)).map (Key.node r)).length = 1785 := by decide +kernel

end Verif.Memo
