import Verif.Model.Memo
import Verif.Proofs.Entry
import Verif.Proofs.PegErase
/-
The parser with `Memoize(true)`: it terminates, its messages are the known ones, and it agrees with
the plain semantics of the grammar.
-/
namespace Verif.Memo
open Verif Spec Spec.Treetop

/-! ### The node a key stands for -/

/-- A direct subexpression. -/
def child : Ex → Nat → Option Ex
  | .action _ e, 0 => some e
  | .labeled _ e, 0 => some e
  | .not e, 0 => some e
  | .plus e, 0 => some e
  | .star e, 0 => some e
  | .opt e, 0 => some e
  | .choice es, i => es[i]?
  | .seq es, i => es[i]?
  | _, _ => none

/-- The node at a path, innermost index first. -/
def nodeIn (e : Ex) : List Nat → Option Ex
  | [] => some e
  | i :: p => (nodeIn e p).bind (child · i)

/-- The node of a key. -/
def nodeAt : Key → Option Ex
  | .rule r => some (.ref r)
  | .node r p => nodeIn (gram r) p

theorem nodeAt_sub {k : Key} {e e' : Ex} {i : Nat} (h : nodeAt k = some e) (h' : child e i = some e') :
    nodeAt (k.sub i) = some e' := by
  cases k with
  | rule r => simp only [nodeAt, Option.some.injEq] at h; subst h; simp [child] at h'
  | node r p => simp only [nodeAt] at h; simp [Key.sub, nodeAt, nodeIn, h, h']

/-! ### Points -/

/-- The point is in the input. -/
structure PtIn (data : Bytes) (p : Pt) : Prop where
  le : p.offset ≤ data.length
  rest : p.rest = data.drop p.offset

theorem PtIn.length {data : Bytes} {p : Pt} (h : PtIn data p) : p.rest.length + p.offset = data.length := by
  rw [h.rest, List.length_drop]; have := h.le; omega

theorem PtIn.adv {data : Bytes} {p q : Pt} {b : Bool} (h : PtIn data p) (ha : Adv b p q) :
    PtIn data q ∧ p.offset ≤ q.offset := by
  obtain ⟨h1, h2, h3⟩ := ha.offset_le
  have := h.length
  refine ⟨⟨by omega, ?_⟩, h1⟩
  rw [h3, h.rest, List.drop_drop]
  congr 1; omega

theorem PtIn.inj {data : Bytes} {p q : Pt} (hp : PtIn data p) (hq : PtIn data q) (h : p.offset = q.offset) : p.rest = q.rest := by
  rw [hp.rest, hq.rest, h]

/-! ### Termination and messages -/

/-- What a table entry says about the end. -/
def TupG (data : Bytes) (e : Ex) (off : Nat) (t : Tuple) : Prop :=
  PtIn data t.fin ∧
  match t.val with
  | some _ => off ≤ t.fin.offset ∧ (e.nullable ruleNullable = false → off < t.fin.offset)
  | none => t.fin.offset = off

/-- All entries of the table. -/
def TabG (data : Bytes) (tab : Table) : Prop :=
  ∀ x ∈ tab, ∀ e, nodeAt x.1.1 = some e → TupG data e x.1.2 x.2

/-- The invariant of the parser. -/
structure Inv (data : Bytes) (m : MSt) : Prop where
  pt : PtIn data m.s.pt
  errs : ∀ x ∈ m.s.errs, x.msg ∈ errMsgs
  tab : TabG data m.memo

/-- What an outcome satisfies; `b`: it consumes input. -/
def PostG (data : Bytes) (off : Nat) (b : Bool) : MOut → Prop
  | .ok _ m => Inv data m ∧ off ≤ m.s.pt.offset ∧ (b = true → off < m.s.pt.offset)
  | .fail m => Inv data m ∧ m.s.pt.offset = off
  | .panic x m => (∀ y ∈ m.s.errs, y.msg ∈ errMsgs) ∧ (x = maxExprMsg ∨ x = convMsg ∨ getFarthestFailure m.s.ff = (x, true))
  | .timeout => True

/-- Only the point, the errors and the table count. -/
theorem Inv.of {data : Bytes} {m m' : MSt} (h : Inv data m) (h1 : m'.s.pt = m.s.pt) (h2 : m'.s.errs = m.s.errs)
    (h3 : m'.memo = m.memo) : Inv data m' := ⟨by rw [h1]; exact h.pt, by rw [h2]; exact h.errs, by rw [h3]; exact h.tab⟩

theorem get_mem {m : MSt} {k : Key} {t : Tuple} (h : m.get k = some t) : ((k, m.s.pt.offset), t) ∈ m.memo := by
  unfold MSt.get at h
  rw [Option.map_eq_some_iff] at h
  obtain ⟨x, h1, rfl⟩ := h
  have h2 := List.find?_some h1
  simp only [Bool.and_eq_true, decide_eq_true_eq, Nat.beq_eq] at h2
  have h3 := List.mem_of_find?_eq_some h1
  rw [← h2.1, ← h2.2]; exact h3

theorem hit_postG {data : Bytes} {m : MSt} {k : Key} {e : Ex} {t : Tuple} (h : Inv data m) (hk : nodeAt k = some e)
    (hg : m.get k = some t) : PostG data m.s.pt.offset (!e.nullable ruleNullable) (hit t m) := by
  obtain ⟨h1, h2⟩ := h.tab _ (get_mem hg) e hk
  unfold hit
  have hi : Inv data { m with s := { m.s with pt := t.fin } } := ⟨h1, h.errs, h.tab⟩
  cases hv : t.val with
  | some v =>
    rw [hv] at h2
    simp only
    exact ⟨hi, h2.1, fun hb => h2.2 (by simpa using hb)⟩
  | none =>
    rw [hv] at h2
    exact ⟨hi, h2⟩

theorem store_postG {data : Bytes} {k : Key} {e : Ex} {p : Pt} {r : MOut} (hk : nodeAt k = some e)
    (h : PostG data p.offset (!e.nullable ruleNullable) r) : PostG data p.offset (!e.nullable ruleNullable) (store k p r) := by
  cases r with
  | ok v m =>
    obtain ⟨h1, h2, h3⟩ := h
    refine ⟨⟨h1.pt, h1.errs, ?_⟩, h2, h3⟩
    intro x hx e' he'
    rcases List.mem_cons.1 hx with rfl | hx
    · rw [hk] at he'; cases he'
      exact ⟨h1.pt, h2, fun hb => h3 (by simp [hb])⟩
    · exact h1.tab x hx e' he'
  | fail m =>
    obtain ⟨h1, h2⟩ := h
    refine ⟨⟨h1.pt, h1.errs, ?_⟩, h2⟩
    intro x hx e' he'
    rcases List.mem_cons.1 hx with rfl | hx
    · rw [hk] at he'; cases he'
      exact ⟨h1.pt, h2⟩
    · exact h1.tab x hx e' he'
  | panic x m => exact h
  | timeout => trivial

theorem store_timeout {k : Key} {p : Pt} {r : MOut} (h : r ≠ .timeout) : store k p r ≠ .timeout := by
  cases r <;> simp_all [store]

theorem PostG.weaken {data : Bytes} {off : Nat} {b : Bool} {r : MOut} (h : PostG data off b r) : PostG data off false r := by
  cases r with
  | ok v m => exact ⟨h.1, h.2.1, by simp⟩
  | _ => exact h

/-- The hypothesis about sub-expressions. -/
def EvG (data : Bytes) (ev : Key → Ex → MSt → MOut) : Prop :=
  ∀ k e m, nodeAt k = some e → Inv data m → PostG data m.s.pt.offset (!e.nullable ruleNullable) (ev k e m)

variable {data : Bytes} {ev : Key → Ex → MSt → MOut}

/-- The rest of a list of sub-expressions. -/
def Subs (k : Key) (i : Nat) (es : List Ex) : Prop := ∀ j e, es[j]? = some e → nodeAt (k.sub (i + j)) = some e

theorem Subs.head {k : Key} {i : Nat} {e : Ex} {es : List Ex} (h : Subs k i (e :: es)) : nodeAt (k.sub i) = some e := h 0 e rfl

theorem Subs.tail {k : Key} {i : Nat} {e : Ex} {es : List Ex} (h : Subs k i (e :: es)) : Subs k (i + 1) es := by
  intro j e' h'
  have := h (j + 1) e' h'
  rwa [show i + 1 + j = i + (j + 1) by omega]

theorem seqLoopM_postG (hev : EvG data ev) {k : Key} (s0 : St) (es : List Ex) {i : Nat} (hs : Subs k i es) (acc : List Val) (m : MSt)
    (hi : Inv data m) (h0 : s0.pt.offset ≤ m.s.pt.offset) (hp0 : PtIn data s0.pt) :
    PostG data s0.pt.offset false (seqLoopM ev k s0 i es acc m) ∧
    (∀ v m', seqLoopM ev k s0 i es acc m = .ok v m' →
      m.s.pt.offset ≤ m'.s.pt.offset ∧ (nullableAll ruleNullable es = false → m.s.pt.offset < m'.s.pt.offset)) := by
  induction es generalizing i acc m with
  | nil =>
    simp only [seqLoopM]
    refine ⟨⟨hi, h0, by simp⟩, ?_⟩
    intro v m' h
    injection h with _ h; subst h
    exact ⟨Nat.le_refl _, by simp [nullableAll]⟩
  | cons e es ih =>
    have h1 := hev _ e m hs.head hi
    simp only [seqLoopM]
    cases hr : ev (k.sub i) e m with
    | ok v m' =>
      rw [hr] at h1
      obtain ⟨h2, h3, h4⟩ := h1
      obtain ⟨i1, i2⟩ := ih hs.tail (acc ++ [v]) m' h2 (by omega)
      refine ⟨i1, fun w u hu => ?_⟩
      obtain ⟨j1, j2⟩ := i2 w u hu
      refine ⟨by omega, fun hn => ?_⟩
      simp only [nullableAll, Bool.and_eq_false_iff] at hn
      rcases hn with hn | hn
      · have := h4 (by simp [hn]); omega
      · have := j2 hn; omega
    | fail m' =>
      rw [hr] at h1
      exact ⟨⟨⟨hp0, h1.1.errs, h1.1.tab⟩, rfl⟩, by simp⟩
    | panic x m' => rw [hr] at h1; exact ⟨h1, by simp⟩
    | timeout => exact ⟨trivial, by simp⟩

theorem choiceLoopM_postG (hev : EvG data ev) {k : Key} (es : List Ex) {i : Nat} (hs : Subs k i es) (m : MSt) (hi : Inv data m) :
    PostG data m.s.pt.offset (!nullableAny ruleNullable es) (choiceLoopM ev k i es m) := by
  induction es generalizing i m with
  | nil => exact ⟨hi, rfl⟩
  | cons e es ih =>
    have h1 := hev _ e { m with s := { m.s with frame := [] } } hs.head (hi.of rfl rfl rfl)
    simp only [choiceLoopM]
    cases hr : ev (k.sub i) e { m with s := { m.s with frame := [] } } with
    | ok v m' =>
      rw [hr] at h1
      obtain ⟨h2, h3, h4⟩ := h1
      refine ⟨h2.of rfl rfl rfl, h3, fun hn => h4 ?_⟩
      simp only [nullableAny, Bool.not_or, Bool.and_eq_true] at hn
      exact hn.1
    | fail m' =>
      rw [hr] at h1
      have h2 := ih hs.tail { m' with s := { m'.s with frame := m.s.frame, warns := m.s.warns } } (h1.1.of rfl rfl rfl)
      have h3 : m'.s.pt.offset = m.s.pt.offset := h1.2
      simp only [h3] at h2 ⊢
      cases hc : choiceLoopM ev k (i + 1) es { m' with s := { m'.s with frame := m.s.frame, warns := m.s.warns } } with
      | ok w u =>
        rw [hc] at h2
        refine ⟨h2.1, h2.2.1, fun hn => h2.2.2 ?_⟩
        simp only [nullableAny, Bool.not_or, Bool.and_eq_true] at hn
        exact hn.2
      | _ => rw [hc] at h2; exact h2
    | panic x m' => rw [hr] at h1; exact h1
    | timeout => trivial

theorem starLoopM_postG {f : MSt → MOut} (hf : ∀ m, Inv data m → PostG data m.s.pt.offset false (f m)) (off n : Nat) (acc : List Val)
    (m : MSt) (hi : Inv data m) (h0 : off ≤ m.s.pt.offset) :
    PostG data off false (starLoopM f n acc m) ∧ (∀ v m', starLoopM f n acc m = .ok v m' → m.s.pt.offset ≤ m'.s.pt.offset) ∧
      (∀ m', starLoopM f n acc m ≠ .fail m') := by
  induction n generalizing acc m with
  | zero => exact ⟨trivial, by simp [starLoopM], by simp [starLoopM]⟩
  | succ n ih =>
    have h1 := hf { m with s := { m.s with frame := [] } } (hi.of rfl rfl rfl)
    simp only [starLoopM]
    cases hr : f { m with s := { m.s with frame := [] } } with
    | ok v m' =>
      rw [hr] at h1
      obtain ⟨h2, h3, h4⟩ := h1
      have h3 : m.s.pt.offset ≤ m'.s.pt.offset := h3
      obtain ⟨i1, i2, i3⟩ := ih (acc ++ [v]) { m' with s := { m'.s with frame := m.s.frame } } (h2.of rfl rfl rfl)
        (by simp only; omega)
      exact ⟨i1, fun w u hu => Nat.le_trans h3 (i2 w u hu), i3⟩
    | fail m' =>
      rw [hr] at h1
      have h3 : m'.s.pt.offset = m.s.pt.offset := h1.2
      refine ⟨⟨h1.1.of rfl rfl rfl, by simp only; omega, by simp⟩, ?_, by simp⟩
      intro v u hu
      injection hu with _ hu; subst hu
      simp only; omega
    | panic x m' => rw [hr] at h1; exact ⟨h1, by simp, by simp⟩
    | timeout => exact ⟨trivial, by simp, by simp⟩

/-- A step that evaluates no sub-expression. -/
theorem lift_postG {o : Opts} {m : MSt} {b : Bool} {r : Out} (hi : Inv data m) (h1 : Good o m.s r) (h2 : Cons b m.s r)
    (h3 : MsgOk m.s r) : PostG data m.s.pt.offset b (lift m.memo r) := by
  have known : ∀ t : St, (∀ e ∈ t.errs, e ∈ m.s.errs ∨ e.msg ∈ errMsgs) → ∀ e ∈ t.errs, e.msg ∈ errMsgs := by
    intro t ht e he
    rcases ht e he with h | h
    · exact hi.errs e h
    · exact h
  cases r with
  | ok v s =>
    obtain ⟨i1, i2⟩ := hi.pt.adv h1.2.1
    refine ⟨⟨i1, known s h3, hi.tab⟩, i2, fun hb => ?_⟩
    have h4 := h2 hb
    have := hi.pt.length
    have := i1.length
    show m.s.pt.offset < s.pt.offset
    omega
  | fail s =>
    have h4 : s.pt = m.s.pt := h1.2.1
    exact ⟨⟨by simp only; rw [h4]; exact hi.pt, known s h3, hi.tab⟩, by show s.pt.offset = _; rw [h4]⟩
  | panic x s => exact ⟨known s h3.1, h3.2⟩
  | timeout => trivial

theorem basic_step (o : Opts) (n : Nat) (e : Ex) (s : St) (he : match e with | .any | .cls .. | .lit .. | .state _ => True | _ => False) :
    Good o s (step o gram (fun _ _ => .timeout) n e s) ∧
    Cons (!e.nullable ruleNullable) s (step o gram (fun _ _ => .timeout) n e s) ∧
    MsgOk s (step o gram (fun _ _ => .timeout) n e s) ∧ step o gram (fun _ _ => .timeout) n e s ≠ .timeout := by
  refine ⟨step_good o gram (fun _ _ => .timeout) (fun _ _ => trivial) n e s, ?_⟩
  cases e with
  | any =>
    simp only [step]
    split
    · refine ⟨trivial, ?_, by simp⟩
      intro e he; rw [(failAt_fields _ _ _ _).2.1] at he; exact .inl he
    · rename_i hn
      refine ⟨fun _ => ?_, ?_, by simp⟩
      · rw [(failAt_fields _ _ _ _).1]; exact read_length o s (Pt.rest_ne_of_not_atEof hn)
      · intro e he; rw [(failAt_fields _ _ _ _).2.1] at he; exact read_msgs o s e he
  | cls val inv chars ranges =>
    simp only [step]
    split
    · refine ⟨trivial, ?_, by simp⟩
      intro e he; rw [(failAt_fields _ _ _ _).2.1] at he; exact .inl he
    · rename_i hn
      split
      · refine ⟨fun _ => ?_, ?_, by simp⟩
        · rw [(failAt_fields _ _ _ _).1]; exact read_length o s (Pt.rest_ne_of_not_atEof hn)
        · intro e he; rw [(failAt_fields _ _ _ _).2.1] at he; exact read_msgs o s e he
      · refine ⟨trivial, ?_, by simp⟩
        intro e he; rw [(failAt_fields _ _ _ _).2.1] at he; exact .inl he
  | lit v =>
    refine ⟨litLoop_cons o _ _ _ _, litLoop_msgs o _ _ _ _, ?_⟩
    simp only [step]
    generalize litWant v = w
    generalize hp : s.pt = p
    clear hp he
    induction v generalizing s with
    | nil => simp [litLoop]
    | cons c cs ihv =>
      simp only [litLoop]
      split
      · exact ihv _
      · simp
  | state c =>
    refine ⟨by simp [step, Cons, Ex.nullable], ?_, by simp [step]⟩
    simp only [step, MsgOk]
    intro x hx
    refine .inl ?_
    cases c with
    | initState => exact hx
    | warnComment =>
      simp only [runState] at hx
      split at hx <;> exact hx
  | _ => exact absurd he id

theorem lift_timeout {tab : Table} {r : Out} (h : r ≠ .timeout) : lift tab r ≠ .timeout := by
  cases r <;> simp_all [lift]

theorem runCode_facts (o : Opts) (c : Code) (s : St) :
    Good o s (runCode c s) ∧ Cons (!(Ex.andCode c).nullable ruleNullable) s (runCode c s) ∧ MsgOk s (runCode c s) ∧ runCode c s ≠ .timeout := by
  refine ⟨step_good o gram (fun _ _ => .timeout) (fun _ _ => trivial) 0 (.andCode c) s, ?_⟩
  cases c with
  | initParser => exact ⟨by simp [runCode, Cons, Ex.nullable], fun e he => .inl he, by simp [runCode]⟩
  | pushError m => exact ⟨trivial, fun e he => .inl he, by simp [runCode]⟩
  | fatalError m =>
    exact ⟨trivial, ⟨fun e he => .inl he, .inr (.inr (by simp [getFarthestFailure]))⟩, by simp [runCode]⟩

theorem evalRuleM_postG (hev : EvG data ev) (r : Rule) (m : MSt) (hi : Inv data m) :
    PostG data m.s.pt.offset (!(Ex.ref r).nullable ruleNullable) (evalRuleM ev gram r m) := by
  unfold evalRuleM
  cases hg : m.get (.rule r) with
  | some t => exact hit_postG hi rfl hg
  | none =>
    simp only
    refine store_postG (e := .ref r) rfl ?_
    have h1 := hev (.node r []) (gram r) { m with s := { m.s with rstack := r :: m.s.rstack, frame := [] } } rfl (hi.of rfl rfl rfl)
    cases hr : ev (.node r []) (gram r) { m with s := { m.s with rstack := r :: m.s.rstack, frame := [] } } with
    | ok v m' =>
      rw [hr] at h1
      refine ⟨h1.1.of rfl rfl rfl, h1.2.1, fun hn => h1.2.2 ?_⟩
      simp only [Ex.nullable, Bool.not_eq_true'] at hn ⊢
      exact Bool.eq_false_iff.2 fun hh => by rw [gram_nullable r hh] at hn; cases hn
    | fail m' => rw [hr] at h1; exact ⟨h1.1.of rfl rfl rfl, h1.2⟩
    | panic x m' => rw [hr] at h1; exact h1
    | timeout => trivial

theorem subs_of {k : Key} {es : List Ex} (h : ∀ i e, es[i]? = some e → nodeAt (k.sub i) = some e) : Subs k 0 es := by
  intro j e hj; rw [Nat.zero_add]; exact h j e hj

theorem stepM_postG {o : Opts} (hev : EvG data ev) (n : Nat) (k : Key) (e : Ex) (m : MSt) (hk : nodeAt k = some e) (hi : Inv data m) :
    PostG data m.s.pt.offset (!e.nullable ruleNullable) (stepM o gram ev n k e m) := by
  cases e with
  | action a e =>
    have h1 := hev (k.sub 0) e m (nodeAt_sub hk rfl) hi
    simp only [stepM]
    cases hr : ev (k.sub 0) e m with
    | ok v m' =>
      rw [hr] at h1
      obtain ⟨h2, h3, h4⟩ := h1
      simp only
      have hm := runAct_msgs o a m'.s.frame m.s.pt.pos (sliceFrom m.s.pt m'.s.pt) m'.s.warns
      split
      · exact ⟨h2.of rfl rfl rfl, h3, h4⟩
      · rename_i v' msg heq
        refine ⟨⟨h2.pt, ?_, h2.tab⟩, h3, h4⟩
        intro x hx
        simp only [St.addErrAt] at hx
        rcases List.mem_append.1 hx with h | h
        · exact h2.errs x h
        · simp at h; subst h
          exact List.mem_cons_of_mem _ (hm.1 v' msg heq)
      · rename_i x heq
        exact ⟨h2.errs, .inr (.inl (hm.2 x heq))⟩
    | fail m' => rw [hr] at h1; exact h1
    | panic x m' => rw [hr] at h1; exact h1
    | timeout => trivial
  | andCode c =>
    obtain ⟨h1, h2, h3, -⟩ := runCode_facts o c m.s
    exact lift_postG hi h1 h2 h3
  | any =>
    obtain ⟨h1, h2, h3, -⟩ := basic_step o n .any m.s trivial
    exact lift_postG hi h1 h2 h3
  | cls val inv chars ranges =>
    obtain ⟨h1, h2, h3, -⟩ := basic_step o n (.cls val inv chars ranges) m.s trivial
    exact lift_postG hi h1 h2 h3
  | lit v =>
    obtain ⟨h1, h2, h3, -⟩ := basic_step o n (.lit v) m.s trivial
    exact lift_postG hi h1 h2 h3
  | state c =>
    obtain ⟨h1, h2, h3, -⟩ := basic_step o n (.state c) m.s trivial
    exact lift_postG hi h1 h2 h3
  | choice alts => exact choiceLoopM_postG hev alts (subs_of fun i e h => nodeAt_sub hk h) m hi
  | labeled l e =>
    have h1 := hev (k.sub 0) e { m with s := { m.s with frame := [] } } (nodeAt_sub hk rfl) (hi.of rfl rfl rfl)
    simp only [stepM]
    cases hr : ev (k.sub 0) e { m with s := { m.s with frame := [] } } with
    | ok v m' => rw [hr] at h1; exact ⟨h1.1.of rfl rfl rfl, h1.2⟩
    | fail m' => rw [hr] at h1; exact ⟨h1.1.of rfl rfl rfl, h1.2⟩
    | panic x m' => rw [hr] at h1; exact h1
    | timeout => trivial
  | not e =>
    have h1 := hev (k.sub 0) e { m with s := { m.s with frame := [], mfInv := !m.s.mfInv } } (nodeAt_sub hk rfl) (hi.of rfl rfl rfl)
    simp only [stepM]
    cases hr : ev (k.sub 0) e { m with s := { m.s with frame := [], mfInv := !m.s.mfInv } } with
    | ok v m' => rw [hr] at h1; exact ⟨⟨hi.pt, h1.1.errs, h1.1.tab⟩, rfl⟩
    | fail m' => rw [hr] at h1; exact ⟨⟨hi.pt, h1.1.errs, h1.1.tab⟩, Nat.le_refl _, by simp [Ex.nullable]⟩
    | panic x m' => rw [hr] at h1; exact h1
    | timeout => trivial
  | plus e =>
    have h1 := hev (k.sub 0) e { m with s := { m.s with frame := [] } } (nodeAt_sub hk rfl) (hi.of rfl rfl rfl)
    simp only [stepM]
    cases hr : ev (k.sub 0) e { m with s := { m.s with frame := [] } } with
    | ok v m' =>
      rw [hr] at h1
      obtain ⟨h2, h3, h4⟩ := h1
      obtain ⟨i1, i2, i3⟩ := starLoopM_postG (f := ev (k.sub 0) e) (fun m hm => (hev _ e m (nodeAt_sub hk rfl) hm).weaken)
        m.s.pt.offset n [v] { m' with s := { m'.s with frame := m.s.frame } } (h2.of rfl rfl rfl) h3
      simp only
      cases hs : starLoopM (ev (k.sub 0) e) n [v] { m' with s := { m'.s with frame := m.s.frame } } with
      | ok w u =>
        rw [hs] at i1
        have h5 : m'.s.pt.offset ≤ u.s.pt.offset := i2 w u hs
        exact ⟨i1.1, i1.2.1, fun hn => Nat.lt_of_lt_of_le (h4 hn) h5⟩
      | fail u => exact absurd hs (i3 u)
      | panic x u => rw [hs] at i1; exact i1
      | timeout => trivial
    | fail m' => rw [hr] at h1; exact ⟨h1.1.of rfl rfl rfl, h1.2⟩
    | panic x m' => rw [hr] at h1; exact h1
    | timeout => trivial
  | ref r => exact evalRuleM_postG hev r m hi
  | seq es =>
    obtain ⟨i1, i2⟩ := seqLoopM_postG hev m.s es (subs_of (k := k) fun i e h => nodeAt_sub hk h) [] m hi (Nat.le_refl _) hi.pt
    simp only [stepM]
    cases hs : seqLoopM ev k m.s 0 es [] m with
    | ok w u =>
      rw [hs] at i1
      exact ⟨i1.1, i1.2.1, fun hn => (i2 w u hs).2 (by simpa [Ex.nullable] using hn)⟩
    | _ => rw [hs] at i1; exact i1
  | star e =>
    obtain ⟨i1, i2, i3⟩ := starLoopM_postG (f := ev (k.sub 0) e) (fun m hm => (hev _ e m (nodeAt_sub hk rfl) hm).weaken)
      m.s.pt.offset n [] m hi (Nat.le_refl _)
    exact i1
  | opt e =>
    have h1 := hev (k.sub 0) e { m with s := { m.s with frame := [] } } (nodeAt_sub hk rfl) (hi.of rfl rfl rfl)
    simp only [stepM]
    cases hr : ev (k.sub 0) e { m with s := { m.s with frame := [] } } with
    | ok v m' => rw [hr] at h1; exact ⟨h1.1.of rfl rfl rfl, h1.2.1, by simp [Ex.nullable]⟩
    | fail m' => rw [hr] at h1; exact ⟨h1.1.of rfl rfl rfl, Nat.le_of_eq h1.2.symm, by simp [Ex.nullable]⟩
    | panic x m' => rw [hr] at h1; exact h1
    | timeout => trivial

theorem evalM_postG (o : Opts) (data : Bytes) (n : Nat) : EvG data (evalM o gram n) := by
  induction n with
  | zero => intro k e m _ _; trivial
  | succ n ih =>
    intro k e m hk hi
    simp only [evalM]
    cases hg : m.get k with
    | some t => exact hit_postG hi hk hg
    | none =>
      simp only
      split
      · exact ⟨hi.errs, .inl rfl⟩
      · exact store_postG hk (stepM_postG (m := { m with s := { m.s with cnt := m.s.cnt + 1 } }) ih n k e hk (hi.of rfl rfl rfl))

/-! ### Termination -/

section
variable {n : Nat}

/-- The hypothesis about sub-expressions: with enough fuel they terminate. -/
def EvT (data : Bytes) (n : Nat) (ev : Key → Ex → MSt → MOut) : Prop :=
  ∀ k e m, nodeAt k = some e → Inv data m → e.wf ruleNullable ruleNeed 60 = true →
    60 * m.s.pt.rest.length + e.need ruleNullable ruleNeed ≤ n → ev k e m ≠ .timeout

theorem Inv.rest_le {m m' : MSt} (h : Inv data m) (h' : Inv data m') (hl : m.s.pt.offset ≤ m'.s.pt.offset) :
    m'.s.pt.rest.length ≤ m.s.pt.rest.length := by
  have := h.pt.length; have := h'.pt.length; omega

theorem Inv.rest_lt {m m' : MSt} (h : Inv data m) (h' : Inv data m') (hl : m.s.pt.offset < m'.s.pt.offset) :
    m'.s.pt.rest.length < m.s.pt.rest.length := by
  have := h.pt.length; have := h'.pt.length; omega

theorem seqLoopM_term (hg : EvG data ev) (ht : EvT data n ev) {k : Key} (s0 : St) (es : List Ex) {i : Nat} (hs : Subs k i es)
    (acc : List Val) (m : MSt) (hi : Inv data m) (hw : wfAll ruleNullable ruleNeed 60 es = true)
    (h : 60 * m.s.pt.rest.length + needSeq ruleNullable ruleNeed es ≤ n) : seqLoopM ev k s0 i es acc m ≠ .timeout := by
  induction es generalizing i acc m with
  | nil => simp [seqLoopM]
  | cons e es ih =>
    simp only [wfAll, Bool.and_eq_true] at hw
    simp only [needSeq] at h
    have hle : 60 * m.s.pt.rest.length + e.need ruleNullable ruleNeed ≤ n := by
      split at h
      · have := Nat.le_max_left (e.need ruleNullable ruleNeed) (needSeq ruleNullable ruleNeed es); omega
      · exact h
    have h1 := ht _ e m hs.head hi hw.1 hle
    have h2 := hg _ e m hs.head hi
    simp only [seqLoopM]
    cases hr : ev (k.sub i) e m with
    | timeout => exact absurd hr h1
    | ok v m' =>
      rw [hr] at h2
      obtain ⟨h3, h4, h5⟩ := h2
      apply ih hs.tail _ m' h3 hw.2
      have hl := hi.rest_le h3 h4
      by_cases hlt : m.s.pt.offset < m'.s.pt.offset
      · have := hi.rest_lt h3 hlt
        have hn := wfAll_needSeq hw.2
        have := Ex.need_pos (nr := ruleNullable) (c := ruleNeed) e
        omega
      · split at h
        · have := Nat.le_max_right (e.need ruleNullable ruleNeed) (needSeq ruleNullable ruleNeed es); omega
        · rename_i hnn
          exact absurd (h5 (by simp [hnn])) hlt
    | fail m' => simp
    | panic x m' => simp

theorem choiceLoopM_term (hg : EvG data ev) (ht : EvT data n ev) {k : Key} (es : List Ex) {i : Nat} (hs : Subs k i es)
    (m : MSt) (hi : Inv data m) (hw : wfAll ruleNullable ruleNeed 60 es = true)
    (h : 60 * m.s.pt.rest.length + needMax ruleNullable ruleNeed es ≤ n) : choiceLoopM ev k i es m ≠ .timeout := by
  induction es generalizing i m with
  | nil => simp [choiceLoopM]
  | cons e es ih =>
    simp only [wfAll, Bool.and_eq_true] at hw
    simp only [needMax] at h
    have hm1 := Nat.le_max_left (e.need ruleNullable ruleNeed) (needMax ruleNullable ruleNeed es)
    have hm2 := Nat.le_max_right (e.need ruleNullable ruleNeed) (needMax ruleNullable ruleNeed es)
    have hi' : Inv data { m with s := { m.s with frame := [] } } := hi.of rfl rfl rfl
    have h1 := ht _ e { m with s := { m.s with frame := [] } } hs.head hi' hw.1 (by simp only; omega)
    have h2 := hg _ e { m with s := { m.s with frame := [] } } hs.head hi'
    simp only [choiceLoopM]
    cases hr : ev (k.sub i) e { m with s := { m.s with frame := [] } } with
    | timeout => exact absurd hr h1
    | ok v t => simp
    | fail t =>
      rw [hr] at h2
      have h3 := hi'.rest_le h2.1 (Nat.le_of_eq h2.2.symm)
      refine ih hs.tail _ (h2.1.of rfl rfl rfl) hw.2 ?_
      have h3 : t.s.pt.rest.length ≤ m.s.pt.rest.length := h3
      simp only; omega
    | panic x t => simp

theorem starLoopM_term {f : MSt → MOut} (hg : ∀ m, Inv data m → PostG data m.s.pt.offset true (f m)) (a : Nat)
    (ht : ∀ m, Inv data m → 60 * m.s.pt.rest.length + a ≤ n → f m ≠ .timeout) (l : Nat) (acc : List Val) (m : MSt)
    (hi : Inv data m) (hl : m.s.pt.rest.length < l) (h : 60 * m.s.pt.rest.length + a ≤ n) : starLoopM f l acc m ≠ .timeout := by
  induction l generalizing acc m with
  | zero => omega
  | succ l ih =>
    have hi' : Inv data { m with s := { m.s with frame := [] } } := hi.of rfl rfl rfl
    have h1 := ht { m with s := { m.s with frame := [] } } hi' h
    have h2 := hg { m with s := { m.s with frame := [] } } hi'
    simp only [starLoopM]
    cases hr : f { m with s := { m.s with frame := [] } } with
    | timeout => exact absurd hr h1
    | ok v t =>
      rw [hr] at h2
      have h3 : t.s.pt.rest.length < m.s.pt.rest.length := hi'.rest_lt h2.1 (h2.2.2 rfl)
      exact ih _ { t with s := { t.s with frame := m.s.frame } } (h2.1.of rfl rfl rfl) (by simp only; omega) (by simp only; omega)
    | fail t => simp
    | panic x t => simp

theorem evalRuleM_term (ht : EvT data n ev) (r : Rule) (m : MSt) (hi : Inv data m)
    (h : 60 * m.s.pt.rest.length + ruleNeed r ≤ n) : evalRuleM ev gram r m ≠ .timeout := by
  unfold evalRuleM
  cases hg : m.get (.rule r) with
  | some t => simp only [hit]; cases t.val <;> simp
  | none =>
    refine store_timeout ?_
    have := gram_need r
    have h1 := ht (.node r []) (gram r) { m with s := { m.s with rstack := r :: m.s.rstack, frame := [] } } rfl (hi.of rfl rfl rfl)
      (gram_wf r) (by simp only; omega)
    cases hr : ev (.node r []) (gram r) { m with s := { m.s with rstack := r :: m.s.rstack, frame := [] } } with
    | timeout => exact absurd hr h1
    | _ => simp

theorem evalM_term (o : Opts) (data : Bytes) (n : Nat) : EvT data n (evalM o gram n) := by
  induction n with
  | zero =>
    intro k e m _ _ _ h
    have := Ex.need_pos (nr := ruleNullable) (c := ruleNeed) e
    omega
  | succ n ih =>
    intro k e m hk hi he h
    simp only [evalM]
    cases hg : m.get k with
    | some t => simp only [hit]; cases t.val <;> simp
    | none =>
      simp only
      split
      · simp
      refine store_timeout ?_
      have hg := evalM_postG o data n
      have hi : Inv data { m with s := { m.s with cnt := m.s.cnt + 1 } } := hi.of rfl rfl rfl
      have h : 60 * ({ m with s := { m.s with cnt := m.s.cnt + 1 } } : MSt).s.pt.rest.length + e.need ruleNullable ruleNeed ≤ n + 1 := h
      generalize ({ m with s := { m.s with cnt := m.s.cnt + 1 } } : MSt) = m at hi h
      have hi0 : Inv data { m with s := { m.s with frame := [] } } := hi.of rfl rfl rfl
      cases e with
      | action a e =>
        simp only [Ex.wf, Ex.need, Bool.and_eq_true, decide_eq_true_eq] at h he
        have h1 := ih (k.sub 0) e m (nodeAt_sub hk rfl) hi he.1 (by omega)
        simp only [stepM]
        cases hr : evalM o gram n (k.sub 0) e m with
        | timeout => exact absurd hr h1
        | ok v t => simp only; split <;> simp
        | _ => simp
      | andCode c => exact lift_timeout (runCode_facts o c m.s).2.2.2
      | any => exact lift_timeout (basic_step o n .any m.s trivial).2.2.2
      | cls val inv chars ranges => exact lift_timeout (basic_step o n (.cls val inv chars ranges) m.s trivial).2.2.2
      | lit v => exact lift_timeout (basic_step o n (.lit v) m.s trivial).2.2.2
      | state c => exact lift_timeout (basic_step o n (.state c) m.s trivial).2.2.2
      | choice alts =>
        simp only [Ex.wf, Ex.need, Bool.and_eq_true, decide_eq_true_eq] at h he
        exact choiceLoopM_term hg ih alts (subs_of fun i e h => nodeAt_sub hk h) m hi he.1 (by omega)
      | labeled l e =>
        simp only [Ex.wf, Ex.need, Bool.and_eq_true, decide_eq_true_eq] at h he
        have h1 := ih (k.sub 0) e { m with s := { m.s with frame := [] } } (nodeAt_sub hk rfl) hi0 he.1 (by simp only; omega)
        simp only [stepM]
        cases hr : evalM o gram n (k.sub 0) e { m with s := { m.s with frame := [] } } with
        | timeout => exact absurd hr h1
        | _ => simp
      | not e =>
        simp only [Ex.wf, Ex.need, Bool.and_eq_true, decide_eq_true_eq] at h he
        have h1 := ih (k.sub 0) e { m with s := { m.s with frame := [], mfInv := !m.s.mfInv } } (nodeAt_sub hk rfl) (hi.of rfl rfl rfl) he.1
          (by simp only; omega)
        simp only [stepM]
        cases hr : evalM o gram n (k.sub 0) e { m with s := { m.s with frame := [], mfInv := !m.s.mfInv } } with
        | timeout => exact absurd hr h1
        | _ => simp
      | plus e =>
        simp only [Ex.wf, Ex.need, Bool.and_eq_true, decide_eq_true_eq] at h he
        have hn : (!e.nullable ruleNullable) = true := he.1.2
        have h1 := ih (k.sub 0) e { m with s := { m.s with frame := [] } } (nodeAt_sub hk rfl) hi0 he.1.1 (by simp only; omega)
        have h2 := hg (k.sub 0) e { m with s := { m.s with frame := [] } } (nodeAt_sub hk rfl) hi0
        simp only [stepM]
        cases hr : evalM o gram n (k.sub 0) e { m with s := { m.s with frame := [] } } with
        | timeout => exact absurd hr h1
        | ok v t =>
          rw [hr] at h2
          have hl : t.s.pt.rest.length < m.s.pt.rest.length := hi0.rest_lt h2.1 (h2.2.2 hn)
          refine starLoopM_term (n := n) (fun m hm => ?_) (e.need ruleNullable ruleNeed)
            (fun m hm hs => ih _ e m (nodeAt_sub hk rfl) hm he.1.1 hs) n [v] _ (h2.1.of rfl rfl rfl) ?_ ?_
          · have := hg (k.sub 0) e m (nodeAt_sub hk rfl) hm; rw [hn] at this; exact this
          · simp only; omega
          · simp only; omega
        | _ => simp
      | ref r =>
        simp only [Ex.wf, Ex.need, Bool.and_eq_true, decide_eq_true_eq] at h he
        exact evalRuleM_term ih r m hi (by omega)
      | seq es =>
        simp only [Ex.wf, Ex.need, Bool.and_eq_true, decide_eq_true_eq] at h he
        exact seqLoopM_term hg ih m.s es (subs_of fun i e h => nodeAt_sub hk h) [] m hi he.1 (by omega)
      | star e =>
        simp only [Ex.wf, Ex.need, Bool.and_eq_true, decide_eq_true_eq] at h he
        have hn : (!e.nullable ruleNullable) = true := he.1.2
        refine starLoopM_term (n := n) (fun m hm => ?_) (e.need ruleNullable ruleNeed)
          (fun m hm hs => ih _ e m (nodeAt_sub hk rfl) hm he.1.1 hs) n [] m hi ?_ ?_
        · have := hg (k.sub 0) e m (nodeAt_sub hk rfl) hm; rw [hn] at this; exact this
        · omega
        · omega
      | opt e =>
        simp only [Ex.wf, Ex.need, Bool.and_eq_true, decide_eq_true_eq] at h he
        have h1 := ih (k.sub 0) e { m with s := { m.s with frame := [] } } (nodeAt_sub hk rfl) hi0 he.1 (by simp only; omega)
        simp only [stepM]
        cases hr : evalM o gram n (k.sub 0) e { m with s := { m.s with frame := [] } } with
        | timeout => exact absurd hr h1
        | _ => simp

end

/-! ### The language -/

section
variable {T : List Char}

/-- The point is at the suffix `cs` of the text. -/
def At (T : List Char) (p : Pt) (cs : List Char) : Prop :=
  ∃ pre, T = pre ++ cs ∧ p.offset = (encode pre).length ∧ p.rest = encode cs

theorem encode_append (a b : List Char) : encode (a ++ b) = encode a ++ encode b := by simp [encode]

/-- The offset determines the suffix. -/
theorem suffix_inj {pre pre' cs cs' : List Char} (h : pre ++ cs = pre' ++ cs') (hl : (encode pre).length = (encode pre').length) : cs = cs' := by
  induction pre generalizing pre' with
  | nil =>
    cases pre' with
    | nil => exact h
    | cons c p =>
      have := List.length_pos_iff.2 (encode_ne_nil c p)
      rw [← hl] at this
      simp [encode] at this
  | cons c p ih =>
    cases pre' with
    | nil =>
      have := List.length_pos_iff.2 (encode_ne_nil c p)
      rw [hl] at this
      simp [encode] at this
    | cons d q =>
      simp only [List.cons_append, List.cons.injEq] at h
      obtain ⟨rfl, h⟩ := h
      refine ih h ?_
      rw [encode_cons, encode_cons, List.length_append, List.length_append] at hl
      omega

theorem At.inj {p q : Pt} {cs cs' : List Char} (h : At T p cs) (h' : At T q cs') (ho : p.offset = q.offset) : cs = cs' := by
  obtain ⟨a, h1, h2, -⟩ := h
  obtain ⟨b, h3, h4, -⟩ := h'
  exact suffix_inj (h1.symm.trans h3) (by omega)

theorem At.next {p : Pt} {c : Char} {cs : List Char} (h : At T p (c :: cs)) : At T p.next cs := by
  obtain ⟨a, h1, h2, h3⟩ := h
  have hw : p.w = (String.utf8EncodeChar c).length := by unfold Pt.w; rw [h3, encode_cons, decodeRune_encode]
  refine ⟨a ++ [c], by simp [h1], ?_, ?_⟩
  · rw [Pt.next_offset, hw, h2, encode_append, List.length_append]
    simp [encode]
  · rw [Pt.next_rest, hw, h3, encode_cons, List.drop_left]

/-- What a table entry says about the text. -/
def TupL (T : List Char) (e : Ex) (off : Nat) (t : Tuple) : Prop :=
  ∃ p cs, At T p cs ∧ p.offset = off ∧
  match t.val with
  | some _ => ∃ cs', At T t.fin cs' ∧ Matches plain e.erase cs (some cs')
  | none => At T t.fin cs ∧ Matches plain e.erase cs none

/-- All entries of the table. -/
def TabL (T : List Char) (tab : Table) : Prop :=
  ∀ x ∈ tab, ∀ e, nodeAt x.1.1 = some e → TupL T e x.1.2 x.2

/-- What an outcome satisfies, started at the suffix `cs`. -/
def PostL (T cs : List Char) (P : Option (List Char) → Prop) : MOut → Prop
  | .ok _ m => TabL T m.memo ∧ ∃ cs', At T m.s.pt cs' ∧ P (some cs')
  | .fail m => TabL T m.memo ∧ At T m.s.pt cs ∧ P none
  | .panic _ _ => True
  | .timeout => True

theorem PostL.imp {cs cs' : List Char} {P Q : Option (List Char) → Prop} {r : MOut} (h : PostL T cs P r) (hpq : ∀ x, P x → Q x)
    (hc : P none → cs = cs') : PostL T cs' Q r := by
  cases r with
  | ok v m => obtain ⟨h0, c, h1, h2⟩ := h; exact ⟨h0, c, h1, hpq _ h2⟩
  | fail m => obtain ⟨h0, h1, h2⟩ := h; exact ⟨h0, hc h2 ▸ h1, hpq _ h2⟩
  | _ => trivial

theorem hit_postL {m : MSt} {k : Key} {e : Ex} {t : Tuple} {cs : List Char} (ht : TabL T m.memo) (ha : At T m.s.pt cs)
    (hk : nodeAt k = some e) (hg : m.get k = some t) : PostL T cs (Matches plain e.erase cs) (hit t m) := by
  obtain ⟨p, cs0, h1, h2, h3⟩ := ht _ (get_mem hg) e hk
  have := h1.inj ha h2
  subst this
  unfold hit
  cases hv : t.val with
  | some v => rw [hv] at h3; exact ⟨ht, h3⟩
  | none => rw [hv] at h3; exact ⟨ht, h3⟩

theorem store_postL {k : Key} {e : Ex} {p : Pt} {cs : List Char} {r : MOut} (hk : nodeAt k = some e) (ha : At T p cs)
    (h : PostL T cs (Matches plain e.erase cs) r) : PostL T cs (Matches plain e.erase cs) (store k p r) := by
  cases r with
  | ok v m =>
    obtain ⟨h1, h2⟩ := h
    refine ⟨?_, h2⟩
    intro x hx e' he'
    rcases List.mem_cons.1 hx with rfl | hx
    · rw [hk] at he'; cases he'
      exact ⟨p, cs, ha, rfl, h2⟩
    · exact h1 x hx e' he'
  | fail m =>
    obtain ⟨h1, h2⟩ := h
    refine ⟨?_, h2⟩
    intro x hx e' he'
    rcases List.mem_cons.1 hx with rfl | hx
    · rw [hk] at he'; cases he'
      exact ⟨p, cs, ha, rfl, h2⟩
    · exact h1 x hx e' he'
  | panic x m => trivial
  | timeout => trivial

/-- The hypothesis about sub-expressions. -/
def EvL (T : List Char) (ev : Key → Ex → MSt → MOut) : Prop :=
  ∀ k e m cs, nodeAt k = some e → e.small = true → TabL T m.memo → At T m.s.pt cs →
    PostL T cs (Matches plain e.erase cs) (ev k e m)

theorem state_erase {e : Ex} (h : e.isState = true) : e.erase = .lit [] := by
  cases e with
  | state c => simp [Ex.erase]
  | _ => cases h

theorem lit_nil {cs : List Char} {x : Option (List Char)} (h : Matches plain (.lit []) cs x) : x = some cs :=
  Matches.det h (.lit (s := []))

theorem err_erase {e : Ex} (h : e.isErr = true) : e.erase = never := by
  cases e with
  | andCode c => cases c <;> first | (cases h; done) | simp [Ex.erase]
  | _ => cases h

theorem never_fails (cs : List Char) : Matches plain never cs none := by
  cases cs with
  | nil => exact .clsEnd
  | cons c cs => exact .clsFail rfl

theorem seqLoopM_state (hev : EvL T ev) {k : Key} (s0 : St) (es : List Ex) {i : Nat} (hs : Subs k i es) (h : es.all Ex.isState = true)
    (hsm : Ex.smallL es = true) (acc : List Val) (m : MSt) (cs : List Char) (ht : TabL T m.memo) (ha : At T m.s.pt cs) :
    PostL T cs (fun x => x = some cs) (seqLoopM ev k s0 i es acc m) := by
  induction es generalizing i acc m with
  | nil => exact ⟨ht, cs, ha, rfl⟩
  | cons e es ih =>
    simp only [List.all_cons, Bool.and_eq_true] at h
    simp only [Ex.smallL, Bool.and_eq_true] at hsm
    have h1 := hev _ e m cs hs.head hsm.1 ht ha
    rw [state_erase h.1] at h1
    simp only [seqLoopM]
    cases hr : ev (k.sub i) e m with
    | ok v m' =>
      rw [hr] at h1
      obtain ⟨h2, cs', h3, h4⟩ := h1
      have := lit_nil h4
      simp only [Option.some.injEq] at this; subst this
      exact ih hs.tail h.2 hsm.2 _ m' h2 h3
    | fail m' => rw [hr] at h1; have := lit_nil h1.2.2; cases this
    | panic x m' => trivial
    | timeout => trivial

theorem choiceLoopM_err (hev : EvL T ev) {k : Key} (es : List Ex) {i : Nat} (hs : Subs k i es) (h : es.all Ex.isErr = true)
    (hsm : Ex.smallL es = true) (m : MSt) (cs : List Char) (ht : TabL T m.memo) (ha : At T m.s.pt cs) :
    PostL T cs (fun x => x = none) (choiceLoopM ev k i es m) := by
  induction es generalizing i m with
  | nil => exact ⟨ht, ha, rfl⟩
  | cons e es ih =>
    simp only [List.all_cons, Bool.and_eq_true] at h
    simp only [Ex.smallL, Bool.and_eq_true] at hsm
    have h1 := hev _ e { m with s := { m.s with frame := [] } } cs hs.head hsm.1 ht ha
    rw [err_erase h.1] at h1
    simp only [choiceLoopM]
    cases hr : ev (k.sub i) e { m with s := { m.s with frame := [] } } with
    | ok v m' =>
      rw [hr] at h1
      obtain ⟨h2, cs', h3, h4⟩ := h1
      have := Matches.det h4 (never_fails cs); cases this
    | fail m' => rw [hr] at h1; exact ih hs.tail h.2 hsm.2 { m' with s := { m'.s with frame := m.s.frame, warns := m.s.warns } } h1.1 h1.2.1
    | panic x m' => trivial
    | timeout => trivial

theorem seqLoopM_postL (hev : EvL T ev) {k : Key} (s0 : St) (cs0 : List Char) (h0 : At T s0.pt cs0) (es : List Ex) {i : Nat} (hs : Subs k i es)
    (hsm : Ex.smallL es = true) (acc : List Val) (m : MSt) (cs : List Char) (ht : TabL T m.memo) (ha : At T m.s.pt cs) :
    PostL T cs0 (Matches plain (Ex.eraseSeq es) cs) (seqLoopM ev k s0 i es acc m) := by
  induction es generalizing i acc m cs with
  | nil => exact ⟨ht, cs, ha, .lit (s := [])⟩
  | cons e es ih =>
    simp only [Ex.smallL, Bool.and_eq_true] at hsm
    have h1 := hev _ e m cs hs.head hsm.1 ht ha
    simp only [seqLoopM, Ex.eraseSeq]
    by_cases hst : e.isState = true
    · rw [if_pos hst]
      rw [state_erase hst] at h1
      cases hr : ev (k.sub i) e m with
      | ok v m' =>
        rw [hr] at h1
        obtain ⟨h2, cs', h3, h4⟩ := h1
        have := lit_nil h4
        simp only [Option.some.injEq] at this; subst this
        exact ih hs.tail hsm.2 _ m' _ h2 h3
      | fail m' => rw [hr] at h1; have := lit_nil h1.2.2; cases this
      | panic x m' => trivial
      | timeout => trivial
    · rw [if_neg hst]
      by_cases hall : es.all Ex.isState = true
      · rw [if_pos hall]
        cases hr : ev (k.sub i) e m with
        | ok v m' =>
          rw [hr] at h1
          obtain ⟨h2, cs', h3, h4⟩ := h1
          have := seqLoopM_state hev s0 es hs.tail hall hsm.2 (acc ++ [v]) m' cs' h2 h3
          exact this.imp (fun x hx => hx ▸ h4) (fun h => by cases h)
        | fail m' => rw [hr] at h1; exact ⟨h1.1, h0, h1.2.2⟩
        | panic x m' => trivial
        | timeout => trivial
      · rw [if_neg hall]
        cases hr : ev (k.sub i) e m with
        | ok v m' =>
          rw [hr] at h1
          obtain ⟨h2, cs', h3, h4⟩ := h1
          exact (ih hs.tail hsm.2 (acc ++ [v]) m' cs' h2 h3).imp (fun x hx => .seq h4 hx) (fun _ => rfl)
        | fail m' => rw [hr] at h1; exact ⟨h1.1, h0, .seqFail h1.2.2⟩
        | panic x m' => trivial
        | timeout => trivial

theorem choiceLoopM_postL (hev : EvL T ev) {k : Key} (es : List Ex) {i : Nat} (hs : Subs k i es) (hsm : Ex.smallL es = true)
    (m : MSt) (cs : List Char) (ht : TabL T m.memo) (ha : At T m.s.pt cs) :
    PostL T cs (Matches plain (Ex.eraseAlt es) cs) (choiceLoopM ev k i es m) := by
  induction es generalizing i m with
  | nil => exact ⟨ht, ha, never_fails cs⟩
  | cons e es ih =>
    simp only [Ex.smallL, Bool.and_eq_true] at hsm
    have h1 := hev _ e { m with s := { m.s with frame := [] } } cs hs.head hsm.1 ht ha
    simp only [choiceLoopM, Ex.eraseAlt]
    by_cases herr : e.isErr = true
    · rw [if_pos herr]
      rw [err_erase herr] at h1
      cases hr : ev (k.sub i) e { m with s := { m.s with frame := [] } } with
      | ok v m' =>
        rw [hr] at h1
        obtain ⟨h2, cs', h3, h4⟩ := h1
        have := Matches.det h4 (never_fails cs); cases this
      | fail m' => rw [hr] at h1; exact ih hs.tail hsm.2 { m' with s := { m'.s with frame := m.s.frame, warns := m.s.warns } } h1.1 h1.2.1
      | panic x m' => trivial
      | timeout => trivial
    · rw [if_neg herr]
      by_cases hall : es.all Ex.isErr = true
      · rw [if_pos hall]
        cases hr : ev (k.sub i) e { m with s := { m.s with frame := [] } } with
        | ok v m' => rw [hr] at h1; exact h1
        | fail m' =>
          rw [hr] at h1
          have := choiceLoopM_err hev es hs.tail hall hsm.2 { m' with s := { m'.s with frame := m.s.frame, warns := m.s.warns } } cs h1.1 h1.2.1
          exact this.imp (fun x hx => hx ▸ h1.2.2) (fun _ => rfl)
        | panic x m' => trivial
        | timeout => trivial
      · rw [if_neg hall]
        cases hr : ev (k.sub i) e { m with s := { m.s with frame := [] } } with
        | ok v m' => rw [hr] at h1; exact ⟨h1.1, h1.2.imp fun c h => ⟨h.1, .altFirst h.2⟩⟩
        | fail m' =>
          rw [hr] at h1
          exact (ih hs.tail hsm.2 { m' with s := { m'.s with frame := m.s.frame, warns := m.s.warns } } h1.1 h1.2.1).imp
            (fun x hx => .altSecond h1.2.2 hx) (fun _ => rfl)
        | panic x m' => trivial
        | timeout => trivial

theorem starLoopM_postL {f : MSt → MOut} {e : PEx Rule}
    (hf : ∀ m cs, TabL T m.memo → At T m.s.pt cs → PostL T cs (Matches plain e cs) (f m)) (n : Nat) (acc : List Val) (m : MSt)
    (cs : List Char) (ht : TabL T m.memo) (ha : At T m.s.pt cs) :
    PostL T cs (Matches plain (.star e) cs) (starLoopM f n acc m) ∧ ∀ m', starLoopM f n acc m ≠ .fail m' := by
  induction n generalizing acc m cs with
  | zero => exact ⟨trivial, by simp [starLoopM]⟩
  | succ n ih =>
    have h1 := hf { m with s := { m.s with frame := [] } } cs ht ha
    simp only [starLoopM]
    cases hr : f { m with s := { m.s with frame := [] } } with
    | ok v m' =>
      rw [hr] at h1
      obtain ⟨h2, cs', h3, h4⟩ := h1
      obtain ⟨i1, i2⟩ := ih (acc ++ [v]) { m' with s := { m'.s with frame := m.s.frame } } cs' h2 h3
      refine ⟨?_, i2⟩
      simp only
      cases hs : starLoopM f n (acc ++ [v]) { m' with s := { m'.s with frame := m.s.frame } } with
      | ok w u => rw [hs] at i1; exact ⟨i1.1, i1.2.imp fun c h => ⟨h.1, .starMore h4 h.2⟩⟩
      | fail u => exact absurd hs (i2 u)
      | _ => trivial
    | fail m' => rw [hr] at h1; exact ⟨⟨h1.1, cs, h1.2.1, .starEnd h1.2.2⟩, by simp⟩
    | panic x m' => exact ⟨trivial, by simp⟩
    | timeout => exact ⟨trivial, by simp⟩

theorem litLoop_postL {o : Opts} (tab : Table) (ht : TabL T tab) (want : Bytes) (start : Pt) (cs0 : List Char) (h0 : At T start cs0) (v : Bytes)
    (s : St) (cs : List Char) (ha : At T s.pt cs) :
    PostL T cs0 (fun r => r = strip (v.map fun b => Char.ofNat b.toNat) cs) (lift tab (litLoop o want start v s)) := by
  induction v generalizing s cs with
  | nil => exact ⟨ht, cs, by simp only; rw [(failAt_fields _ _ _ _).1]; exact ha, rfl⟩
  | cons b v ih =>
    have hb : (Char.ofNat b.toNat).toNat = b.toNat := toNat_ofNat_small (by have := b.toNat_lt; omega)
    simp only [litLoop]
    have hrest : s.pt.rest = encode cs := by obtain ⟨_, _, _, h⟩ := ha; exact h
    cases cs with
    | nil =>
      rw [if_neg]
      · exact ⟨ht, h0, rfl⟩
      · intro h
        exact Pt.rest_ne_of_rn h (by rw [hrest]; rfl)
    | cons c cs =>
      have hrn : s.pt.rn = c.toNat := by unfold Pt.rn; rw [hrest, decode_cons]
      simp only [List.map_cons, strip, hrn]
      by_cases h : c.toNat = b.toNat
      · rw [if_pos h, if_pos (by rw [← h, Char.ofNat_toNat])]
        exact ih (s.read o) cs (by rw [(read_fields o s).1]; exact ha.next)
      · rw [if_neg h, if_neg (fun hh => h (by rw [← hh, hb]))]
        exact ⟨ht, h0, rfl⟩

theorem evalRuleM_postL (hev : EvL T ev) (r : Rule) (m : MSt) (cs : List Char) (ht : TabL T m.memo) (ha : At T m.s.pt cs) :
    PostL T cs (Matches plain (.ref r) cs) (evalRuleM ev gram r m) := by
  unfold evalRuleM
  cases hg : m.get (.rule r) with
  | some t => exact hit_postL (e := .ref r) ht ha rfl hg
  | none =>
    simp only
    refine store_postL (e := .ref r) rfl ha ?_
    have h1 := hev (.node r []) (gram r) { m with s := { m.s with rstack := r :: m.s.rstack, frame := [] } } cs rfl (gram_small r) ht ha
    cases hr : ev (.node r []) (gram r) { m with s := { m.s with rstack := r :: m.s.rstack, frame := [] } } with
    | ok v m' => rw [hr] at h1; exact ⟨h1.1, h1.2.imp fun c h => ⟨h.1, .ref h.2⟩⟩
    | fail m' => rw [hr] at h1; exact ⟨h1.1, h1.2.1, .ref h1.2.2⟩
    | panic x m' => trivial
    | timeout => trivial

theorem stepM_postL {o : Opts} (hev : EvL T ev) (n : Nat) (k : Key) (e : Ex) (m : MSt) (cs : List Char) (hk : nodeAt k = some e)
    (hsm : e.small = true) (ht : TabL T m.memo) (ha : At T m.s.pt cs) : PostL T cs (Matches plain e.erase cs) (stepM o gram ev n k e m) := by
  have hrest : m.s.pt.rest = encode cs := by obtain ⟨_, _, _, h⟩ := ha; exact h
  have heof : m.s.pt.atEof = true ↔ cs = [] := by
    rw [Pt.atEof_iff, hrest]
    cases cs with
    | nil => simp [encode]
    | cons c cs => simp [encode_ne_nil]
  have hrn : ∀ c t, cs = c :: t → m.s.pt.rn = c.toNat := by
    rintro c t rfl; unfold Pt.rn; rw [hrest, decode_cons]
  cases e with
  | action a e =>
    have h1 := hev (k.sub 0) e m cs (nodeAt_sub hk rfl) hsm ht ha
    simp only [stepM]
    cases hr : ev (k.sub 0) e m with
    | ok v m' =>
      rw [hr] at h1
      simp only
      split
      · exact h1
      · exact h1
      · trivial
    | fail m' => rw [hr] at h1; exact h1
    | panic x m' => trivial
    | timeout => trivial
  | andCode c =>
    cases c with
    | initParser => exact ⟨ht, cs, ha, .lit (s := [])⟩
    | pushError x => exact ⟨ht, ha, never_fails cs⟩
    | fatalError x => trivial
  | any =>
    simp only [stepM, step]
    cases cs with
    | nil =>
      rw [if_pos (heof.2 rfl)]
      exact ⟨ht, by simp only; rw [(failAt_fields _ _ _ _).1]; exact ha, .anyEnd⟩
    | cons c cs =>
      rw [if_neg (by simp [heof])]
      exact ⟨ht, cs, by simp only; rw [(failAt_fields _ _ _ _).1, (read_fields o m.s).1]; exact ha.next, .any⟩
  | cls val inv chars ranges =>
    simp only [stepM, step, Ex.erase]
    cases cs with
    | nil =>
      rw [if_pos (heof.2 rfl)]
      exact ⟨ht, by simp only; rw [(failAt_fields _ _ _ _).1]; exact ha, .clsEnd⟩
    | cons c cs =>
      rw [if_neg (by simp [heof]), hrn c cs rfl, ← class_small (c := c) (inv := inv) (by simpa [Ex.small] using hsm)]
      split
      · rename_i hc
        exact ⟨ht, cs, by simp only; rw [(failAt_fields _ _ _ _).1, (read_fields o m.s).1]; exact ha.next, .cls hc⟩
      · rename_i hc
        exact ⟨ht, by simp only; rw [(failAt_fields _ _ _ _).1]; exact ha, .clsFail (by simpa using hc)⟩
  | lit v =>
    refine (litLoop_postL m.memo ht (litWant v) m.s.pt cs ha v m.s cs ha).imp ?_ (fun _ => rfl)
    rintro x rfl
    simp only [Ex.erase]
    cases hx : strip (v.map fun b => Char.ofNat b.toNat) cs with
    | none => exact .litFail (strip_none hx)
    | some t => have := strip_some hx; subst this; exact .lit
  | state c =>
    refine ⟨ht, cs, ?_, .lit (s := [])⟩
    simp only
    cases c with
    | initState => exact ha
    | warnComment => simp only [runState]; split <;> exact ha
  | choice alts => exact choiceLoopM_postL hev alts (subs_of fun i e h => nodeAt_sub hk h) hsm m cs ht ha
  | labeled l e =>
    have h1 := hev (k.sub 0) e { m with s := { m.s with frame := [] } } cs (nodeAt_sub hk rfl) hsm ht ha
    simp only [stepM]
    cases hr : ev (k.sub 0) e { m with s := { m.s with frame := [] } } with
    | ok v m' => rw [hr] at h1; exact h1
    | fail m' => rw [hr] at h1; exact h1
    | panic x m' => trivial
    | timeout => trivial
  | not e =>
    have h1 := hev (k.sub 0) e { m with s := { m.s with frame := [], mfInv := !m.s.mfInv } } cs (nodeAt_sub hk rfl) hsm ht ha
    simp only [stepM]
    cases hr : ev (k.sub 0) e { m with s := { m.s with frame := [], mfInv := !m.s.mfInv } } with
    | ok v m' => rw [hr] at h1; obtain ⟨h2, c, -, h3⟩ := h1; exact ⟨h2, ha, .notFail h3⟩
    | fail m' => rw [hr] at h1; exact ⟨h1.1, cs, ha, .not h1.2.2⟩
    | panic x m' => trivial
    | timeout => trivial
  | plus e =>
    have h1 := hev (k.sub 0) e { m with s := { m.s with frame := [] } } cs (nodeAt_sub hk rfl) hsm ht ha
    simp only [stepM]
    cases hr : ev (k.sub 0) e { m with s := { m.s with frame := [] } } with
    | ok v m' =>
      rw [hr] at h1
      obtain ⟨h2, cs', h3, h4⟩ := h1
      obtain ⟨i1, i2⟩ := starLoopM_postL (f := ev (k.sub 0) e) (e := e.erase) (fun m cs ht ha => hev _ e m cs (nodeAt_sub hk rfl) hsm ht ha)
        n [v] { m' with s := { m'.s with frame := m.s.frame } } cs' h2 h3
      simp only
      cases hs : starLoopM (ev (k.sub 0) e) n [v] { m' with s := { m'.s with frame := m.s.frame } } with
      | ok w u => rw [hs] at i1; exact ⟨i1.1, i1.2.imp fun c h => ⟨h.1, .plus h4 h.2⟩⟩
      | fail u => exact absurd hs (i2 u)
      | _ => trivial
    | fail m' => rw [hr] at h1; exact ⟨h1.1, h1.2.1, .plusFail h1.2.2⟩
    | panic x m' => trivial
    | timeout => trivial
  | ref r => exact evalRuleM_postL hev r m cs ht ha
  | seq es => exact seqLoopM_postL hev m.s cs ha es (subs_of fun i e h => nodeAt_sub hk h) hsm [] m cs ht ha
  | star e =>
    exact (starLoopM_postL (f := ev (k.sub 0) e) (e := e.erase) (fun m cs ht ha => hev _ e m cs (nodeAt_sub hk rfl) hsm ht ha) n [] m cs ht ha).1
  | opt e =>
    have h1 := hev (k.sub 0) e { m with s := { m.s with frame := [] } } cs (nodeAt_sub hk rfl) hsm ht ha
    simp only [stepM]
    cases hr : ev (k.sub 0) e { m with s := { m.s with frame := [] } } with
    | ok v m' => rw [hr] at h1; exact ⟨h1.1, h1.2.imp fun c h => ⟨h.1, .opt h.2⟩⟩
    | fail m' => rw [hr] at h1; exact ⟨h1.1, cs, h1.2.1, .optNone h1.2.2⟩
    | panic x m' => trivial
    | timeout => trivial

theorem evalM_postL (o : Opts) (T : List Char) (n : Nat) : EvL T (evalM o gram n) := by
  induction n with
  | zero => intro k e m cs _ _ _ _; trivial
  | succ n ih =>
    intro k e m cs hk hsm ht ha
    simp only [evalM]
    cases hg : m.get k with
    | some t => exact hit_postL ht ha hk hg
    | none =>
      simp only
      split
      · trivial
      · exact store_postL hk ha (stepM_postL (m := { m with s := { m.s with cnt := m.s.cnt + 1 } }) ih n k e cs hk hsm ht ha)

end

end Verif.Memo
