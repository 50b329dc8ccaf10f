import Verif.Proofs.Engine
/-
Invariants of values: a predicate on values that every action preserves holds for the result of
every evaluation.
-/
namespace Verif

/-- A predicate on values and a predicate on points, closed under what the engine does. -/
structure ValInv (o : Opts) where
  Q : Val → Prop
  I : Pt → Prop
  nil : Q .nil
  bytes : ∀ b, Q (.bytes b)
  list : ∀ l, (∀ v ∈ l, Q v) → Q (.list l)
  adv : ∀ p q, I p → Adv false p q → I q
  act : ∀ a (fr : Frame) p text warns, (∀ l, Q (fr.get l)) → I p →
    (∀ v, runAct o a fr p.pos text warns = .val v → Q v) ∧
    (∀ v m, runAct o a fr p.pos text warns = .err v m → Q v)

namespace ValInv
variable {o : Opts} (V : ValInv o)

/-- All values of a frame. -/
def fr (f : Frame) : Prop := ∀ l, V.Q (f.get l)

theorem fr_nil : V.fr [] := fun _ => V.nil

theorem fr_cons {f : Frame} {l : Lbl} {v : Val} (h : V.fr f) (hv : V.Q v) : V.fr ((l, v) :: f) := by
  intro k
  simp only [Frame.get]
  split
  · exact hv
  · exact h k

/-- The invariant for outcomes. -/
def Ok : Out → Prop
  | .ok v t => V.Q v ∧ V.fr t.frame
  | .fail t => V.fr t.frame
  | _ => True

theorem eval_ok (G : Gram) (n : Nat) (e : Ex) (s : St) (hf : V.fr s.frame) (hI : V.I s.pt) :
    V.Ok (eval o G n e s) := by
  induction n generalizing e s with
  | zero => trivial
  | succ n ih =>
    simp only [eval]
    split
    · trivial
    · have hf : V.fr ({ s with cnt := s.cnt + 1 } : St).frame := hf
      have hI : V.I ({ s with cnt := s.cnt + 1 } : St).pt := hI
      generalize ({ s with cnt := s.cnt + 1 } : St) = s at hf hI
      have hgood := fun e s => eval_good o G n e s
      have hstar : ∀ e m acc s, (∀ v ∈ acc, V.Q v) → V.fr s.frame → V.I s.pt →
          V.Ok (starLoop (eval o G n e) m acc s) := by
        intro e m
        induction m with
        | zero => intros; trivial
        | succ m ihm =>
          intro acc s hacc hf hI
          simp only [starLoop]
          have := ih e { s with frame := [] } V.fr_nil hI
          have hg := hgood e { s with frame := [] }
          cases h : eval o G n e { s with frame := [] } with
          | ok v t =>
            rw [h] at this hg
            refine ihm _ _ ?_ hf (V.adv _ _ hI hg.2.1)
            intro w hw
            rcases List.mem_append.1 hw with hw | hw
            · exact hacc w hw
            · simp at hw; subst hw; exact this.1
          | fail t => exact ⟨V.list _ hacc, hf⟩
          | _ => trivial
      unfold step
      cases e with
      | action a e =>
        simp only
        have := ih e s hf hI
        cases h : eval o G n e s with
        | ok v t =>
          rw [h] at this
          simp only
          have hact := V.act a t.frame s.pt (sliceFrom s.pt t.pt) t.warns this.2 hI
          split
          · rename_i heq; exact ⟨hact.1 _ heq, this.2⟩
          · rename_i heq; exact ⟨hact.2 _ _ heq, this.2⟩
          · trivial
        | fail t => rw [h] at this; exact this
        | _ => trivial
      | andCode c => cases c <;> first | exact ⟨V.nil, hf⟩ | exact hf | trivial
      | any =>
        simp only
        split
        · simp only [Ok, (failAt_fields s _ _ _).2.2.2.1]; exact hf
        · refine ⟨V.bytes _, ?_⟩
          simp only [(failAt_fields _ _ _ _).2.2.2.1, (read_fields o s).2.2.1]; exact hf
      | cls val inv chars ranges =>
        simp only
        split
        · simp only [Ok, (failAt_fields s _ _ _).2.2.2.1]; exact hf
        · split
          · refine ⟨V.bytes _, ?_⟩
            simp only [(failAt_fields _ _ _ _).2.2.2.1, (read_fields o s).2.2.1]; exact hf
          · simp only [Ok, (failAt_fields s _ _ _).2.2.2.1]; exact hf
      | choice alts =>
        simp only
        induction alts generalizing s with
        | nil => exact hf
        | cons e es ihl =>
          simp only [choiceLoop]
          have := ih e { s with frame := [] } V.fr_nil hI
          have hg := hgood e { s with frame := [] }
          cases h : eval o G n e { s with frame := [] } with
          | ok v t => rw [h] at this; exact ⟨this.1, hf⟩
          | fail t => rw [h] at hg; exact ihl _ hf (by simp only [hg.2.1]; exact hI)
          | _ => trivial
      | labeled l e =>
        simp only
        have := ih e { s with frame := [] } V.fr_nil hI
        cases h : eval o G n e { s with frame := [] } with
        | ok v t => rw [h] at this; exact ⟨this.1, V.fr_cons hf this.1⟩
        | fail t => exact hf
        | _ => trivial
      | lit v =>
        simp only
        generalize litWant v = w
        generalize s.pt = p
        clear hI
        induction v generalizing s with
        | nil => refine ⟨V.bytes _, ?_⟩; simp only [(failAt_fields s _ _ _).2.2.2.1]; exact hf
        | cons c cs ihv =>
          simp only [litLoop]
          split
          · exact ihv _ (by rw [(read_fields o s).2.2.1]; exact hf)
          · simp only [Ok, (failAt_fields s _ _ _).2.2.2.1]; exact hf
      | not e =>
        simp only
        cases h : eval o G n e { s with frame := [], mfInv := !s.mfInv } with
        | ok v t => exact hf
        | fail t => exact ⟨V.nil, hf⟩
        | _ => trivial
      | plus e =>
        simp only
        have := ih e { s with frame := [] } V.fr_nil hI
        have hg := hgood e { s with frame := [] }
        cases h : eval o G n e { s with frame := [] } with
        | ok v t =>
          rw [h] at this hg
          exact hstar e n _ _ (by simpa using this.1) hf (V.adv _ _ hI hg.2.1)
        | fail t => exact hf
        | _ => trivial
      | ref r =>
        simp only [evalRule]
        have := ih (G r) { s with rstack := r :: s.rstack, frame := [] } V.fr_nil hI
        cases h : eval o G n (G r) { s with rstack := r :: s.rstack, frame := [] } with
        | ok v t => rw [h] at this; exact ⟨this.1, hf⟩
        | fail t => exact hf
        | _ => trivial
      | seq es =>
        simp only
        suffices H : ∀ s0 acc s, (∀ v ∈ acc, V.Q v) → V.fr s.frame → V.I s.pt →
            V.Ok (seqLoop (eval o G n) s0 es acc s) from H s [] s (by simp) hf hI
        intro s0
        induction es with
        | nil => intro acc s hacc hf hI; exact ⟨V.list _ hacc, hf⟩
        | cons e es ihl =>
          intro acc s hacc hf hI
          simp only [seqLoop]
          have := ih e s hf hI
          have hg := hgood e s
          cases h : eval o G n e s with
          | ok v t =>
            rw [h] at this hg
            refine ihl _ _ ?_ this.2 (V.adv _ _ hI hg.2.1)
            intro w hw
            rcases List.mem_append.1 hw with hw | hw
            · exact hacc w hw
            · simp at hw; subst hw; exact this.1
          | fail t => rw [h] at this; exact this
          | _ => trivial
      | state c => exact ⟨V.nil, by simp only [(runState_fields o c s).2.2.1]; exact hf⟩
      | star e => exact hstar e n _ _ (by simp) hf hI
      | opt e =>
        simp only
        have := ih e { s with frame := [] } V.fr_nil hI
        cases h : eval o G n e { s with frame := [] } with
        | ok v t => rw [h] at this; exact ⟨this.1, hf⟩
        | fail t => exact ⟨V.nil, hf⟩
        | _ => trivial

end ValInv
end Verif
