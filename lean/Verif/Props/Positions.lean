import Verif.Proofs.Positions
import Verif.Props.Engine
/-
Property C04: positions in the AST.
-/
namespace Verif.Props
open Verif Spec

/-- **C04** Every position stored anywhere in the configuration of a successful parse is zero (not
set) or the position — line, column and offset by counting, see `Spec.posAt` — of a byte offset
within the input. -/
theorem C04_positions (o : Opts) (filename data : Bytes) (ff : List FF) (c : Config)
    (hv : o.allowInvalid = false ∨ ValidUTF8 data)
    (h : (parse o filename data ff).1 = .done (.config c) []) :
    ∀ p ∈ positions c, p = Pos.zero ∨
      (0 ≤ p.offset ∧ p.offset.toNat ≤ data.length ∧ p = posAt data p.offset.toNat) := by
  have hvalid : ValidUTF8 data := by
    rcases hv with hv | hv
    · exact C03_valid o filename data ff hv (by rw [h]; rfl)
    · exact hv
  rw [parse_finish] at h
  cases he : evalInit (parseFuel data) o data ff with
  | timeout => rw [he] at h; cases h
  | fail t => rw [he] at h; simp [finish] at h
  | panic m t => rw [he] at h; simp [finish] at h
  | ok v t =>
    rw [he] at h
    simp only [finish, ParseRes.done.injEq, dedupe_nil_iff] at h
    obtain ⟨t', h', rfl⟩ := evalInit_ok he
    have := (posInv o data).eval_ok gram (parseFuel data) G.init (initSt o data ff) (ValInv.fr_nil _)
      (PtOk.init o data ff hvalid)
    rw [h'] at this
    have hq := this.1
    rw [h.1] at hq
    intro p hp
    rcases hq p hp with h0 | ⟨k, hk, rfl⟩
    · exact .inl h0
    · have : (posAt data k).offset = k := by unfold posAt; split <;> rfl
      rw [this]
      exact .inr ⟨by omega, by simpa using hk, by simp⟩

/-- The theorem is not empty: this file has a plugin on its third line. -/
example : (match (parse {} [] b!"# ü\ninput {\n  stdin { } }" []).1 with
    | .done (.config c) [] => positions c
    | _ => []) = [⟨2, 1, 5⟩, ⟨3, 3, 15⟩] := by decide +kernel

end Verif.Props
