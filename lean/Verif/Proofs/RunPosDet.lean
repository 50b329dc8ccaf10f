import Verif.Proofs.RunPosIff
/-
Successful evaluations with positions and warnings are unique.
-/
namespace Verif
open Spec

section
variable {o : Opts} {pf : Bytes → Pos}

theorem RP.notFails {e b ws v b' f ws'} (h : RP o pf e b [] ws v b' f ws') : ¬ Fails o e b := by
  intro hf
  have h1 := h.run
  rw [show erF [] = [] from rfl] at h1
  rw [Fails] at hf
  rw [hf] at h1
  cases h1

theorem choice_pick {pre : List Ex} {e : Ex} {post : List Ex} {b fr ws v b' fr' ws'} (hp : ∀ x ∈ pre, Fails o x b) (hn : ¬ Fails o e b)
    (h : RP o pf (.choice (pre ++ e :: post)) b fr ws v b' fr' ws') : (∃ f, RP o pf e b [] ws v b' f ws') ∧ fr' = fr := by
  induction pre with
  | nil =>
    rcases choice_rp.1 h with ⟨h1, h2⟩ | ⟨h1, _⟩
    · exact ⟨h1, h2⟩
    · exact absurd h1 hn
  | cons x pre ih =>
    rcases choice_rp.1 h with ⟨⟨f, h1⟩, h2⟩ | ⟨_, h1⟩
    · exact absurd (hp x (by simp)) h1.notFails
    · exact ih (fun y hy => hp y (by simp [hy])) h1

mutual
/-- The result is determined. -/
theorem RP.det {e b fr ws v b' fr' ws'} : RP o pf e b fr ws v b' fr' ws' → ∀ {v2 b2 fr2 ws2}, RP o pf e b fr ws v2 b2 fr2 ws2 →
    v = v2 ∧ b' = b2 ∧ fr' = fr2 ∧ ws' = ws2
  | .action h ha => fun h2 => by
    obtain ⟨v0, h3, h4⟩ := action_rp.1 h2
    obtain ⟨rfl, rfl, rfl, rfl⟩ := RP.det h h3
    rw [ha] at h4
    injection h4 with h4
    exact ⟨h4, rfl, rfl, rfl⟩
  | .term ht h => fun h2 => by
    cases h2 with
    | term _ h3 =>
      have h4 := h []
      rw [h3 []] at h4
      injection h4 with h4 h5
      exact ⟨h4.symm, h5.symm, rfl, rfl⟩
    | _ => cases ht
  | .initParser => fun h2 => by
    cases h2 with
    | initParser => exact ⟨rfl, rfl, rfl, rfl⟩
    | term h => cases h
  | .initState => fun h2 => by
    cases h2 with
    | initState => exact ⟨rfl, rfl, rfl, rfl⟩
    | term h => cases h
  | .choice hp h => fun h2 => by
    obtain ⟨⟨f, h3⟩, rfl⟩ := choice_pick hp h.notFails h2
    obtain ⟨rfl, rfl, _, rfl⟩ := RP.det h h3
    exact ⟨rfl, rfl, rfl, rfl⟩
  | .labeled h => fun h2 => by
    obtain ⟨⟨f, h3⟩, rfl⟩ := labeled_rp.1 h2
    obtain ⟨rfl, rfl, _, rfl⟩ := RP.det h h3
    exact ⟨rfl, rfl, rfl, rfl⟩
  | .not h => fun h2 => by
    obtain ⟨_, rfl, rfl, rfl, rfl⟩ := not_rp.1 h2
    exact ⟨rfl, rfl, rfl, rfl⟩
  | .optSome h => fun h2 => by
    cases h2 with
    | optSome h3 =>
      obtain ⟨rfl, rfl, _, rfl⟩ := RP.det h h3
      exact ⟨rfl, rfl, rfl, rfl⟩
    | optNone h3 => exact absurd h3 h.notFails
    | term h => cases h
  | .optNone h => fun h2 => by
    cases h2 with
    | optSome h3 => exact absurd h h3.notFails
    | optNone h3 => exact ⟨rfl, rfl, rfl, rfl⟩
    | term h => cases h
  | .ref h => fun h2 => by
    cases h2 with
    | ref h3 =>
      obtain ⟨rfl, rfl, _, rfl⟩ := RP.det h h3
      exact ⟨rfl, rfl, rfl, rfl⟩
    | term h => cases h
  | .star h hf => fun h2 => by
    cases h2 with
    | star h3 hf3 =>
      obtain ⟨rfl, rfl, rfl⟩ := RStar.det h hf h3 hf3
      exact ⟨rfl, rfl, rfl, rfl⟩
    | term h => cases h
  | .plus h h1 hf => fun h2 => by
    cases h2 with
    | plus h3 h4 hf3 =>
      obtain ⟨rfl, rfl, _, rfl⟩ := RP.det h h3
      obtain ⟨rfl, rfl, rfl⟩ := RStar.det h1 hf h4 hf3
      exact ⟨rfl, rfl, rfl, rfl⟩
    | term h => cases h
  | .seq h => fun h2 => by
    cases h2 with
    | seq h3 =>
      obtain ⟨rfl, rfl, rfl, rfl⟩ := RSeq.det h h3
      exact ⟨rfl, rfl, rfl, rfl⟩
    | term h => cases h
/-- The same for sequences. -/
theorem RSeq.det {last es b fr ws vs b' fr' ws'} : RSeq o pf last es b fr ws vs b' fr' ws' → ∀ {vs2 b2 fr2 ws2},
    RSeq o pf last es b fr ws vs2 b2 fr2 ws2 → vs = vs2 ∧ b' = b2 ∧ fr' = fr2 ∧ ws' = ws2
  | .nil => fun h2 => by
    cases h2
    exact ⟨rfl, rfl, rfl, rfl⟩
  | .cons h h1 => fun h2 => by
    cases h2 with
    | cons h3 h4 =>
      obtain ⟨rfl, rfl, rfl, rfl⟩ := RP.det h h3
      obtain ⟨rfl, rfl, rfl, rfl⟩ := RSeq.det h1 h4
      exact ⟨rfl, rfl, rfl, rfl⟩
    | warn _ => exact absurd h no_warn_rp
  | .warn h => fun h2 => by
    cases h2 with
    | cons h3 h4 => exact absurd h3 no_warn_rp
    | warn h3 =>
      obtain ⟨rfl, rfl, rfl, rfl⟩ := RSeq.det h h3
      exact ⟨rfl, rfl, rfl, rfl⟩
/-- The same for repetitions. -/
theorem RStar.det {e b ws vs b' ws'} : RStar o pf e b ws vs b' ws' → Fails o e b' → ∀ {vs2 b2 ws2},
    RStar o pf e b ws vs2 b2 ws2 → Fails o e b2 → vs = vs2 ∧ b' = b2 ∧ ws' = ws2
  | .nil => fun hf _ _ _ h2 hf2 => by
    cases h2 with
    | nil => exact ⟨rfl, rfl, rfl⟩
    | cons h3 _ => exact absurd hf h3.notFails
  | .cons h h1 => fun hf _ _ _ h2 hf2 => by
    cases h2 with
    | nil => exact absurd hf2 h.notFails
    | cons h3 h4 =>
      obtain ⟨rfl, rfl, _, rfl⟩ := RP.det h h3
      obtain ⟨rfl, rfl, rfl⟩ := RStar.det h1 hf h4 hf2
      exact ⟨rfl, rfl, rfl⟩
end

theorem RunsP.det {e b ws v b' ws' v2 b2 ws2} (h : RunsP o pf e b ws v b' ws') (h2 : RunsP o pf e b ws v2 b2 ws2) :
    v = v2 ∧ b' = b2 ∧ ws' = ws2 := by
  obtain ⟨f, h⟩ := h
  obtain ⟨f2, h2⟩ := h2
  obtain ⟨h3, h4, _, h5⟩ := h.det h2
  exact ⟨h3, h4, h5⟩

end
end Verif
