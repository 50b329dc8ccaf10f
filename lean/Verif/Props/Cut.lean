import Verif.Proofs.Cut
import Verif.Props.Exact
import Verif.Props.Concat
/-
C79: a file that has been cut off.
-/
namespace Verif.Props
open Verif Verif.Spec

/-- **C79** If `Parse` accepts a file and also its beginning `P`, then the configuration of the beginning consists of all
sections that start in `P`, each of them complete, with its comments, and with everything at the same offset (`relocate P`
gives the line and the column that the offset has in `P`). So a file cut off in the middle of a section is never
read as a file with less in this section. -/
theorem C79_truncated (o : Opts) (f f' P Q : Bytes) (ff ff' : List FF) (a c : Config)
    (ho : o.allowInvalid = false ∨ (ValidUTF8 P ∧ ValidUTF8 (P ++ Q)))
    (hP : (parse o f P ff).1 = .done (.config a) []) (hc : (parse o f' (P ++ Q) ff').1 = .done (.config c) []) :
    a.input = startingBefore P.length (relocate P) c.input ∧
    a.filter = startingBefore P.length (relocate P) c.filter ∧
    a.output = startingBefore P.length (relocate P) c.output := by
  obtain ⟨⟨k, k1, k2, k3⟩, k4⟩ := C04_tree o f P ff (ho.imp_right And.left) (by rw [hP]; rfl)
  obtain ⟨⟨m, m1, m2, m3⟩, m4⟩ := C04_tree o f' (P ++ Q) ff' (ho.imp_right And.right) (by rw [hc]; rfl)
  have hk := k4 k k1 k2 k3
  have hm := m4 m m1 m2 m3
  rw [hP] at hk
  rw [hc] at hm
  injection hk with hk
  injection hk with hk
  injection hm with hm
  injection hm with hm
  have h := tree_prefix o.ignoreComments (Q := Q) k1 k2 m1 m2 (by rw [k3, m3])
  rw [k3, m3] at h
  subst hk hm
  have key : ∀ (t : PluginType) (l : List Section), startingBefore P.length (relocate P) (l.filter (·.ptype = t)) =
      (startingBefore P.length (relocate P) l).filter (·.ptype = t) := by
    intro t l
    unfold startingBefore
    rw [← filter_sect, List.filter_filter, List.filter_filter]
    simp only [Bool.and_comm]
  refine ⟨?_, ?_, ?_⟩
  all_goals
    simp only [CFile.astAt]
    rw [key, ← h]
    rfl

/-- The line and the column of an offset in the beginning are those it has in the whole file. -/
theorem C79_place (P Q : Bytes) (j : Nat) (hj : j < P.length) : relocate P (posAt (P ++ Q) j) = posAt (P ++ Q) j := by
  have h1 := congrFun (relocate_posAt P (P ++ Q)) j
  have h2 : posAt P j = posAt (P ++ Q) j := by
    unfold posAt
    rw [List.getElem?_append_left hj, List.take_append_of_le_length (by omega)]
  exact h1.trans h2

-- A cut in the middle of a comment after the first section: the hypotheses hold, with one section kept and one lost.
example : (ValidUTF8 b!"input { stdin {} } # on" ∧ ValidUTF8 (b!"input { stdin {} } # on" ++ b!"e\nfilter { mutate {} }")) ∧
    (∃ a, (parse {} [] b!"input { stdin {} } # on" []).1 = .done (.config a) []) ∧
    ∃ c, (parse {} [] (b!"input { stdin {} } # on" ++ b!"e\nfilter { mutate {} }") []).1 = .done (.config c) [] :=
  ⟨⟨validUTF8_ascii (by decide), validUTF8_ascii (by decide)⟩, C13_nil_error _ _ _ _ (by decide +kernel),
    C13_nil_error _ _ _ _ (by decide +kernel)⟩

-- What the theorem then says is visible in the results.
example : ((match (parse {} [] b!"input { stdin {} } # on" []).1 with
      | .done (.config a) [] => some (a.input.length, a.filter.length, a.output.length)
      | _ => none) = some (1, 0, 0)) ∧
    (match (parse {} [] (b!"input { stdin {} } # on" ++ b!"e\nfilter { mutate {} }") []).1 with
      | .done (.config c) [] => some (c.input.length, c.filter.length, (startingBefore 23 id c.input).length,
          (startingBefore 23 id c.filter).length)
      | _ => none) = some (1, 1, 1, 0) :=
  ⟨by decide +kernel, by decide +kernel⟩

-- A cut inside a section: no configuration (the theorem would have to give the plugin after the cut, too).
example : (parse {} [] b!"input { stdin {} " []).1.errs ≠ [] := by decide +kernel

end Verif.Props
