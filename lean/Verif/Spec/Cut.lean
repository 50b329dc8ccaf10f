import Verif.Spec.MapAst
import Verif.Spec.Positions
/-
What is left of a configuration when the end of the file is missing.
-/
namespace Verif
open Verif.Spec

/-- Map positions, leave comment blocks alone. -/
def AMap.onPos (g : Pos → Pos) : AMap := ⟨g, fun c => c⟩

/-- The place in `data` with the offset of `p`; `Pos.zero`, which means "no position", stays. -/
def relocate (data : Bytes) (p : Pos) : Pos := if p = Pos.zero then p else posAt data p.offset.toNat

/-- The sections that start before offset `n`, each position in them replaced by `f`. -/
def startingBefore (n : Nat) (f : Pos → Pos) (l : List Section) : List Section :=
  (l.filter fun s => s.start.offset < (n : Int)).map (AMap.onPos f).sect

end Verif
