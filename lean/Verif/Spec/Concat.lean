import Verif.Spec.MapAst
/-
What the configuration of two files in a row is made of (used by C77).
-/
namespace Verif.Spec
open Verif

/-- All sections of a configuration. -/
def allSections (c : Config) : List Section := c.input ++ c.filter ++ c.output

/-- A section without positions and without the comment in front of it: its type, its block with all comments in it, and the
comments before the closing bracket. -/
def bare (s : Section) : Section := { AMap.noPos.sect s with comment := [] }

/-- The texts of the comments of a block of comments. -/
def texts (b : CommentBlock) : List Bytes := b.map (·.text)

/-- The texts of the comments between and around the sections. -/
def outerTexts (c : Config) : List Bytes := (allSections c).flatMap (fun s => texts s.comment) ++ texts c.footer

/-- `c` consists of the sections of `a` and, after them, those of `b`, for each type of section. -/
def SectionsOf (c a b : Config) : Prop :=
  c.input.map bare = a.input.map bare ++ b.input.map bare ∧
  c.filter.map bare = a.filter.map bare ++ b.filter.map bare ∧
  c.output.map bare = a.output.map bare ++ b.output.map bare

/-- The comments between and around the sections of `c` are those of `a` and `b`. -/
def CommentsOf (c a b : Config) : Prop := (outerTexts c).Perm (outerTexts a ++ outerTexts b)

end Verif.Spec
