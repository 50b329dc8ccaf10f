import Verif.Spec.Traverse
import Verif.Model.App
import Verif.Spec.Printable
import Verif.Spec.Utf8
/-
Configurations edited with `ApplyPlugins` (used by C76).
-/
namespace Verif.Spec
open Verif

/-- A plugin that can stand anywhere in a block: it is formatted faithfully, its text is valid UTF-8, and its name can be
taken neither for the beginning of a branch nor for that of an else block. -/
def Fit (p : Plugin) : Prop := PluginOk true p ∧ ValidUTF8 p.str ∧ ¬ IfLike p.name ∧ ¬ ElseName p.name

/-- The operation puts `p` into the list. -/
def Puts (o : CurOp) (p : BOP) : Prop := o = .replace p ∨ o = .insertBefore p ∨ o = .insertAfter p

/-- A callback that puts nothing but fitting plugins into a list, as long as the plugins of the list it works on are
fitting; it uses its cursor in the disciplined way. -/
def FitCallback {σ : Type} (f : Callback σ) : Prop :=
  ∀ s c s' ops, f s c = some (s', ops) → Disciplined ops ∧
    ((∀ p, .plugin p ∈ c.parent → Fit p) → ∀ o ∈ ops, ∀ b, Puts o b → ∃ p, b = .plugin p ∧ Fit p)

/-- A call of `ApplyPlugins` on the block of a section. -/
def Pass (s t : Section) : Prop :=
  ∃ (σ : Type) (f : Callback σ) (x y : σ) (fuel : Nat) (r : List BOP), FitCallback f ∧ bopsSize s.bops ≤ fuel ∧
    applyPlugins f fuel x s.bops = .done y r ∧ t = { s with bops := r }

/-- `Edits c d`: `d` comes from `c` by calls of `ApplyPlugins` on blocks of sections, with any callbacks of the kind above. -/
inductive Edits (c : Config) : Config → Prop
  | done : Edits c c
  | input {d : Config} {l r : List Section} {s t : Section} : Edits c d → d.input = l ++ s :: r → Pass s t → Edits c { d with input := l ++ t :: r }
  | filter {d : Config} {l r : List Section} {s t : Section} : Edits c d → d.filter = l ++ s :: r → Pass s t → Edits c { d with filter := l ++ t :: r }
  | output {d : Config} {l r : List Section} {s t : Section} : Edits c d → d.output = l ++ s :: r → Pass s t → Edits c { d with output := l ++ t :: r }

/-- No plugin of a block has a name that can be taken for the beginning of an else block. -/
def NoElseNames (c : Config) : Prop :=
  ∀ s ∈ c.input ++ c.filter ++ c.output, ∀ b ∈ visitList s.bops, ∀ p, b = .plugin p ∨ b = .pluginPtr p → ¬ ElseName p.name

end Verif.Spec
