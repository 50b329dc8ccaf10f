import Verif.Model.Construct
import Verif.Spec.Printable
import Verif.Spec.Utf8
/-
Configurations built with the constructors of package `ast` from arguments that can stand in a file (used by C74).
-/
namespace Verif.Spec.Built
open Verif Spec

/-- A name: letters, digits, `_` and `-`. -/
def Name (n : Bytes) : Prop := n ≠ [] ∧ ∀ c ∈ n, isNameChar c = true

/-- `if` and a number, with or without a sign. -/
def ifNumber : Bytes → Bool
  | 105 :: 102 :: 45 :: d :: _ => isDigit d
  | 105 :: 102 :: d :: _ => isDigit d
  | _ => false

/-- The name of a plugin of a block: a name that reads neither as the beginning of a branch nor as that of an else
block.  (`if-plugin` and `else-plugin` do not.) -/
def PluginName (n : Bytes) : Prop :=
  Name n ∧ ifNumber n = false ∧ n ≠ b!"else" ∧ ∀ r, n = b!"else" ++ r → ifNumber r = false

/-- The text of a quoted string: every quote in it has a backslash before it, and it does not end with a backslash. -/
def Quoted (v : Bytes) (sat : Sat) : Prop :=
  ValidUTF8 v ∧ (sat = .doubleQuoted ∧ StringBody 34 v ∨ sat = .singleQuoted ∧ StringBody 39 v)

/-- A string value: quoted, or a word of at least two letters, digits and `_` that starts with no digit. -/
def Text (v : Bytes) (sat : Sat) : Prop :=
  Quoted v sat ∨
    sat = .bareword ∧ 2 ≤ v.length ∧ (∀ c ∈ v, isWordChar c = true) ∧ ∀ c, v.head? = some c → isWordStart c = true

/-- A text with balanced quotes and without newlines outside them (in particular, one without quotes and newlines). -/
def Plain (v : Bytes) : Prop := ValidUTF8 v ∧ Balanced v

/-- Names for `NewSelectorFromNames`: at least one; none is empty or contains `[`, `]` or `,`. -/
def Fields (names : List Bytes) : Prop :=
  names ≠ [] ∧ ∀ n ∈ names, n ≠ [] ∧ Plain n ∧ ∀ c ∈ n, isSelChar c = true

/-- A key of a hash. -/
inductive Key : HKey → Prop
  | str {v sat} : Text v sat → Key (.str (New.stringAttribute [] v sat))
  | num {x} : Exact x → Key (.num (New.numberAttribute [] x))

mutual
/-- An attribute with the name `n` (empty for the elements of an array and the values of a hash). -/
inductive Value : (n : Bytes) → Attr → Prop
  | str {n v sat} : Text v sat → Value n (.str (New.stringAttribute n v sat))
  | num {n x} : Exact x → Value n (.num (New.numberAttribute n x))
  | arr {n l} : (∀ a ∈ l, Value [] a) → Value n (New.arrayAttribute n l)
  | hash {n l} : (∀ e ∈ l, Entry e) → Value n (New.hashAttribute n l)
/-- An entry of a hash. -/
inductive Entry : HEntry → Prop
  | mk {k v} : Key k → Value [] v → Entry (New.hashEntry k v)
end

mutual
/-- An attribute of a plugin. -/
inductive Setting : Attr → Prop
  | value {n a} : Name n → Value n a → Setting a
  | plugin {n p} : Name n → Plug p → Setting (New.pluginAttribute n p)
/-- A plugin. -/
inductive Plug : Plugin → Prop
  | mk {n l} : Name n → (∀ a ∈ l, Setting a) → Plug (New.plugin n l)
end

/-- An operand in a condition.  An array must not read as a field reference, as one with a single element does. -/
inductive Operand : Rvalue → Prop
  | str {v sat} : Quoted v sat → Operand (.str (New.stringAttribute [] v sat))
  | num {x} : Exact x → Operand (.num (New.numberAttribute [] x))
  | sel {names} : Fields names → Operand (.sel (New.selectorFromNames names))
  | re {v} : Plain v → StringBody 47 v → Operand (.re (New.regexp v))
  | arr {l} : (∀ a ∈ l, Value [] a) → ¬ SelLike (New.arrayRvalue [] l).valueStr → Operand (New.arrayRvalue [] l)

/-- The right side of `=~` and `!~`. -/
inductive Pattern : Rvalue → Prop
  | str {v sat} : Quoted v sat → Pattern (.str (New.stringAttribute [] v sat))
  | re {v} : Plain v → StringBody 47 v → Pattern (.re (New.regexp v))

/-- `BooleanOperator{Op: k}` -/
def op (k : BoolOpKind) : BoolOp := ⟨k, Pos.zero⟩

mutual
/-- An expression with the boolean operator `k`. -/
inductive Test : (k : BoolOpKind) → Expr → Prop
  | cond {k c} : Cond c → Test k (New.conditionExpression (op k) c)
  | negCond {k c} : Cond c → Test k (New.negativeConditionExpression (op k) c)
  | negSel {k names} : Fields names → Test k (New.negativeSelectorExpression (op k) (New.selectorFromNames names))
  | inE {k l r} : Operand l → Operand r → Test k (New.inExpression (op k) l r)
  | notIn {k l r} : Operand l → Operand r → Test k (New.notInExpression (op k) l r)
  | rval {k r} : Operand r → Test k (New.rvalueExpression (op k) r)
  | cmp {k l c r} : Operand l → c ≠ .undefined → Operand r → Test k (New.compareExpression (op k) l ⟨c, Pos.zero⟩ r)
  | re {k l c r} : Operand l → c ≠ .undefined → Pattern r → Test k (New.regexpExpression (op k) l ⟨c, Pos.zero⟩ r)
/-- A condition: the first expression has the operator `NoOperator`, the others have `And`, `Or`, `Xor` or `Nand`. -/
inductive Cond : Condition → Prop
  | mk {e l} : Test .noOp e → (∀ x ∈ l, Joined x) → Cond (New.condition (e :: l))
/-- An expression after the first. -/
inductive Joined : Expr → Prop
  | mk {k e} : k ≠ .noOp → k ≠ .undefined → Test k e → Joined e
end

mutual
/-- An element of a block. -/
inductive Item : BOP → Prop
  | plugin {p} : Plug p → PluginName p.name → Item (.plugin p)
  | branch {c b e l} : Cond c → (∀ x ∈ b, Item x) → (∀ x ∈ e, Item x) → (∀ x ∈ l, ElseIf x) →
      Item (New.branch (New.ifBlock c b) (New.elseBlock e) l)
/-- An else-if block. -/
inductive ElseIf : Elif → Prop
  | mk {c b} : Cond c → (∀ x ∈ b, Item x) → ElseIf (New.elseIfBlock c b)
end

/-- The sections of one type. -/
def Sections (pt : PluginType) (l : List Section) : Prop :=
  ∀ s ∈ l, ∃ b, s = New.pluginSection pt b ∧ ∀ x ∈ b, Item x

/-- A configuration. -/
def IsConfig (c : Config) : Prop :=
  ∃ i f o, c = New.config i f o ∧ Sections .input i ∧ Sections .filter f ∧ Sections .output o

end Verif.Spec.Built
