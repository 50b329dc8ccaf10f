import Verif.Spec.Positioned
import Verif.Spec.Clear
import Verif.Model.Syntax
/-
What the entry points of the parser other than "init" and "config" return for a piece of text at the beginning of
the input.  The positions are those of the places in the input (`pos`, by offset).
-/
namespace Verif.Spec

/-- The value of an operand of a condition as the parser returns it. -/
def rvalVal : Rvalue → Val
  | .str a => .attr (.str a)
  | .num a => .attr (.num a)
  | .arr p n as c f => .attr (.arr p n as c f)
  | .sel s => .selector s
  | .re r => .regexp r
  | .nil => .nil

/-- A plugin or a branch as the parser returns it. -/
def itemVal : BOP → Val
  | .plugin p => .plugin p
  | .branch p c b cm f ei el => .branch p c b cm f ei el
  | _ => .nil

/-- The entry point `name` returns `v` for the piece of text `t`.  With `cl` no plugin in it may have a name that starts
like a branch (`if`, `else`, see Spec/Clear.lean). -/
inductive Yields (cl ign : Bool) (pos : Nat → Pos) : (name : Bytes) → (t : Bytes) → (v : Val) → Prop
  /-- `input { … }`; comments before it belong to the file. -/
  | pluginSection {t : PluginType} {g : Gap} {is : List CItem} {ft : Gap} (ht : t ≠ .undefined) (hg : g.Ok) (hi : itemsOk is) (hcl : cl = true → itemsClear is) (hf : ft.Ok) :
    Yields cl ign pos b!"pluginSection" (ptypeText t ++ g.text ++ b!"{" ++ itemsText is ++ ft.text ++ b!"}")
      (.sect ⟨pos 0, t, itemsAt ign pos ((ptypeText t).length + g.text.length + 1) is, [], ft.block ign false false⟩)
  | branchOrPlugin {i : CItem} (h : i.Ok) (hcl : cl = true → i.Clear) : Yields cl ign pos b!"branchOrPlugin" i.text (itemVal (i.astAt ign pos 0))
  | branch {com g1 : Gap} {c : CCond} {g2 : Gap} {is : List CItem} {ft : Gap} {es : List CElif} {el : CElse}
    (h : (CItem.branch com g1 c g2 is ft es el).Ok) (hcl : cl = true → (CItem.branch com g1 c g2 is ft es el).Clear) :
    Yields cl ign pos b!"branch" (CItem.branch com g1 c g2 is ft es el).text (itemVal ((CItem.branch com g1 c g2 is ft es el).astAt ign pos 0))
  | plugin {com : Gap} {p : CPlugin} (hc : com.Ok) (h : p.Ok) :
    Yields cl ign pos b!"plugin" (com.text ++ p.text) (.plugin (p.astAt ign pos com.text.length (com.block ign false false)))
  | attr {nm : StrLit} {g1 g2 : Gap} {c : CVal} (hn : nm.Name) (h1 : g1.Ok) (h2 : g2.Ok) (hc : c.Ok) :
    Yields cl ign pos b!"attribute" (nm.text ++ g1.text ++ b!"=>" ++ g2.text ++ c.text)
      (.attr (withNameAt (pos 0) nm.text (c.astAt ign pos (nm.text.length + g1.text.length + 2 + g2.text.length))))
  | value {c : CVal} (h : c.Ok) (hp : c.isPlug = false) : Yields cl ign pos b!"value" c.text (.attr (c.astAt ign pos 0))
  | valuePlugin {com : Gap} {p : CPlugin} (hc : com.Ok) (h : p.Ok) :
    Yields cl ign pos b!"value" (com.text ++ p.text) (.plugin (p.astAt ign pos com.text.length (com.block ign false false)))
  | array {es : List CElem} {ft : Gap} (h : (CVal.arr es ft).Ok) :
    Yields cl ign pos b!"array" (CVal.arr es ft).text (.attr ((CVal.arr es ft).astAt ign pos 0))
  | hash {es : List CEntry} {ft : Gap} (h : (CVal.hash es ft).Ok) :
    Yields cl ign pos b!"hash" (CVal.hash es ft).text (.attr ((CVal.hash es ft).astAt ign pos 0))
  | hashentries {es : List CEntry} (hne : es ≠ []) (h : entriesOk true es) :
    Yields cl ign pos b!"hashentries" (entriesText true es) (.hentries (entriesAt ign pos true 0 es))
  | hashentry {com : Gap} {key : CKey} {g1 g2 : Gap} {c : CVal} (h0 : com.Ok) (hk : key.Ok) (h1 : g1.Ok) (h2 : g2.Ok) (hc : c.Ok)
    (hp : c.isPlug = false) :
    Yields cl ign pos b!"hashentry" (com.text ++ key.text ++ g1.text ++ b!"=>" ++ g2.text ++ c.text)
      (.hentry (.mk (pos 0) (key.astAt pos com.text.length)
        (c.astAt ign pos (com.text.length + key.text.length + g1.text.length + 2 + g2.text.length)) (com.block ign true false)))
  | ifCond {g1 : Gap} {c : CCond} {g2 : Gap} {is : List CItem} {ft : Gap} (h1 : g1.Ok) (hc : c.Ok) (h2 : g2.Ok) (hi : itemsOk is) (hcl : cl = true → itemsClear is) (hf : ft.Ok) :
    Yields cl ign pos b!"ifCond" (b!"if" ++ g1.text ++ c.text ++ g2.text ++ b!"{" ++ itemsText is ++ ft.text ++ b!"}")
      (.ifBlock (pos 0) (c.astAt ign pos (2 + g1.text.length))
        (itemsAt ign pos (2 + g1.text.length + c.text.length + g2.text.length + 1) is) [] (ft.block ign false false))
  | elseIf {g0 g1 : Gap} {c : CCond} {g2 : Gap} {is : List CItem} {ft : Gap} (h0 : g0.Ok) (h1 : g1.Ok) (hc : c.Ok) (h2 : g2.Ok)
    (hi : itemsOk is) (hcl : cl = true → itemsClear is) (hf : ft.Ok) :
    Yields cl ign pos b!"elseIf"
      (b!"else" ++ g0.text ++ b!"if" ++ g1.text ++ c.text ++ g2.text ++ b!"{" ++ itemsText is ++ ft.text ++ b!"}")
      (.elif (.mk (pos 0) (c.astAt ign pos (4 + g0.text.length + 2 + g1.text.length))
        (itemsAt ign pos (4 + g0.text.length + 2 + g1.text.length + c.text.length + g2.text.length + 1) is) []
        (ft.block ign false false)))
  | elseCond {g : Gap} {is : List CItem} {ft : Gap} (hg : g.Ok) (hi : itemsOk is) (hcl : cl = true → itemsClear is) (hf : ft.Ok) :
    Yields cl ign pos b!"elseCond" (b!"else" ++ g.text ++ b!"{" ++ itemsText is ++ ft.text ++ b!"}")
      (.elseB (.mk (pos 0) (itemsAt ign pos (4 + g.text.length + 1) is) [] (ft.block ign false false)))
  | condition {c : CCond} (h : c.Ok) : Yields cl ign pos b!"condition" c.text (.cond (c.astAt ign pos 0))
  | expression {e : CExpr} (h : e.Ok) : Yields cl ign pos b!"expression" e.text (.expr (e.astAt ign pos 0 unjoined))
  | notParen {g0 g1 : Gap} {c : CCond} {g2 : Gap} (h : (CExpr.notParen g0 g1 c g2).Ok) :
    Yields cl ign pos b!"negativeExpression" (CExpr.notParen g0 g1 c g2).text (.expr ((CExpr.notParen g0 g1 c g2).astAt ign pos 0 unjoined))
  | notSel {g : Gap} {names : List Bytes} (h : (CExpr.notSel g names).Ok) :
    Yields cl ign pos b!"negativeExpression" (CExpr.notSel g names).text (.expr ((CExpr.notSel g names).astAt ign pos 0 unjoined))
  | inE {l r : CRval} {g1 g2 : Gap} (h : (CExpr.inE l g1 g2 r).Ok) :
    Yields cl ign pos b!"inExpression" (CExpr.inE l g1 g2 r).text (.expr ((CExpr.inE l g1 g2 r).astAt ign pos 0 unjoined))
  | notIn {l r : CRval} {g1 g2 g3 : Gap} (h : (CExpr.notIn l g1 g2 g3 r).Ok) :
    Yields cl ign pos b!"notInExpression" (CExpr.notIn l g1 g2 g3 r).text (.expr ((CExpr.notIn l g1 g2 g3 r).astAt ign pos 0 unjoined))
  | rvalue {r : CRval} (h : r.Ok) : Yields cl ign pos b!"rvalue" r.text (rvalVal (r.astAt ign pos 0))
  | cmp {l r : CRval} {g1 g2 : Gap} {op : CmpKind} (h : (CExpr.cmp l g1 op g2 r).Ok) :
    Yields cl ign pos b!"compareExpression" (CExpr.cmp l g1 op g2 r).text (.expr ((CExpr.cmp l g1 op g2 r).astAt ign pos 0 unjoined))
  | re {l r : CRval} {g1 g2 : Gap} {op : ReKind} (h : (CExpr.re l g1 op g2 r).Ok) :
    Yields cl ign pos b!"regexpExpression" (CExpr.re l g1 op g2 r).text (.expr ((CExpr.re l g1 op g2 r).astAt ign pos 0 unjoined))

/-- The text after the piece cannot be taken for a part of it: pieces that end in a bracket end there; values must be
followed by the end of the hash or the plugin, conditions by a closing parenthesis or the block, branches by the end of
the block around them, or by the end of the text. -/
def Follows (name rest : Bytes) : Prop :=
  (name ∈ [b!"attribute", b!"value", b!"hashentry", b!"branch", b!"branchOrPlugin"] → rest = [] ∨ ∃ r, rest = b!"}" ++ r) ∧
  (name ∈ [b!"condition", b!"expression", b!"negativeExpression", b!"inExpression", b!"notInExpression", b!"rvalue",
    b!"compareExpression", b!"regexpExpression"] →
    rest = [] ∨ ∃ r, rest = b!"{" ++ r ∨ rest = b!")" ++ r) ∧
  (name = b!"hashentries" → ∃ r, rest = b!"}" ++ r)

end Verif.Spec
