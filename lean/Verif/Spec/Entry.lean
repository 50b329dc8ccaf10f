import Verif.Spec.Treetop
import Verif.Spec.Utf8
/-
What an entry point of the parser stands for in the grammar of Logstash.
-/
namespace Verif.Spec.Treetop
open PEx TRule

/-- The expression an entry point matches at the beginning of the input, over the rules of
grammar.treetop.  Some rules of the parser include the white space and the comments before them. -/
def entry : List (List Char × PEx TRule) :=
  [(c!"init", (.ref config ;; .not .any) // (g ;; .not .any)),
    (c!"config", .ref config ;; .not .any),
    (c!"pluginSection", .ref pluginSection),
    (c!"branchOrPlugin", g ;; .ref branchOrPlugin),
    (c!"plugin", g ;; .ref plugin),
    (c!"attribute", .ref attr),
    (c!"value", (g ;; .ref plugin) // .ref bareword // .ref string // .ref number // .ref array // .ref hash),
    (c!"array", .ref array),
    (c!"hash", .ref hash),
    (c!"hashentries", g ;; .ref hashentries),
    (c!"hashentry", g ;; .ref hashentry),
    (c!"branch", g ;; .ref branch),
    (c!"ifCond", .ref ifBlock),
    (c!"elseIf", .ref elseIf),
    (c!"elseCond", .ref elseBlock),
    (c!"condition", .ref condition),
    (c!"expression", .ref expression),
    (c!"negativeExpression", .ref negativeExpression),
    (c!"inExpression", .ref inExpression),
    (c!"notInExpression", .ref notInExpression),
    (c!"rvalue", .ref rvalue),
    (c!"compareExpression", .ref compareExpression),
    (c!"regexpExpression", .ref regexpExpression)]

/-- The parser has an entry point of this name. -/
def Known (name : Bytes) : Prop := ∃ x ∈ entry, name = encode x.1

end Verif.Spec.Treetop
