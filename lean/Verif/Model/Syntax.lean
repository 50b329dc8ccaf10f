import Verif.Model.Ast
/-
The expression language of the generated parser (`pigeon` grammar nodes,
logstash_config.go:12059-12171) as used by the grammar of this project, and the
dynamic values its actions pass around.
-/
set_option linter.constructorNameAsVariable false

namespace Verif

/-- The 23 rules left in the generated grammar `g` (logstash_config.go:22-8060). -/
inductive Rule
  | init | config | pluginSection | branchOrPlugin | plugin | attribute | value | array | hash
  | hashentries | hashentry | branch | ifCond | elseIf | elseCond | condition | expression
  | negativeExpression | inExpression | notInExpression | rvalue | compareExpression
  | regexpExpression
deriving DecidableEq, Repr, Inhabited

/-- The labels of the grammar (`labeledExpr.label`). -/
inductive Lbl
  | conf | psComment | ps | pss | footerComment | pt | bops | bop | comment | name | attributes
  | attribute | attrs | value | values | str | entries | hashentry | hashentries1 | ifComment
  | ifBlock | elseIfBlocks | eibComment | eib | elseBlock | ebComment | eb | cond | conds | bo
  | sel | lv | rv | co | ro | ses
deriving DecidableEq, Repr, Inhabited

/-- The Go `interface{}` values that flow through the parser. -/
inductive Val
  | nil
  /-- `[]byte`, from terminal matchers -/
  | bytes (b : Bytes)
  /-- `[]interface{}`, from sequences and repetitions -/
  | list (l : List Val)
  /-- `string` -/
  | str (b : Bytes)
  /-- `int`: the plugin type constants -/
  | ptype (t : PluginType)
  /-- `ast.Whitespace` -/
  | ws
  /-- `[]ast.Comment` -/
  | comments (c : List Comment)
  /-- one of the attribute types (never `Attr.nil`: a nil interface is `Val.nil`) -/
  | attr (a : Attr)
  /-- `[]ast.Attribute` -/
  | attrs (l : List Attr)
  | hentry (h : HEntry)
  /-- `[]ast.HashEntry` -/
  | hentries (l : List HEntry)
  | plugin (p : Plugin)
  /-- `ast.IfBlock` -/
  | ifBlock (start : Pos) (cond : Condition) (block : List BOP) (comment footer : CommentBlock)
  | elif (e : Elif)
  | elseB (e : ElseB)
  /-- `ast.Branch` -/
  | branch (start : Pos) (cond : Condition) (block : List BOP) (comment footer : CommentBlock)
      (elifs : List Elif) (els : ElseB)
  | cond (c : Condition)
  /-- one of the expression types (never `Expr.nil`) -/
  | expr (e : Expr)
  | selElem (s : SelElem)
  | selector (s : Selector)
  | regexp (r : RegexpLit)
  | boolOp (b : BoolOp)
  | cmpOp (b : CmpOp)
  | reOp (b : ReOp)
  | sect (s : Section)
  | config (c : Config)
deriving Inhabited

/-- The distinct action bodies of the grammar (`onX` methods,
logstash_config.go:8062-11833), with the labels they read. -/
inductive Act
  | retConfig (conf : Lbl)
  | ret (x : Lbl)
  | newConfig
  | config (ps pss psComment footerComment : Lbl)
  | configSection (ps psComment : Lbl)
  | comment
  | whitespace
  | str
  | ptype (t : PluginType)
  | pluginSection (pt bops footerComment : Lbl)
  | plugin (name attributes comment footerComment : Lbl)
  | attributes (attr attributes comment : Lbl)
  | attributeComment (attr comment : Lbl) (spaceBefore : Bool)
  | attribute (name value : Lbl)
  | string (sat : Sat)
  | enclosedValue
  | regexp
  | number
  | array (values footerComment : Lbl)
  | hash (entries footerComment : Lbl)
  | hashentries (entry entries : Lbl)
  | hashentry (name value comment : Lbl)
  | elseIfComment (eib comment : Lbl)
  | elseComment (eb comment : Lbl)
  | branch (ifBlock elseIfBlocks elseBlock ifComment : Lbl)
  | branchOrPluginComment (bop comment : Lbl)
  | ifBlock (cond bops comment : Lbl)
  | elseIfBlock (cond bops comment : Lbl)
  | elseBlock (bops comment : Lbl)
  | condition (cond conds : Lbl)
  | expression (bo cond : Lbl)
  | conditionExpression (cond : Lbl)
  | negativeExpression (cond : Lbl)
  | negativeSelector (sel : Lbl)
  | inExpression (lv rv : Lbl)
  | notInExpression (lv rv : Lbl)
  | compareExpression (lv co rv : Lbl)
  | regexpExpression (lv ro rv : Lbl)
  | rvalue (rv : Lbl)
  | compareOperator
  | regexpOperator
  | booleanOperator
  | selector (ses : Lbl)
  | selectorElement
deriving DecidableEq, Repr, Inhabited

/-- The `&{ ... }` code predicates of the grammar. -/
inductive Code
  | initParser
  | pushError (msg : Bytes)
  | fatalError (msg : Bytes)
deriving DecidableEq, Repr, Inhabited

/-- The `#{ ... }` state code blocks of the grammar. -/
inductive StCode
  | initState
  | warnComment
deriving DecidableEq, Repr, Inhabited

/-- Grammar expressions (logstash_config.go:12076-12171).  Only the node types
the grammar uses are present: there is no `andExpr`, `notCodeExpr`,
`recoveryExpr` or `throwExpr` in `g`, no `ignoreCase` matcher and no Unicode
class. -/
inductive Ex
  | action (a : Act) (e : Ex)
  | andCode (c : Code)
  | any
  /-- character class: source text, inverted?, single runes, ranges -/
  | cls (val : Bytes) (inverted : Bool) (chars : List Nat) (ranges : List (Nat × Nat))
  | choice (alts : List Ex)
  | labeled (l : Lbl) (e : Ex)
  /-- literal; all literals of the grammar are ASCII, so its runes are its bytes -/
  | lit (val : Bytes)
  | not (e : Ex)
  | plus (e : Ex)
  | ref (r : Rule)
  | seq (es : List Ex)
  | state (c : StCode)
  | star (e : Ex)
  | opt (e : Ex)
deriving Inhabited

/-- A grammar: the expression of each rule. -/
abbrev Gram := Rule → Ex

end Verif
