import Verif.Model.Syntax
import Verif.Model.Print
/-
The action methods of `*current` (logstash_config_helper.go), which turn matched
text and labelled values into AST nodes.

Error texts that embed `%#v` dumps of Go values are shortened to their fixed
part; panics raised by failed type assertions carry the fixed text
`interface conversion`.  Nothing observable depends on more than the presence of
the error.
-/
namespace Verif

/-- Parser options that the action code can see, plus the engine's own options
(logstash_config_options.go, logstash_config.go:11855-11990).  `Debug`,
`Statistics`, `Entrypoint`, `GlobalStore`, `InitState` and `Memoize` are not
modelled. -/
structure Opts where
  ignoreComments : Bool := false
  excWarn : Bool := false
  allowInvalid : Bool := false
  /-- `MaxExpressions`; `none` is the default (`math.MaxUint64`). -/
  maxExpr : Option Nat := none
deriving DecidableEq, Repr, Inhabited

/-- A variable set of the parser's `vstack` (logstash_config.go:12347-12377):
newest binding first. -/
abbrev Frame := List (Lbl × Val)

/-- `stack["label"]`: a missing key gives the nil interface. -/
def Frame.get (f : Frame) (l : Lbl) : Val :=
  match f with
  | [] => .nil
  | (k, v) :: r => if k = l then v else Frame.get r l

/-- `toIfaceSlice` (logstash_config_helper.go:651-663). -/
def toIfaceSlice : Val → List Val
  | .nil => []
  | .list l => l
  | v => [v]

/-- Set the flag `SpaceBefore` of the first comment. -/
def setFirstSpaceBefore (b : Bool) : List Comment → List Comment
  | [] => []
  | c :: cs => { c with spaceBefore := b } :: cs

/-- Set the flag `SpaceAfter` of the last comment. -/
def setLastSpaceAfter : List Comment → List Comment
  | [] => []
  | [c] => [{ c with spaceAfter := true }]
  | c :: d :: cs => c :: setLastSpaceAfter (d :: cs)

/-- The loop of `commentBlock` (logstash_config_helper.go:50-68); `acc` is
`comments`. -/
def commentBlockLoop (spaceBefore spaceAfter : Bool) : List Val → List Comment → List Comment
  | [], acc => acc
  | .comments t :: r, acc =>
    commentBlockLoop spaceBefore spaceAfter r
      (acc ++ (if spaceBefore && acc.isEmpty then setFirstSpaceBefore true t else t))
  | .ws :: r, acc =>
    commentBlockLoop spaceBefore spaceAfter r
      (if !acc.isEmpty && spaceAfter then setLastSpaceAfter acc else acc)
  | _ :: r, acc => commentBlockLoop spaceBefore spaceAfter r acc

/-- `commentBlock` (logstash_config_helper.go:48-69). -/
def commentBlock (v : Val) (spaceBefore spaceAfter : Bool) : CommentBlock :=
  commentBlockLoop spaceBefore spaceAfter (toIfaceSlice v) []

/-- The loop of `comment` (logstash_config_helper.go:150-165); `first` is
`i == 0`. -/
def commentLines : Bool → Bool → List Bytes → List Comment
  | _, _, [] => []
  | first, space, line :: r =>
    match afterFirst 35 line with
    | none => commentLines false (if first then space else true) r
    | some c => ⟨trim 32 c, space, false⟩ :: commentLines false false r

/-- `comment` (logstash_config_helper.go:141-168) applied to the matched text. -/
def commentAction (o : Opts) (text : Bytes) : List Comment :=
  if o.ignoreComments then []
  else commentLines true false (splitOn 10 (trim 10 (removeByte 13 text)))

/-- The outcome of an action: a value, a value together with an error (the
engine records the error and goes on with the value), or a panic. -/
inductive ActRes
  | val (v : Val)
  | err (v : Val) (msg : Bytes)
  | panic (msg : Bytes)
deriving Inhabited

/-- Panic of a failed type assertion. -/
def badAssert : ActRes := .panic b!"interface conversion"

/-- `attributeComment` (logstash_config_helper.go:221-243); `none` is the error
case, which returns a nil attribute. -/
def attributeComment (a : Val) (comment : Val) (spaceBefore : Bool) : Option Attr :=
  let cb := commentBlock comment spaceBefore false
  match a with
  | .attr (.str s) => some (.str { s with comment := cb })
  | .attr (.num s) => some (.num { s with comment := cb })
  | .attr (.arr p n as _ f) => some (.arr p n as cb f)
  | .attr (.hash p n es _ f) => some (.hash p n es cb f)
  | .attr (.plug p n v _) => some (.plug p n v cb)
  | _ => none

/-- Collect the attributes of a list of values, failing on anything else (the
loop of `attributes`, logstash_config_helper.go:210-216). -/
def collectAttrs : List Val → Option (List Attr)
  | [] => some []
  | .attr a :: r => (collectAttrs r).map (a :: ·)
  | _ :: _ => none

/-- Collect hash entries (logstash_config_helper.go:350-356). -/
def collectHEntries : List Val → Option (List HEntry)
  | [] => some []
  | .hentry a :: r => (collectHEntries r).map (a :: ·)
  | _ :: _ => none

/-- Convert to `ast.BranchOrPlugin` (type assertions at
logstash_config_helper.go:176 and :448). -/
def toBOP : Val → Option BOP
  | .plugin p => some (.plugin p)
  | .branch s c b cm f ei el => some (.branch s c b cm f ei el)
  | _ => none

/-- Collect branches and plugins; `none` when some element is neither. -/
def collectBOPs : List Val → Option (List BOP)
  | [] => some []
  | v :: r => match toBOP v with
    | some b => (collectBOPs r).map (b :: ·)
    | none => none

/-- `branchOrPlugins` (logstash_config_helper.go:443-456): an unexpected element
makes the whole result empty. -/
def branchOrPlugins (v : Val) : List BOP := (collectBOPs (toIfaceSlice v)).getD []

/-- Collect else-if blocks (logstash_config_helper.go:387-393). -/
def collectElifs : List Val → Option (List Elif)
  | [] => some []
  | .elif e :: r => (collectElifs r).map (e :: ·)
  | _ :: _ => none

/-- Collect expressions (logstash_config_helper.go:463-469). -/
def collectExprs : List Val → Option (List Expr)
  | [] => some []
  | .expr e :: r => (collectExprs r).map (e :: ·)
  | _ :: _ => none

/-- Collect selector elements (logstash_config_helper.go:619-621). -/
def collectSelElems : List Val → Option (List SelElem)
  | [] => some []
  | .selElem e :: r => (collectSelElems r).map (e :: ·)
  | _ :: _ => none

/-- Type assertion `v.(ast.Rvalue)`. -/
def toRvalue : Val → Option Rvalue
  | .attr (.str a) => some (.str a)
  | .attr (.num a) => some (.num a)
  | .attr (.arr p n as c f) => some (.arr p n as c f)
  | .selector s => some (.sel s)
  | .regexp r => some (.re r)
  | _ => none

/-- Type assertion `v.(ast.StringOrRegexp)`. -/
def toStringOrRegexp : Val → Option Rvalue
  | .attr (.str a) => some (.str a)
  | .regexp r => some (.re r)
  | _ => none

/-- Type assertion `v.(ast.HashEntryKey)`. -/
def toHKey : Val → Option HKey
  | .attr (.str a) => some (.str a)
  | .attr (.num a) => some (.num a)
  | _ => none

/-- Type assertion `v.(ast.Attribute)`. -/
def toAttr : Val → Option Attr
  | .attr a => some a
  | _ => none

/-- `attribute` (logstash_config_helper.go:245-283). -/
def attributeAction (pos : Pos) (name value : Val) : ActRes :=
  let key : Option Bytes := match name with
    | .attr (.str s) => some s.valueStr
    | .str s => some s
    | _ => none
  match key with
  | none => .err .nil b!"Type for attribute name is not supported"
  | some k =>
    match value with
    | .attr (.str s) => .val (.attr (.str ⟨pos, k, s.value, s.sat, []⟩))
    | .attr (.num s) => .val (.attr (.num ⟨pos, k, s.value, []⟩))
    | .attr (.arr _ _ as _ f) => .val (.attr (.arr pos k as [] f))
    | .attr (.hash _ _ es _ f) => .val (.attr (.hash pos k es [] f))
    | .plugin p => .val (.attr (.plug pos k p []))
    | _ => .err .nil b!"Type of value is not supported"

/-- The section loop of `config` (logstash_config_helper.go:98-119): sections are
distributed over three lists; the first section overall gets the comment block.
`none`: some value is not a section, or its type is not one of the three. -/
def configLoop (psComment : CommentBlock) : Bool → List Val → Config → Option Config
  | _, [], c => some c
  | first, .sect ps :: r, c =>
    let ps := if first then { ps with comment := psComment } else ps
    match ps.ptype with
    | .input => configLoop psComment false r { c with input := c.input ++ [ps] }
    | .filter => configLoop psComment false r { c with filter := c.filter ++ [ps] }
    | .output => configLoop psComment false r { c with output := c.output ++ [ps] }
    | .undefined => none
  | _, _ :: _, _ => none

/-- `SetBoolOperator` (ast/ast.go:904-907) through the embedded pointer. -/
def Expr.setBool (bo : BoolOp) : Expr → Expr
  | .nil => .nil
  | .cond p _ c => .cond p ⟨bo.start, bo⟩ c
  | .negCond p _ c => .negCond p ⟨bo.start, bo⟩ c
  | .negSel p _ s => .negSel p ⟨bo.start, bo⟩ s
  | .inE p _ l r => .inE p ⟨bo.start, bo⟩ l r
  | .notIn p _ l r => .notIn p ⟨bo.start, bo⟩ l r
  | .rval p _ r => .rval p ⟨bo.start, bo⟩ r
  | .cmp p _ l op r => .cmp p ⟨bo.start, bo⟩ l op r
  | .re p _ l op r => .re p ⟨bo.start, bo⟩ l op r

/-- The `BoolExpression` of a freshly built expression: operator `NoOperator`,
zero positions (logstash_config_helper.go:480-526). -/
def noOp : BoolExpr := ⟨Pos.zero, ⟨.noOp, Pos.zero⟩⟩

/-- `enclosedValue` (logstash_config_helper.go:634-636): `c.text[1:len-1]`.  The
callers guarantee a text of at least two bytes (Go would panic otherwise). -/
def enclosed (text : Bytes) : Bytes := (text.drop 1).take (text.length - 2)

/-- `compareOperator` (logstash_config_helper.go:528-565). -/
def cmpKindOf (text : Bytes) : CmpKind :=
  if text = b!"==" then .eq else if text = b!"!=" then .ne else if text = b!"<=" then .le
  else if text = b!">=" then .ge else if text = b!"<" then .lt else if text = b!">" then .gt
  else .undefined

/-- `regexpOperator` (logstash_config_helper.go:567-584). -/
def reKindOf (text : Bytes) : ReKind :=
  if text = b!"=~" then .match else if text = b!"!~" then .notMatch else .undefined

/-- `booleanOperator` (logstash_config_helper.go:586-613). -/
def boolKindOf (text : Bytes) : BoolOpKind :=
  if text = b!"and" then .and else if text = b!"or" then .or else if text = b!"xor" then .xor
  else if text = b!"nand" then .nand else .undefined

/-- Run an action (`actionExpr.run`).  `fr` is the current variable set, `pos` and
`text` are `c.pos` and `c.text` (the start and the text of the match), `warns` is
the list of exceptional-comment warnings in `c.state`. -/
def runAct (o : Opts) (a : Act) (fr : Frame) (pos : Pos) (text : Bytes) (warns : List Bytes) :
    ActRes :=
  match a with
  -- logstash_config_helper.go:39-46
  | .retConfig l =>
    match fr.get l with
    | .config c => .val (.config { c with warnings := warns })
    | _ => .val (.config { Config.empty with warnings := warns })
  -- logstash_config_helper.go:35-37
  | .ret l => .val (fr.get l)
  -- logstash_config.peg:17-19
  | .newConfig => .val (.config Config.empty)
  -- logstash_config_helper.go:84-125
  | .config ps pss psComment footer =>
    let ips := toIfaceSlice (fr.get ps) ++ toIfaceSlice (fr.get pss)
    let psc := commentBlock (fr.get psComment) false true
    let foot := commentBlock (fr.get footer) true false
    match configLoop psc true ips Config.empty with
    | some c => .val (.config { c with footer := foot })
    | none => .err (.config Config.empty) b!"Value is not a PluginSection"
  -- logstash_config_helper.go:71-82
  | .configSection ps psComment =>
    match fr.get ps with
    | .sect s => .val (.sect { s with comment := commentBlock (fr.get psComment) false false })
    | _ => .err (.sect ⟨Pos.zero, .undefined, [], [], []⟩) b!"Value is not a PluginSection"
  -- logstash_config_helper.go:141-168
  | .comment => .val (.comments (commentAction o text))
  -- logstash_config_helper.go:137-139
  | .whitespace => .val .ws
  -- logstash_config_helper.go:638-640
  | .str => .val (.str text)
  -- logstash_config.peg:108-113
  | .ptype t => .val (.ptype t)
  -- logstash_config_helper.go:170-186
  | .pluginSection pt bops footer =>
    match fr.get pt, collectBOPs (toIfaceSlice (fr.get bops)) with
    | .ptype t, some bs =>
      .val (.sect ⟨pos, t, bs, [], commentBlock (fr.get footer) false false⟩)
    | _, _ => badAssert
  -- logstash_config_helper.go:188-201
  | .plugin name attributes comment footer =>
    let attrs : Option (List Attr) := match fr.get attributes with
      | .nil => some []
      | .attrs l => some l
      | _ => none
    match attrs, fr.get name with
    | some as, .attr (.str n) =>
      .val (.plugin (.mk n.start n.valueStr as (commentBlock (fr.get comment) false false)
        (commentBlock (fr.get footer) false false)))
    | _, _ => badAssert
  -- logstash_config_helper.go:203-219
  | .attributes a as comment =>
    let first : List Val := match attributeComment (fr.get a) (fr.get comment) false with
      | some at' => [.attr at']
      | none => []
    match collectAttrs (first ++ toIfaceSlice (fr.get as)) with
    | some l => .val (.attrs l)
    | none => .err (.attrs []) b!"Argument is not an attribute"
  -- logstash_config_helper.go:221-243
  | .attributeComment a comment sb =>
    match attributeComment (fr.get a) (fr.get comment) sb with
    | some at' => .val (.attr at')
    | none => .err .nil b!"Unsupported attribute type"
  | .attribute name value => attributeAction pos (fr.get name) (fr.get value)
  -- logstash_config_helper.go:285-295
  | .string sat =>
    .val (.attr (.str ⟨pos, [], if sat = .bareword then text else enclosed text, sat, []⟩))
  | .enclosedValue => .val (.str (enclosed text))
  -- logstash_config_helper.go:297-302
  | .regexp => .val (.regexp ⟨pos, enclosed text⟩)
  -- logstash_config_helper.go:304-311; the position of a bare number stays zero
  | .number =>
    match parseFloat text with
    | some f => .val (.attr (.num ⟨Pos.zero, [], f, []⟩))
    | none => .err (.attr (.num ⟨Pos.zero, [], ⟨false, 0, -1074⟩, []⟩))
        b!"strconv.ParseFloat: value out of range"
  -- logstash_config_helper.go:313-324
  | .array values footer =>
    match fr.get values with
    | .nil => .val (.attr (.arr Pos.zero [] [] [] (commentBlock (fr.get footer) false false)))
    | .attrs l => .val (.attr (.arr Pos.zero [] l [] (commentBlock (fr.get footer) false false)))
    | _ => badAssert
  -- logstash_config_helper.go:326-337
  | .hash entries footer =>
    match fr.get entries with
    | .nil => .val (.attr (.hash Pos.zero [] [] [] (commentBlock (fr.get footer) false false)))
    | .hentries l =>
      .val (.attr (.hash Pos.zero [] l [] (commentBlock (fr.get footer) false false)))
    | _ => badAssert
  -- logstash_config_helper.go:339-359
  | .hashentries entry entries =>
    match fr.get entry with
    | .hentry (.mk p k v c) =>
      let e : HEntry := .mk p k v (setFirstSpaceBefore false c)
      match collectHEntries (.hentry e :: toIfaceSlice (fr.get entries)) with
      | some l => .val (.hentries l)
      | none => .err (.hentries []) b!"Argument is not an attribute"
    | _ => badAssert
  -- logstash_config_helper.go:361-369
  | .hashentry name value comment =>
    match toHKey (fr.get name), toAttr (fr.get value) with
    | some k, some v => .val (.hentry (.mk pos k v (commentBlock (fr.get comment) true false)))
    | _, _ => badAssert
  -- logstash_config_helper.go:371-375
  | .elseIfComment eib comment =>
    match fr.get eib with
    | .elif (.mk p c b _ f) =>
      .val (.elif (.mk p c b (commentBlock (fr.get comment) false false) f))
    | _ => badAssert
  -- logstash_config_helper.go:377-381
  | .elseComment eb comment =>
    match fr.get eb with
    | .elseB (.mk p b _ f) => .val (.elseB (.mk p b (commentBlock (fr.get comment) false false) f))
    | _ => badAssert
  -- logstash_config_helper.go:383-404
  | .branch ifB elifs els comment =>
    match collectElifs (toIfaceSlice (fr.get elifs)) with
    | none => .err (.branch Pos.zero [] [] [] [] [] ElseB.zero) b!"Argument is not an elseIfBlock"
    | some eis =>
      match (match fr.get els with
        | .nil => some ElseB.zero
        | .elseB e => some e
        | _ => none), fr.get ifB with
      | some e, .ifBlock p c b _ f =>
        .val (.branch p c b (commentBlock (fr.get comment) false false) f eis e)
      | _, _ => badAssert
  -- logstash_config_helper.go:406-420
  | .branchOrPluginComment bop comment =>
    let cb := commentBlock (fr.get comment) false false
    match fr.get bop with
    | .plugin (.mk p n as _ f) => .val (.plugin (.mk p n as cb f))
    | .branch p c b _ f ei el => .val (.branch p c b cb f ei el)
    | _ => .err .nil b!"invalid value for if block"
  -- logstash_config_helper.go:422-427
  | .ifBlock cond bops comment =>
    match fr.get cond with
    | .cond c => .val (.ifBlock pos c (branchOrPlugins (fr.get bops)) []
        (commentBlock (fr.get comment) false false))
    | _ => badAssert
  -- logstash_config_helper.go:429-434
  | .elseIfBlock cond bops comment =>
    match fr.get cond with
    | .cond c => .val (.elif (.mk pos c (branchOrPlugins (fr.get bops)) []
        (commentBlock (fr.get comment) false false)))
    | _ => badAssert
  -- logstash_config_helper.go:436-441
  | .elseBlock bops comment =>
    .val (.elseB (.mk pos (branchOrPlugins (fr.get bops)) []
      (commentBlock (fr.get comment) false false)))
  -- logstash_config_helper.go:458-472
  | .condition cond conds =>
    match collectExprs (toIfaceSlice (fr.get cond) ++ toIfaceSlice (fr.get conds)) with
    | some l => .val (.cond l)
    | none => .err (.cond []) b!"Argument is not an expression"
  -- logstash_config_helper.go:474-478
  | .expression bo cond =>
    match fr.get cond, fr.get bo with
    | .expr e, .boolOp b => .val (.expr (e.setBool b))
    | _, _ => badAssert
  -- logstash_config_helper.go:480-484
  | .conditionExpression cond =>
    match fr.get cond with
    | .cond c => .val (.expr (.cond pos noOp c))
    | _ => badAssert
  -- logstash_config_helper.go:486-490
  | .negativeExpression cond =>
    match fr.get cond with
    | .cond c => .val (.expr (.negCond pos noOp c))
    | _ => badAssert
  -- logstash_config_helper.go:492-496
  | .negativeSelector sel =>
    match fr.get sel with
    | .selector s => .val (.expr (.negSel pos noOp s))
    | _ => badAssert
  -- logstash_config_helper.go:498-502
  | .inExpression lv rv =>
    match toRvalue (fr.get lv), toRvalue (fr.get rv) with
    | some l, some r => .val (.expr (.inE pos noOp l r))
    | _, _ => badAssert
  -- logstash_config_helper.go:504-508
  | .notInExpression lv rv =>
    match toRvalue (fr.get lv), toRvalue (fr.get rv) with
    | some l, some r => .val (.expr (.notIn pos noOp l r))
    | _, _ => badAssert
  -- logstash_config_helper.go:510-514
  | .compareExpression lv co rv =>
    match toRvalue (fr.get lv), fr.get co, toRvalue (fr.get rv) with
    | some l, .cmpOp c, some r => .val (.expr (.cmp pos noOp l c r))
    | _, _, _ => badAssert
  -- logstash_config_helper.go:516-520
  | .regexpExpression lv ro rv =>
    match toRvalue (fr.get lv), fr.get ro, toStringOrRegexp (fr.get rv) with
    | some l, .reOp c, some r => .val (.expr (.re pos noOp l c r))
    | _, _, _ => badAssert
  -- logstash_config_helper.go:522-526
  | .rvalue rv =>
    match toRvalue (fr.get rv) with
    | some r => .val (.expr (.rval pos noOp r))
    | none => badAssert
  | .compareOperator => .val (.cmpOp ⟨cmpKindOf text, pos⟩)
  | .regexpOperator => .val (.reOp ⟨reKindOf text, pos⟩)
  | .booleanOperator => .val (.boolOp ⟨boolKindOf text, pos⟩)
  -- logstash_config_helper.go:615-625
  | .selector ses =>
    match collectSelElems (toIfaceSlice (fr.get ses)) with
    | some l => .val (.selector ⟨pos, l⟩)
    | none => badAssert
  -- logstash_config_helper.go:627-632
  | .selectorElement => .val (.selElem ⟨pos, enclosed text⟩)

end Verif
