import Verif.Model.Syntax
import Verif.Model.GrammarGo
/-
The grammar written the way logstash_config.peg is written: one definition per
rule of the .peg file (including the ones the optimiser inlined).  `gram_eq_go`
proves that it is, node for node, the grammar found in logstash_config.go.
-/
namespace Verif
namespace G

/-- `whitespace` (logstash_config.peg:68-71). -/
def whitespace : Ex := .action .whitespace (.plus (.cls b!"[ \\t\\r\\n]" false [32, 9, 13, 10] []))

/-- `EOF` (logstash_config.peg:649). -/
def eof : Ex := .not .any

/-- The parenthesised body of `comment` (logstash_config.peg:43). -/
def commentLine : Ex :=
  .seq [.opt whitespace, .lit b!"#", .star (.cls b!"[^\\r\\n]" true [13, 10] []),
    .opt (.lit b!"\r"), .choice [.lit b!"\n", eof]]

/-- `comment` (logstash_config.peg:42-45). -/
def comment : Ex := .action .comment (.plus commentLine)

/-- `_` (logstash_config.peg:51-52). -/
def gap : Ex := .star (.choice [comment, whitespace])

/-- First element of `__` (logstash_config.peg:57-62); the optimiser inlines `__`
into the surrounding sequence as two elements, `gapS` and `warn`. -/
def gapS : Ex := .action .str gap

/-- Second element of `__` (logstash_config.peg:60-62). -/
def warn : Ex := .state .warnComment

/-- A closing token or an error predicate: `( "x" / &{ ... } )`. -/
def close (tok : Bytes) (c : Code) : Ex := .choice [.lit tok, .andCode c]

/-- `pluginType` (logstash_config.peg:107-116). -/
def pluginType : Ex :=
  .choice [.action (.ptype .input) (.lit b!"input"), .action (.ptype .filter) (.lit b!"filter"),
    .action (.ptype .output) (.lit b!"output"),
    .andCode (.pushError b!"expect plugin type (input, filter, output)")]

/-- The body of a quoted string or regexp, `( `\q` / !`q` . )*`
(logstash_config.peg:208, 221, 247). -/
def quotedBody (esc q : Bytes) : Ex :=
  .star (.choice [.lit esc, .seq [.not (.lit q), .any]])

/-- `doubleQuotedString` (logstash_config.peg:207-214). -/
def doubleQuotedString : Ex :=
  .action .enclosedValue (.seq [.lit b!"\"", quotedBody b!"\\\"" b!"\"",
    close b!"\"" (.fatalError b!"expect closing double quotes (\")")])

/-- `singleQuotedString` (logstash_config.peg:220-227). -/
def singleQuotedString : Ex :=
  .action .enclosedValue (.seq [.lit b!"'", quotedBody b!"\\'" b!"'",
    close b!"'" (.fatalError b!"expect closing single quote (')")])

/-- `stringValue` (logstash_config.peg:233-240). -/
def stringValue : Ex :=
  .action (.ret .str) (.labeled .str (.choice [
    .action (.string .doubleQuoted) (.labeled .str doubleQuotedString),
    .action (.string .singleQuoted) (.labeled .str singleQuotedString)]))

/-- `regexp` (logstash_config.peg:246-253). -/
def regexp : Ex :=
  .action .regexp (.seq [.lit b!"/", quotedBody b!"\\/" b!"/",
    close b!"/" (.fatalError b!"expect closing slash (/) for regexp")])

/-- `name` (logstash_config.peg:158-163). -/
def name : Ex :=
  .choice [.action (.string .bareword)
      (.plus (.cls b!"[_-A-Za-z0-9]" false [95, 45] [(65, 90), (97, 122), (48, 57)])),
    .action (.ret .value) (.labeled .value stringValue)]

/-- `bareword` (logstash_config.peg:198-201). -/
def bareword : Ex :=
  .action (.string .bareword) (.seq [.cls b!"[_A-Za-z]" false [95] [(65, 90), (97, 122)],
    .plus (.cls b!"[_A-Za-z0-9]" false [95] [(65, 90), (97, 122), (48, 57)])])

/-- `number` (logstash_config.peg:260-263). -/
def number : Ex :=
  .action .number (.seq [.opt (.lit b!"-"), .plus (.cls b!"[0-9]" false [] [(48, 57)]),
    .opt (.seq [.lit b!".", .star (.cls b!"[0-9]" false [] [(48, 57)])])])

/-- `selectorElement` (logstash_config.peg:640-647). -/
def selectorElement : Ex :=
  .action .selectorElement (.seq [.lit b!"[", .plus (.cls b!"[^][,]" true [93, 91, 44] []),
    close b!"]" (.pushError b!"expect closing square bracket")])

/-- `selector` (logstash_config.peg:630-633). -/
def selector : Ex := .action (.selector .ses) (.labeled .ses (.plus selectorElement))

/-- `compareOperator` (logstash_config.peg:585-590); the optimiser merged the two
one-character literals into a class. -/
def compareOperator : Ex :=
  .action .compareOperator (.choice [.lit b!"==", .lit b!"!=", .lit b!"<=", .lit b!">=",
    .cls b!"[<>]" false [60, 62] [],
    .andCode (.pushError b!"expect compare operator (==, !=, <=, >=, <, >)")])

/-- `regexpOperator` (logstash_config.peg:606-611). -/
def regexpOperator : Ex :=
  .action .regexpOperator (.choice [.lit b!"=~", .lit b!"!~",
    .andCode (.pushError b!"expect regexp comparison operator (=~, !~)")])

/-- `booleanOperator` (logstash_config.peg:618-623). -/
def booleanOperator : Ex :=
  .action .booleanOperator (.choice [.lit b!"and", .lit b!"or", .lit b!"xor", .lit b!"nand",
    .andCode (.pushError b!"expect boolean operator (and, or, xor, nand)")])

/-- `inOperator` (logstash_config.peg:519-522). -/
def inOperator : Ex := .choice [.lit b!"in", .andCode (.pushError b!"expect in operator (in)")]

/-- `notInOperator` (logstash_config.peg:528-531). -/
def notInOperator : Ex :=
  .choice [.seq [.lit b!"not ", gapS, warn, .lit b!"in"],
    .andCode (.pushError b!"expect not in operator (not in)")]

/-- `init` (logstash_config.peg:7-21). -/
def init : Ex :=
  .action (.retConfig .conf) (.seq [.state .initState, .andCode .initParser,
    .labeled .conf (.choice [
      .action (.ret .conf) (.seq [.labeled .conf (.ref .config), eof]),
      .action .newConfig (.seq [gap, eof])])])

/-- `config` (logstash_config.peg:29-36). -/
def config : Ex :=
  .action (.config .ps .pss .psComment .footerComment) (.seq [
    .labeled .psComment gap, .labeled .ps (.ref .pluginSection),
    .labeled .pss (.star (.action (.configSection .ps .psComment)
      (.seq [.labeled .psComment gap, .labeled .ps (.ref .pluginSection)]))),
    .labeled .footerComment gap, eof])

/-- `pluginSection` (logstash_config.peg:83-94). -/
def pluginSection : Ex :=
  .action (.pluginSection .pt .bops .footerComment) (.seq [
    .labeled .pt pluginType, gapS, warn, .lit b!"{",
    .labeled .bops (.star (.action (.ret .bop) (.labeled .bop (.ref .branchOrPlugin)))),
    .labeled .footerComment gap, close b!"}" (.pushError b!"expect closing curly bracket")])

/-- `branchOrPlugin` (logstash_config.peg:100-101). -/
def branchOrPlugin : Ex := .choice [.ref .branch, .ref .plugin]

/-- `plugin` (logstash_config.peg:134-149). -/
def plugin : Ex :=
  .action (.plugin .name .attributes .comment .footerComment) (.seq [
    .labeled .comment gap, .labeled .name name, gapS, warn, .lit b!"{",
    .labeled .attributes (.opt (.action (.attributes .attribute .attrs .comment) (.seq [
      .labeled .comment gap, .labeled .attribute (.ref .attribute),
      .labeled .attrs (.star (.action (.attributeComment .attribute .comment true) (.seq [
        whitespace, .labeled .comment gap, .labeled .attribute (.ref .attribute)])))]))),
    .labeled .footerComment gap, close b!"}" (.fatalError b!"expect closing curly bracket")])

/-- `attribute` (logstash_config.peg:170-173). -/
def attr : Ex :=
  .action (.attribute .name .value) (.seq [.labeled .name name, gapS, warn, .lit b!"=>",
    gapS, warn, .labeled .value (.ref .value)])

/-- `value` (logstash_config.peg:179-182). -/
def value : Ex :=
  .choice [.ref .plugin, bareword, stringValue, number, .ref .array, .ref .hash,
    .andCode (.pushError b!"invalid value")]

/-- `array` (logstash_config.peg:280-294). -/
def array : Ex :=
  .action (.array .values .footerComment) (.seq [.lit b!"[",
    .labeled .values (.opt (.action (.attributes .value .values .comment) (.seq [
      .labeled .comment gap, .labeled .value (.ref .value),
      .labeled .values (.star (.action (.attributeComment .value .comment true) (.seq [
        gapS, warn, .lit b!",", .labeled .comment gap, .labeled .value (.ref .value)])))]))),
    .labeled .footerComment gap, close b!"]" (.fatalError b!"expect closing square bracket")])

/-- `hash` (logstash_config.peg:308-315). -/
def hash : Ex :=
  .action (.hash .entries .footerComment) (.seq [.lit b!"{",
    .labeled .entries (.opt (.ref .hashentries)),
    .labeled .footerComment gap, close b!"}" (.fatalError b!"expect closing curly bracket")])

/-- `hashentries` (logstash_config.peg:322-329). -/
def hashentries : Ex :=
  .action (.hashentries .hashentry .hashentries1) (.seq [
    .labeled .hashentry (.ref .hashentry),
    .labeled .hashentries1 (.star (.action (.ret .hashentry) (.seq [
      whitespace, .labeled .hashentry (.ref .hashentry)])))])

/-- `hashentry` (logstash_config.peg:336-339). -/
def hashentry : Ex :=
  .action (.hashentry .name .value .comment) (.seq [.labeled .comment gap,
    .labeled .name (.choice [number, bareword, stringValue]), gapS, warn, .lit b!"=>",
    gapS, warn, .labeled .value (.ref .value)])

/-- `branch` (logstash_config.peg:350-361). -/
def branch : Ex :=
  .action (.branch .ifBlock .elseIfBlocks .elseBlock .ifComment) (.seq [
    .labeled .ifComment gap, .labeled .ifBlock (.ref .ifCond),
    .labeled .elseIfBlocks (.star (.action (.elseIfComment .eib .eibComment) (.seq [
      .labeled .eibComment gap, .labeled .eib (.ref .elseIf)]))),
    .labeled .elseBlock (.opt (.action (.elseComment .eb .ebComment) (.seq [
      .labeled .ebComment gap, .labeled .eb (.ref .elseCond)])))])

/-- The block part shared by `ifCond`, `elseIf` and `elseCond`. -/
def block : Ex :=
  .labeled .bops (.star (.action (.branchOrPluginComment .bop .comment) (.seq [
    .labeled .comment gap, .labeled .bop (.ref .branchOrPlugin)])))

/-- `ifCond` (logstash_config.peg:371-382). -/
def ifCond : Ex :=
  .action (.ifBlock .cond .bops .footerComment) (.seq [.lit b!"if", gapS, warn,
    .labeled .cond (.ref .condition), gapS, warn, .lit b!"{", block,
    .labeled .footerComment gap, close b!"}" (.fatalError b!"expect closing curly bracket")])

/-- `elseIf` (logstash_config.peg:392-403). -/
def elseIf : Ex :=
  .action (.elseIfBlock .cond .bops .footerComment) (.seq [.lit b!"else", gapS, warn, .lit b!"if",
    gapS, warn, .labeled .cond (.ref .condition), gapS, warn, .lit b!"{", block,
    .labeled .footerComment gap, close b!"}" (.fatalError b!"expect closing curly bracket")])

/-- `elseCond` (logstash_config.peg:413-424). -/
def elseCond : Ex :=
  .action (.elseBlock .bops .footerComment) (.seq [.lit b!"else", gapS, warn, .lit b!"{", block,
    .labeled .footerComment gap, close b!"}" (.fatalError b!"expect closing curly bracket")])

/-- `condition` (logstash_config.peg:431-438). -/
def condition : Ex :=
  .action (.condition .cond .conds) (.seq [.labeled .cond (.ref .expression),
    .labeled .conds (.star (.action (.expression .bo .cond) (.seq [gapS, warn,
      .labeled .bo booleanOperator, gapS, warn, .labeled .cond (.ref .expression)])))])

/-- `expression` (logstash_config.peg:452-467). -/
def expression : Ex :=
  .choice [.action (.conditionExpression .cond) (.seq [.lit b!"(", gapS, warn,
      .labeled .cond (.ref .condition), gapS, warn, .lit b!")"]),
    .ref .negativeExpression, .ref .inExpression, .ref .notInExpression,
    .ref .compareExpression, .ref .regexpExpression,
    .action (.rvalue .rv) (.labeled .rv (.ref .rvalue))]

/-- `negativeExpression` (logstash_config.peg:477-493). -/
def negativeExpression : Ex :=
  .choice [.action (.negativeExpression .cond) (.seq [.lit b!"!", gapS, warn, .lit b!"(", gapS,
      warn, .labeled .cond (.ref .condition), gapS, warn,
      close b!")" (.fatalError b!"expect closing parenthesis")]),
    .action (.negativeSelector .sel) (.seq [.lit b!"!", gapS, warn, .labeled .sel selector])]

/-- `inExpression` (logstash_config.peg:500-503). -/
def inExpression : Ex :=
  .action (.inExpression .lv .rv) (.seq [.labeled .lv (.ref .rvalue), gapS, warn, inOperator,
    gapS, warn, .labeled .rv (.ref .rvalue)])

/-- `notInExpression` (logstash_config.peg:510-513). -/
def notInExpression : Ex :=
  .action (.notInExpression .lv .rv) (.seq [.labeled .lv (.ref .rvalue), gapS, warn,
    notInOperator, gapS, warn, .labeled .rv (.ref .rvalue)])

/-- `rvalue` (logstash_config.peg:540-543). -/
def rvalue : Ex :=
  .choice [stringValue, number, selector, .ref .array, regexp,
    .andCode (.pushError b!"invalid value for expression")]

/-- `compareExpression` (logstash_config.peg:575-578). -/
def compareExpression : Ex :=
  .action (.compareExpression .lv .co .rv) (.seq [.labeled .lv (.ref .rvalue), gapS, warn,
    .labeled .co compareOperator, gapS, warn, .labeled .rv (.ref .rvalue)])

/-- `regexpExpression` (logstash_config.peg:597-600). -/
def regexpExpression : Ex :=
  .action (.regexpExpression .lv .ro .rv) (.seq [.labeled .lv (.ref .rvalue), gapS, warn,
    .labeled .ro regexpOperator, gapS, warn, .labeled .rv (.choice [stringValue, regexp])])

end G

/-- The whole grammar, rule by rule (logstash_config.peg). -/
def gram : Gram
  | .init => G.init
  | .config => G.config
  | .pluginSection => G.pluginSection
  | .branchOrPlugin => G.branchOrPlugin
  | .plugin => G.plugin
  | .attribute => G.attr
  | .value => G.value
  | .array => G.array
  | .hash => G.hash
  | .hashentries => G.hashentries
  | .hashentry => G.hashentry
  | .branch => G.branch
  | .ifCond => G.ifCond
  | .elseIf => G.elseIf
  | .elseCond => G.elseCond
  | .condition => G.condition
  | .expression => G.expression
  | .negativeExpression => G.negativeExpression
  | .inExpression => G.inExpression
  | .notInExpression => G.notInExpression
  | .rvalue => G.rvalue
  | .compareExpression => G.compareExpression
  | .regexpExpression => G.regexpExpression

/-- The structured grammar is, node for node, the transcript of the grammar in
logstash_config.go. -/
theorem gram_eq_go : gram = Go.gram := by
  funext r
  cases r <;> rfl

end Verif
