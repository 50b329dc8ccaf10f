import Verif.Model.Construct
import Verif.Model.Print
import Verif.Model.AstUtil
import Verif.Model.Parse
import Verif.Model.Errors
/-
Generated by tools/gen_tests.py from the unit tests of the project.  These are tests of the model, not proofs.
-/
namespace Verif.Tests
open Verif

/-- `Parse` accepts `i`, and the result prints as `e`. -/
def prints (i e : Bytes) : Bool :=
  match (parse {} [] i []).1 with
  | .done (.config c) [] => c.str == e
  | _ => false

/-- Does `e` occur in `m`? -/
def occurs (e m : Bytes) : Bool := (List.range (m.length + 1)).any fun k => e.isPrefixOf (m.drop k)

/-- `Parse` rejects `i`, and `GetFarthestFailure`, or else the error, contains `e`. -/
def rejects (i e : Bytes) : Bool :=
  let r := parse {} [] i []
  match r.1 with
  | .done _ es =>
    let m := getFarthestFailure r.2
    !es.isEmpty && occurs e (if m.2 then m.1 else es.flatMap PErr.msg)
  | _ => false

/-- TestAst: empty config -/
example : ((New.config [] [] []) : Config).str = [] := by decide +kernel

/-- TestAst: Plugins with attributes of various types -/
example : ((New.config (New.pluginSections .input [(.plugin (New.plugin b!"stdin" [(New.arrayAttribute b!"tags" [(.str (New.stringAttribute [] b!"tag1" .doubleQuoted)), (.str (New.stringAttribute [] b!"tag2" .singleQuoted)), (.str (New.stringAttribute [] b!"tag3" .bareword))]), (New.hashAttribute b!"add_field" [(New.hashEntry (.str (New.stringAttribute [] b!"bareword" .bareword)) (.str (New.stringAttribute [] b!"bareword" .bareword))), (New.hashEntry (.str (New.stringAttribute [] b!"single quoted" .singleQuoted)) (.str (New.stringAttribute [] b!"single quoted" .singleQuoted))), (New.hashEntry (.str (New.stringAttribute [] b!"double quoted" .doubleQuoted)) (.str (New.stringAttribute [] b!"double quoted" .doubleQuoted))), (New.hashEntry (.num (New.numberAttribute [] (((parseFloat b!"1").getD default)))) (.num (New.numberAttribute [] (((parseFloat b!"3.1415").getD default)))))]), (.num (New.numberAttribute b!"pi" (((parseFloat b!"3.1415").getD default)))), (New.pluginAttribute b!"codec" (New.plugin b!"rubydebug" [(.str (New.stringAttribute b!"string" b!"a value" .doubleQuoted))]))]))]) [] (New.pluginSections .output [(.plugin (New.plugin b!"stdout" [(.str (New.stringAttribute b!"id" b!"ABC" .doubleQuoted))]))])) : Config).str = b!"input {\n  stdin {\n    tags => [\n      \"tag1\",\n      'tag2',\n      tag3\n    ]\n    add_field => {\n      bareword => bareword\n      'single quoted' => 'single quoted'\n      \"double quoted\" => \"double quoted\"\n      1 => 3.1415\n    }\n    pi => 3.1415\n    codec => rubydebug {\n      string => \"a value\"\n    }\n  }\n}\noutput {\n  stdout {\n    id => \"ABC\"\n  }\n}\n" := by decide +kernel

/-- TestAst: Simple if (without else) branch -/
example : ((New.config [] (New.pluginSections .filter [(New.branch (New.ifBlock (New.condition [(New.compareExpression ⟨.noOp, Pos.zero⟩ (.str (New.stringAttribute [] b!"true" .doubleQuoted)) ⟨.eq, Pos.zero⟩ (.str (New.stringAttribute [] b!"true" .doubleQuoted)))]) [(.plugin (New.plugin b!"if-plugin" []))]) (New.elseBlock []) [])]) []) : Config).str = b!"filter {\n  if \"true\" == \"true\" {\n    if-plugin {}\n  }\n}\n" := by decide +kernel

/-- TestAst: Simple if-else branch -/
example : ((New.config [] (New.pluginSections .filter [(New.branch (New.ifBlock (New.condition [(New.compareExpression ⟨.noOp, Pos.zero⟩ (.str (New.stringAttribute [] b!"true" .doubleQuoted)) ⟨.eq, Pos.zero⟩ (.str (New.stringAttribute [] b!"true" .doubleQuoted)))]) [(.plugin (New.plugin b!"if-plugin" []))]) (New.elseBlock [(.plugin (New.plugin b!"else-plugin" []))]) [])]) []) : Config).str = b!"filter {\n  if \"true\" == \"true\" {\n    if-plugin {}\n  } else {\n    else-plugin {}\n  }\n}\n" := by decide +kernel

/-- TestAst: if with multiple else-if and a final else branch, test for different condition types -/
example : ((New.config [] (New.pluginSections .filter [(New.branch (New.ifBlock (New.condition [(New.compareExpression ⟨.noOp, Pos.zero⟩ (.str (New.stringAttribute [] b!"true" .doubleQuoted)) ⟨.eq, Pos.zero⟩ (.str (New.stringAttribute [] b!"true" .doubleQuoted)))]) [(.plugin (New.plugin b!"if-plugin" []))]) (New.elseBlock [(.plugin (New.plugin b!"else-plugin" []))]) [(New.elseIfBlock (New.condition [(New.compareExpression ⟨.noOp, Pos.zero⟩ (.str (New.stringAttribute [] b!"true" .doubleQuoted)) ⟨.ne, Pos.zero⟩ (.str (New.stringAttribute [] b!"true" .doubleQuoted)))]) [(.plugin (New.plugin b!"else-if-plugin-1" []))]), (New.elseIfBlock (New.condition [(New.compareExpression ⟨.noOp, Pos.zero⟩ (.num (New.numberAttribute [] (((parseFloat b!"10").getD default)))) ⟨.gt, Pos.zero⟩ (.num (New.numberAttribute [] (((parseFloat b!"2").getD default)))))]) [(.plugin (New.plugin b!"else-if-plugin-2" []))]), (New.elseIfBlock (New.condition [(New.compareExpression ⟨.noOp, Pos.zero⟩ (.num (New.numberAttribute [] (((parseFloat b!"2").getD default)))) ⟨.lt, Pos.zero⟩ (.num (New.numberAttribute [] (((parseFloat b!"10").getD default)))))]) [(.plugin (New.plugin b!"else-if-plugin-3" []))]), (New.elseIfBlock (New.condition [(New.compareExpression ⟨.noOp, Pos.zero⟩ (.num (New.numberAttribute [] (((parseFloat b!"10").getD default)))) ⟨.ge, Pos.zero⟩ (.num (New.numberAttribute [] (((parseFloat b!"2").getD default)))))]) [(.plugin (New.plugin b!"else-if-plugin-4" []))]), (New.elseIfBlock (New.condition [(New.compareExpression ⟨.noOp, Pos.zero⟩ (.num (New.numberAttribute [] (((parseFloat b!"2").getD default)))) ⟨.le, Pos.zero⟩ (.num (New.numberAttribute [] (((parseFloat b!"10").getD default)))))]) [(.plugin (New.plugin b!"else-if-plugin-5" []))])])]) []) : Config).str = b!"filter {\n  if \"true\" == \"true\" {\n    if-plugin {}\n  } else if \"true\" != \"true\" {\n    else-if-plugin-1 {}\n  } else if 10 > 2 {\n    else-if-plugin-2 {}\n  } else if 2 < 10 {\n    else-if-plugin-3 {}\n  } else if 10 >= 2 {\n    else-if-plugin-4 {}\n  } else if 2 <= 10 {\n    else-if-plugin-5 {}\n  } else {\n    else-plugin {}\n  }\n}\n" := by decide +kernel

/-- TestAst: if with multiple compare operators -/
example : ((New.config [] (New.pluginSections .filter [(New.branch (New.ifBlock (New.condition [(New.compareExpression ⟨.noOp, Pos.zero⟩ (.str (New.stringAttribute [] b!"true" .doubleQuoted)) ⟨.eq, Pos.zero⟩ (.str (New.stringAttribute [] b!"true" .doubleQuoted))), (New.compareExpression ⟨.and, Pos.zero⟩ (.str (New.stringAttribute [] b!"true" .doubleQuoted)) ⟨.eq, Pos.zero⟩ (.str (New.stringAttribute [] b!"true" .doubleQuoted))), (New.compareExpression ⟨.or, Pos.zero⟩ (.str (New.stringAttribute [] b!"true" .doubleQuoted)) ⟨.eq, Pos.zero⟩ (.str (New.stringAttribute [] b!"true" .doubleQuoted))), (New.compareExpression ⟨.nand, Pos.zero⟩ (.str (New.stringAttribute [] b!"true" .doubleQuoted)) ⟨.eq, Pos.zero⟩ (.str (New.stringAttribute [] b!"true" .doubleQuoted))), (New.compareExpression ⟨.xor, Pos.zero⟩ (.str (New.stringAttribute [] b!"true" .doubleQuoted)) ⟨.eq, Pos.zero⟩ (.str (New.stringAttribute [] b!"true" .doubleQuoted)))]) [(.plugin (New.plugin b!"plugin" []))]) (New.elseBlock []) [])]) []) : Config).str = b!"filter {\n  if \"true\" == \"true\" and \"true\" == \"true\" or \"true\" == \"true\" nand \"true\" == \"true\" xor \"true\" == \"true\" {\n    plugin {}\n  }\n}\n" := by decide +kernel

/-- TestAst: Condition in parentheses -/
example : ((New.config [] (New.pluginSections .filter [(New.branch (New.ifBlock (New.condition [(New.conditionExpression ⟨.noOp, Pos.zero⟩ (New.condition [(New.inExpression ⟨.noOp, Pos.zero⟩ (.str (New.stringAttribute [] b!"tag" .doubleQuoted)) (.sel (New.selectorFromNames [b!"tags"])))]))]) [(.plugin (New.plugin b!"plugin" []))]) (New.elseBlock []) [])]) []) : Config).str = b!"filter {\n  if (\"tag\" in [tags]) {\n    plugin {}\n  }\n}\n" := by decide +kernel

/-- TestAst: Multiple conditions in parentheses -/
example : ((New.config [] (New.pluginSections .filter [(New.branch (New.ifBlock (New.condition [(New.conditionExpression ⟨.noOp, Pos.zero⟩ (New.condition [(New.inExpression ⟨.noOp, Pos.zero⟩ (.str (New.stringAttribute [] b!"tag" .doubleQuoted)) (.sel (New.selectorFromNames [b!"tags"]))), (New.conditionExpression ⟨.or, Pos.zero⟩ (New.condition [(New.compareExpression ⟨.noOp, Pos.zero⟩ (.str (New.stringAttribute [] b!"true" .doubleQuoted)) ⟨.eq, Pos.zero⟩ (.str (New.stringAttribute [] b!"true" .doubleQuoted))), (New.compareExpression ⟨.and, Pos.zero⟩ (.num (New.numberAttribute [] (((parseFloat b!"1").getD default)))) ⟨.eq, Pos.zero⟩ (.num (New.numberAttribute [] (((parseFloat b!"1").getD default)))))]))]))]) [(.plugin (New.plugin b!"plugin" []))]) (New.elseBlock []) [])]) []) : Config).str = b!"filter {\n  if (\"tag\" in [tags] or (\"true\" == \"true\" and 1 == 1)) {\n    plugin {}\n  }\n}\n" := by decide +kernel

/-- TestAst: Negative Condition Expression -/
example : ((New.config [] (New.pluginSections .filter [(New.branch (New.ifBlock (New.condition [(New.negativeConditionExpression ⟨.noOp, Pos.zero⟩ (New.condition [(New.compareExpression ⟨.noOp, Pos.zero⟩ (.str (New.stringAttribute [] b!"true" .doubleQuoted)) ⟨.eq, Pos.zero⟩ (.str (New.stringAttribute [] b!"true" .doubleQuoted)))]))]) [(.plugin (New.plugin b!"plugin" []))]) (New.elseBlock []) [])]) []) : Config).str = b!"filter {\n  if !(\"true\" == \"true\") {\n    plugin {}\n  }\n}\n" := by decide +kernel

/-- TestAst: Negative Selector Expression for value in subfield -/
example : ((New.config [] (New.pluginSections .filter [(New.branch (New.ifBlock (New.condition [(New.negativeSelectorExpression ⟨.noOp, Pos.zero⟩ (New.selectorFromNames [b!"field", b!"subfield"]))]) [(.plugin (New.plugin b!"plugin" []))]) (New.elseBlock []) [])]) []) : Config).str = b!"filter {\n  if ![field][subfield] {\n    plugin {}\n  }\n}\n" := by decide +kernel

/-- TestAst: InExpression -/
example : ((New.config [] (New.pluginSections .filter [(New.branch (New.ifBlock (New.condition [(New.inExpression ⟨.noOp, Pos.zero⟩ (.str (New.stringAttribute [] b!"tag" .doubleQuoted)) (.sel (New.selectorFromNames [b!"tags"])))]) [(.plugin (New.plugin b!"plugin" []))]) (New.elseBlock []) [])]) []) : Config).str = b!"filter {\n  if \"tag\" in [tags] {\n    plugin {}\n  }\n}\n" := by decide +kernel

/-- TestAst: NotInExpression -/
example : ((New.config [] (New.pluginSections .filter [(New.branch (New.ifBlock (New.condition [(New.notInExpression ⟨.noOp, Pos.zero⟩ (.str (New.stringAttribute [] b!"tag" .doubleQuoted)) (.sel (New.selectorFromNames [b!"field", b!"subfield"])))]) [(.plugin (New.plugin b!"plugin" []))]) (New.elseBlock []) [])]) []) : Config).str = b!"filter {\n  if \"tag\" not in [field][subfield] {\n    plugin {}\n  }\n}\n" := by decide +kernel

/-- TestAst: RegexpExpression (Match) -/
example : ((New.config [] (New.pluginSections .filter [(New.branch (New.ifBlock (New.condition [(New.regexpExpression ⟨.noOp, Pos.zero⟩ (.sel (New.selectorFromNames [b!"field"])) ⟨.match, Pos.zero⟩ (.re (New.regexp b!".*")))]) [(.plugin (New.plugin b!"plugin" []))]) (New.elseBlock []) [])]) []) : Config).str = b!"filter {\n  if [field] =~ /.*/ {\n    plugin {}\n  }\n}\n" := by decide +kernel

/-- TestAst: RegexpExpression (Not Match) -/
example : ((New.config [] (New.pluginSections .filter [(New.branch (New.ifBlock (New.condition [(New.regexpExpression ⟨.noOp, Pos.zero⟩ (.sel (New.selectorFromNames [b!"field"])) ⟨.notMatch, Pos.zero⟩ (.re (New.regexp b!".*")))]) [(.plugin (New.plugin b!"plugin" []))]) (New.elseBlock []) [])]) []) : Config).str = b!"filter {\n  if [field] !~ /.*/ {\n    plugin {}\n  }\n}\n" := by decide +kernel

/-- TestAst: Rvalue -/
example : ((New.config [] (New.pluginSections .filter [(New.branch (New.ifBlock (New.condition [(New.rvalueExpression ⟨.noOp, Pos.zero⟩ (.str (New.stringAttribute [] b!"string" .doubleQuoted))), (New.rvalueExpression ⟨.or, Pos.zero⟩ (.num (New.numberAttribute [] (((parseFloat b!"10").getD default))))), (New.rvalueExpression ⟨.or, Pos.zero⟩ (.sel (New.selectorFromNames [b!"field", b!"subfield"]))), (New.rvalueExpression ⟨.or, Pos.zero⟩ (.re (New.regexp b!".*")))]) [(.plugin (New.plugin b!"plugin" []))]) (New.elseBlock []) [])]) []) : Config).str = b!"filter {\n  if \"string\" or 10 or [field][subfield] or /.*/ {\n    plugin {}\n  }\n}\n" := by decide +kernel

/-- TestAst: nil values -/
example : ((New.config [] (New.pluginSections .filter [.nil, (.plugin (New.plugin b!"mutate" [.nil])), .nil, (.plugin (New.plugin b!"alter" [.nil, (.str (New.stringAttribute b!"foo" b!"bar" .bareword)), (New.arrayAttribute b!"nil" [.nil]), (New.hashAttribute b!"nilHash" [(New.hashEntry (.str (New.stringAttribute [] b!"nilEntry" .bareword)) .nil)]), .nil])), (New.branch (New.ifBlock (New.condition [(New.compareExpression ⟨.noOp, Pos.zero⟩ (.str (New.stringAttribute [] b!"true" .doubleQuoted)) ⟨.eq, Pos.zero⟩ (.str (New.stringAttribute [] b!"true" .doubleQuoted)))]) [.nil]) (New.elseBlock [.nil]) [(New.elseIfBlock (New.condition [(New.compareExpression ⟨.noOp, Pos.zero⟩ (.str (New.stringAttribute [] b!"false" .doubleQuoted)) ⟨.eq, Pos.zero⟩ .nil), .nil]) [.nil])]), .nil]) []) : Config).str = b!"filter {\n  mutate {}\n\n  alter {\n    foo => bar\n    nil => []\n    nilHash => {\n      nilEntry => \n    }\n  }\n\n  if \"true\" == \"true\" {\n  } else if \"false\" ==  {\n  } else {\n  }\n}\n" := by decide +kernel

/-- TestPluginID: double quoted id -/
example : ((New.plugin b!"stdin" [(.str (New.stringAttribute b!"id" b!"123" .doubleQuoted))]) : Plugin).id = .id b!"123" := by decide +kernel

/-- TestPluginID: bareword id -/
example : ((New.plugin b!"stdin" [(.str (New.stringAttribute b!"id" b!"123" .bareword))]) : Plugin).id = .id b!"123" := by decide +kernel

/-- TestPluginID: bareword id -/
example : (match ((New.plugin b!"stdin" [(.num (New.numberAttribute b!"id" (((parseFloat b!"123").getD default))))]) : Plugin).id with | .id _ => false | _ => true) = true := by decide +kernel

/-- TestPluginID: multiple attributes with id -/
example : ((New.plugin b!"stdin" [(.str (New.stringAttribute b!"name" b!"fobar" .bareword)), (.str (New.stringAttribute b!"id" b!"123" .bareword)), (.str (New.stringAttribute b!"description" b!"the description" .doubleQuoted))]) : Plugin).id = .id b!"123" := by decide +kernel

/-- TestPluginID: multiple attributes without id -/
example : (match ((New.plugin b!"stdin" [(.str (New.stringAttribute b!"name" b!"fobar" .bareword)), (.str (New.stringAttribute b!"alternative" b!"baz" .bareword)), (.str (New.stringAttribute b!"description" b!"the description" .doubleQuoted))]) : Plugin).id with | .id _ => false | _ => true) = true := by decide +kernel

/-- TestPrefix: empty string -/
example : prefixS [] false = [] := by decide +kernel

/-- TestPrefix: empty string with empty newline -/
example : prefixS [] true = b!"\n" := by decide +kernel

/-- TestPrefix: simple attribute -/
example : prefixS b!"value => 3.1415\n" false = b!"\n  value => 3.1415\n" := by decide +kernel

/-- TestPrefix: simple attribute with comment -/
example : prefixS b!"# comment\nvalue => 3.1415\n" false = b!"\n  # comment\n  value => 3.1415\n" := by decide +kernel

/-- TestPrefix: block -/
example : prefixS b!"add_field {\n  # comment\n  value => 3.1415\n}\n\nadd_tag => [ \"foobar\" ]\n" false = b!"\n  add_field {\n    # comment\n    value => 3.1415\n  }\n\n  add_tag => [ \"foobar\" ]\n" := by decide +kernel

/-- TestPrefix: attribute with multiline string attribute -/
example : prefixS b!"value => \"string\nwith multiple\nlines\"\nothervalue => 3.1415\n" false = b!"\n  value => \"string\nwith multiple\nlines\"\n  othervalue => 3.1415\n" := by decide +kernel

/-- TestPrefix: attribute with multiline string attribute (single quote) -/
example : prefixS b!"value => 'string\nwith multiple\nlines'\nothervalue => 3.1415\n" false = b!"\n  value => 'string\nwith multiple\nlines'\n  othervalue => 3.1415\n" := by decide +kernel

/-- TestPrefix: comment with double and single quote -/
example : prefixS b!"# comment with \" and '\nothervalue => 3.1415\n" false = b!"\n  # comment with \" and '\n  othervalue => 3.1415\n" := by decide +kernel

/-- TestPrefix: array with multiple string types -/
example : prefixS b!"value => [ \"string\", 'string', string ]\n" false = b!"\n  value => [ \"string\", 'string', string ]\n" := by decide +kernel

/-- TestQuote: bareword, DoubleQuoted -/
example : quote b!"bareword" .doubleQuoted = .ok b!"\"bareword\"" := by decide +kernel

/-- TestQuote: bareword, SingleQuoted -/
example : quote b!"bareword" .singleQuoted = .ok b!"'bareword'" := by decide +kernel

/-- TestQuote: bareword, Bareword -/
example : quote b!"bareword" .bareword = .ok b!"bareword" := by decide +kernel

/-- TestQuote: multiple words, DoubleQuoted -/
example : quote b!"multiple words" .doubleQuoted = .ok b!"\"multiple words\"" := by decide +kernel

/-- TestQuote: multiple words, SingleQuoted -/
example : quote b!"multiple words" .singleQuoted = .ok b!"'multiple words'" := by decide +kernel

/-- TestQuote: multiple words, Bareword -/
example : quote b!"multiple words" .bareword = .err := by decide +kernel

/-- TestQuote: double quote, DoubleQuoted -/
example : quote b!"value with \" (double quote)" .doubleQuoted = .err := by decide +kernel

/-- TestQuote: double quote, SingleQuoted -/
example : quote b!"value with \" (double quote)" .singleQuoted = .ok b!"'value with \" (double quote)'" := by decide +kernel

/-- TestQuote: double quote, Bareword -/
example : quote b!"value with \" (double quote)" .bareword = .err := by decide +kernel

/-- TestQuote: escaped double quote, DoubleQuoted -/
example : quote b!"value with \\\" (escaped double quote)" .doubleQuoted = .ok b!"\"value with \\\" (escaped double quote)\"" := by decide +kernel

/-- TestQuote: escaped double quote, SingleQuoted -/
example : quote b!"value with \\\" (escaped double quote)" .singleQuoted = .ok b!"'value with \\\" (escaped double quote)'" := by decide +kernel

/-- TestQuote: escaped double quote, Bareword -/
example : quote b!"value with \\\" (escaped double quote)" .bareword = .err := by decide +kernel

/-- TestQuote: single quote, DoubleQuoted -/
example : quote b!"value with ' (single quote)" .doubleQuoted = .ok b!"\"value with ' (single quote)\"" := by decide +kernel

/-- TestQuote: single quote, SingleQuoted -/
example : quote b!"value with ' (single quote)" .singleQuoted = .err := by decide +kernel

/-- TestQuote: single quote, Bareword -/
example : quote b!"value with ' (single quote)" .bareword = .err := by decide +kernel

/-- TestQuote: escaped single quote, DoubleQuoted -/
example : quote b!"value with \\' (escaped single quote)" .doubleQuoted = .ok b!"\"value with \\' (escaped single quote)\"" := by decide +kernel

/-- TestQuote: escaped single quote, SingleQuoted -/
example : quote b!"value with \\' (escaped single quote)" .singleQuoted = .ok b!"'value with \\' (escaped single quote)'" := by decide +kernel

/-- TestQuote: escaped single quote, Bareword -/
example : quote b!"value with \\' (escaped single quote)" .bareword = .err := by decide +kernel

/-- TestQuoteWithEscape: bareword, DoubleQuoted -/
example : quoteWithEscape b!"bareword" .doubleQuoted = some b!"\"bareword\"" := by decide +kernel

/-- TestQuoteWithEscape: bareword, SingleQuoted -/
example : quoteWithEscape b!"bareword" .singleQuoted = some b!"'bareword'" := by decide +kernel

/-- TestQuoteWithEscape: bareword, Bareword -/
example : quoteWithEscape b!"bareword" .bareword = some b!"bareword" := by decide +kernel

/-- TestQuoteWithEscape: multiple words, DoubleQuoted -/
example : quoteWithEscape b!"multiple words" .doubleQuoted = some b!"\"multiple words\"" := by decide +kernel

/-- TestQuoteWithEscape: multiple words, SingleQuoted -/
example : quoteWithEscape b!"multiple words" .singleQuoted = some b!"'multiple words'" := by decide +kernel

/-- TestQuoteWithEscape: multiple words, Bareword -/
example : quoteWithEscape b!"multiple words" .bareword = some b!"multiple_words" := by decide +kernel

/-- TestQuoteWithEscape: double quote, DoubleQuoted -/
example : quoteWithEscape b!"value with \" (double quote)" .doubleQuoted = some b!"\"value with \\\" (double quote)\"" := by decide +kernel

/-- TestQuoteWithEscape: double quote, SingleQuoted -/
example : quoteWithEscape b!"value with \" (double quote)" .singleQuoted = some b!"'value with \" (double quote)'" := by decide +kernel

/-- TestQuoteWithEscape: double quote, Bareword -/
example : quoteWithEscape b!"value with \" (double quote)" .bareword = some b!"value_with____double_quote_" := by decide +kernel

/-- TestQuoteWithEscape: escaped double quote, DoubleQuoted -/
example : quoteWithEscape b!"value with \\\" (escaped double quote)" .doubleQuoted = some b!"\"value with \\\" (escaped double quote)\"" := by decide +kernel

/-- TestQuoteWithEscape: escaped double quote, SingleQuoted -/
example : quoteWithEscape b!"value with \\\" (escaped double quote)" .singleQuoted = some b!"'value with \\\" (escaped double quote)'" := by decide +kernel

/-- TestQuoteWithEscape: escaped double quote, Bareword -/
example : quoteWithEscape b!"value with \\\" (escaped double quote)" .bareword = some b!"value_with_____escaped_double_quote_" := by decide +kernel

/-- TestQuoteWithEscape: single quote, DoubleQuoted -/
example : quoteWithEscape b!"value with ' (single quote)" .doubleQuoted = some b!"\"value with ' (single quote)\"" := by decide +kernel

/-- TestQuoteWithEscape: single quote, SingleQuoted -/
example : quoteWithEscape b!"value with ' (single quote)" .singleQuoted = some b!"'value with \\' (single quote)'" := by decide +kernel

/-- TestQuoteWithEscape: single quote, Bareword -/
example : quoteWithEscape b!"value with ' (single quote)" .bareword = some b!"value_with____single_quote_" := by decide +kernel

/-- TestQuoteWithEscape: escaped single quote, DoubleQuoted -/
example : quoteWithEscape b!"value with \\' (escaped single quote)" .doubleQuoted = some b!"\"value with \\' (escaped single quote)\"" := by decide +kernel

/-- TestQuoteWithEscape: escaped single quote, SingleQuoted -/
example : quoteWithEscape b!"value with \\' (escaped single quote)" .singleQuoted = some b!"'value with \\' (escaped single quote)'" := by decide +kernel

/-- TestQuoteWithEscape: escaped single quote, Bareword -/
example : quoteWithEscape b!"value with \\' (escaped single quote)" .bareword = some b!"value_with_____escaped_single_quote_" := by decide +kernel

/-- TestEscape: carriage return (ASCII 13) -/
example : escape b!"\r" = b!"\\r" := by decide +kernel

/-- TestUnescape: carriage return (ASCII 13) -/
example : unescape b!"\\r" = b!"\r" := by decide +kernel

/-- TestEscape: new line (ASCII 10) -/
example : escape b!"\n" = b!"\\n" := by decide +kernel

/-- TestUnescape: new line (ASCII 10) -/
example : unescape b!"\\n" = b!"\n" := by decide +kernel

/-- TestEscape: tab (ASCII 9) -/
example : escape b!"\t" = b!"\\t" := by decide +kernel

/-- TestUnescape: tab (ASCII 9) -/
example : unescape b!"\\t" = b!"\t" := by decide +kernel

/-- TestEscape: backslash (ASCII 92) -/
example : escape b!"\\" = b!"\\\\" := by decide +kernel

/-- TestUnescape: backslash (ASCII 92) -/
example : unescape b!"\\\\" = b!"\\" := by decide +kernel

/-- TestEscape: double quote (ASCII 34) -/
example : escape b!"\"" = b!"\\\"" := by decide +kernel

/-- TestUnescape: double quote (ASCII 34) -/
example : unescape b!"\\\"" = b!"\"" := by decide +kernel

/-- TestEscape: single quote (ASCII 39) -/
example : escape b!"'" = b!"\\'" := by decide +kernel

/-- TestUnescape: single quote (ASCII 39) -/
example : unescape b!"\\'" = b!"'" := by decide +kernel

/-- TestEscape: value containing all special characters -/
example : escape b!"foo\r\n\t\\\"'bar" = b!"foo\\r\\n\\t\\\\\\\"\\'bar" := by decide +kernel

/-- TestUnescape: value containing all special characters -/
example : unescape b!"foo\\r\\n\\t\\\\\\\"\\'bar" = b!"foo\r\n\t\\\"'bar" := by decide +kernel

/-- TestEscapeQuotes:  -/
example : escapeQuotes [] 34 = [] := by decide +kernel

/-- TestEscapeQuotes:  -/
example : escapeQuotes [] 39 = [] := by decide +kernel

/-- TestEscapeQuotes: " -/
example : escapeQuotes b!"\"" 34 = b!"\\\"" := by decide +kernel

/-- TestEscapeQuotes: " -/
example : escapeQuotes b!"\"" 39 = b!"\"" := by decide +kernel

/-- TestEscapeQuotes: "foo"bar" -/
example : escapeQuotes b!"\"foo\"bar\"" 34 = b!"\\\"foo\\\"bar\\\"" := by decide +kernel

/-- TestEscapeQuotes: "foo"bar" -/
example : escapeQuotes b!"\"foo\"bar\"" 39 = b!"\"foo\"bar\"" := by decide +kernel

/-- TestEscapeQuotes: ' -/
example : escapeQuotes b!"'" 34 = b!"'" := by decide +kernel

/-- TestEscapeQuotes: ' -/
example : escapeQuotes b!"'" 39 = b!"\\'" := by decide +kernel

/-- TestEscapeQuotes: 'foo'bar' -/
example : escapeQuotes b!"'foo'bar'" 34 = b!"'foo'bar'" := by decide +kernel

/-- TestEscapeQuotes: 'foo'bar' -/
example : escapeQuotes b!"'foo'bar'" 39 = b!"\\'foo\\'bar\\'" := by decide +kernel

/-- TestEscapeBareword:  -/
example : escapeBareword [] = [] := by decide +kernel

/-- TestEscapeBareword: 0 -/
example : escapeBareword b!"0" = b!"_" := by decide +kernel

/-- TestEscapeBareword: bareword -/
example : escapeBareword b!"bareword" = b!"bareword" := by decide +kernel

/-- TestEscapeBareword: BAREWORD -/
example : escapeBareword b!"BAREWORD" = b!"BAREWORD" := by decide +kernel

/-- TestEscapeBareword: _bare_word_ -/
example : escapeBareword b!"_bare_word_" = b!"_bare_word_" := by decide +kernel

/-- TestEscapeBareword: 0bare1word9 -/
example : escapeBareword b!"0bare1word9" = b!"_bare1word9" := by decide +kernel

/-- TestEscapeBareword: -()  -/
example : escapeBareword b!"-() " = b!"____" := by decide +kernel

/-- TestParserIdentic: Empty file -/
example : prints [] [] = true := by decide +kernel

/-- TestParserIdentic: Single PluginSection -/
example : prints b!"input {}\n" b!"input {}\n" = true := by decide +kernel

/-- TestParserIdentic: All PluginSections empty -/
example : prints b!"input {}\nfilter {}\noutput {}\n" b!"input {}\nfilter {}\noutput {}\n" = true := by decide +kernel

/-- TestParserIdentic: Plugin without attributes -/
example : prints b!"input {\n  stdin {}\n}\n" b!"input {\n  stdin {}\n}\n" = true := by decide +kernel

/-- TestParserIdentic: Plugin with all attribute types -/
example : prints [] [] = true := by decide +kernel

/-- TestParserIdentic: Simple if (without else) branch -/
example : prints b!"filter {\n  if 1 == 1 {\n    date {}\n  }\n}\n" b!"filter {\n  if 1 == 1 {\n    date {}\n  }\n}\n" = true := by decide +kernel

/-- TestParserIdentic: Empty array -/
example : prints b!"filter {\n  plugin {\n    value => []\n  }\n}\n" b!"filter {\n  plugin {\n    value => []\n  }\n}\n" = true := by decide +kernel

/-- TestParserIdentic: Multiple filter sections -/
example : prints b!"filter {}\n\nfilter {}\n\nfilter {}\n" b!"filter {}\n\nfilter {}\n\nfilter {}\n" = true := by decide +kernel

/-- TestParserIdentic: plugin section comment -/
example : prints b!"# Comment\nfilter {}\n" b!"# Comment\nfilter {}\n" = true := by decide +kernel

/-- TestParserIdentic: file header and plugin section comment -/
example : prints b!"# Comment\n\n# Comment 2\n\n# Comment 3\nfilter {}\n" b!"# Comment\n\n# Comment 2\n\n# Comment 3\nfilter {}\n" = true := by decide +kernel

/-- TestParserIdentic: plugin section comment with whitespace after -/
example : prints b!"# Comment\n\nfilter {}\n" b!"# Comment\n\nfilter {}\n" = true := by decide +kernel

/-- TestParserIdentic: file footer comment -/
example : prints b!"filter {}\noutput {}\n\n# Comment after\n" b!"filter {}\noutput {}\n\n# Comment after\n" = true := by decide +kernel

/-- TestParser: Whitespace, tab and newlines only -/
example : prints b!"\n      \n\t\t\t" [] = true := by decide +kernel

/-- TestParser: Single comment (one line without newline) -/
example : prints b!"# comment only" [] = true := by decide +kernel

/-- TestParser: Comment surrounded by empty lines -/
example : prints b!"\n# comment only\n" [] = true := by decide +kernel

/-- TestParser: Reformat plugins -/
example : prints b!"input { stdin {} }" b!"input {\n  stdin {}\n}\n" = true := by decide +kernel

/-- TestParser: Multiple filter sections without empty lines -/
example : prints b!"filter {}\nfilter {}\nfilter {}\n" b!"filter {}\n\nfilter {}\n\nfilter {}\n" = true := by decide +kernel

/-- TestParser: plugin section comment with whitespace before -/
example : prints b!"\n\n# Comment\nfilter {}\n" b!"# Comment\nfilter {}\n" = true := by decide +kernel

/-- TestParser: plugin section comment with whitespace before and after -/
example : prints b!"\n\n# Comment\n\nfilter {}\n" b!"# Comment\n\nfilter {}\n" = true := by decide +kernel

/-- TestParser: file footer comment without spaceBefore -/
example : prints b!"filter {}\n# Comment after\n" b!"filter {}\n\n# Comment after\n" = true := by decide +kernel

/-- TestParseErrors: misspelled plugin section -/
example : rejects b!"FILTER {\n  if 1 == 1 {\n    plugin{}\n  }\n}" b!"expect plugin type" = true := by decide +kernel

/-- TestParseErrors: missing closing curly bracket (pluginsection) -/
example : rejects b!"filter {\n  if 1 == 1 {\n    plugin{}\n  }\n" b!"expect closing curly bracket" = true := by decide +kernel

/-- TestParseErrors: missing closing curly bracket (plugin) -/
example : rejects b!"filter {\n  plugin {}\n  plugin2 {\n  plugin3 {}\n}" b!"expect closing curly bracket" = true := by decide +kernel

/-- TestParseErrors: invalid value -/
example : rejects b!"filter {\n  plugin {\n    value => #invalid#\n  }\n}" b!"expect closing curly bracket" = true := by decide +kernel

/-- TestParseErrors: missing closing double quotes -/
example : rejects b!"filter {\n  plugin {\n    value => \"invalid\n  }\n}" b!"expect closing double quotes (\")" = true := by decide +kernel

/-- TestParseErrors: missing closing single quotes -/
example : rejects b!"filter {\n  plugin {\n    value => 'invalid\n  }\n}" b!"expect closing single quote (')" = true := by decide +kernel

/-- TestParseErrors: missing closing double slash for regexp -/
example : rejects b!"filter {\n  if [field] =~ /.*\n    plugin {}\n  }\n}" b!"expect closing slash (/) for regexp" = true := by decide +kernel

/-- TestParseErrors: missing closing squre bracket -/
example : rejects b!"filter {\n  plugin {\n    value => [ \"bar\" \n  }\n}" b!"expect closing square bracket" = true := by decide +kernel

/-- TestParseErrors: missing closing parenthesis -/
example : rejects b!"filter {\n  if !( 1 == 1 {\n    plugin {}\n  }\n}" b!"expect closing parenthesis" = true := by decide +kernel

end Verif.Tests
