{"id": "C01", "title": "Parse always terminates", "statement": "Parse, ParseReader and ParseFile return for every input: the recursive-descent parser never loops on an empty match and never recurses without consuming input; the depth of nested parser calls is at most linear in the input length.", "quantifier": "every byte string (valid UTF-8 or not), every file name, every setting of IgnoreComments, ExceptionalCommentsWarning, AllowInvalidUTF8 and MaxExpressions", "why_tests_cant": "A test only shows that sampled inputs return; non-termination hides in an input nobody tried (e.g. an empty match inside a repetition).", "anchors": ["logstash_config.go: Parse, (*parser).parse, parseExpr", "logstash_config.peg", "logstash_config.go: parseZeroOrMoreExpr, parseOneOrMoreExpr"]}
{"id": "C02", "title": "A successful parse accounts for the whole input", "statement": "If Parse returns a nil error then the input, byte for byte, is a sentence of the documented grammar: it is the concatenation of gaps (whitespace and comments) and tokens of exactly the constructs that appear in the returned AST. No prefix, infix or tail of the file is skipped silently.", "quantifier": "every input that parses without error", "why_tests_cant": "A parser that stops early still passes tests whose inputs are wholly valid; 'no byte is skipped' is about all accepted inputs.", "anchors": ["logstash_config.peg: init, config, EOF", "logstash_config.go: Parse, (*parser).parse, parseExpr"]}
{"id": "C03", "title": "A successful parse implies valid UTF-8", "statement": "With default options, if Parse returns a nil error then the input is valid UTF-8.", "quantifier": "every byte string", "why_tests_cant": "The set of invalid encodings is unbounded and an invalid byte can sit in any construct (comment, string, regexp, bareword).", "anchors": ["logstash_config.go: (*parser).read", "logstash_config.go: AllowInvalidUTF8"]}
{"id": "C04", "title": "Positions in the AST are accurate", "statement": "If Parse returns a nil error, every node of the AST that records a position records the line, column and offset (by counting newlines and characters of the input) of the byte where that construct starts in the input: sections, branches, else-if and else blocks at their keyword, plugins and attributes at their name, strings, field references and their elements, regexps, expressions and operators at their first byte, hash entries where the gap before their key starts. In particular every non-zero position is accurate and lies within the input. HashEntry.Pos, which is that of the key, is the place where a string key is written; an entry with a number key has none.", "quantifier": "every input that parses without error, every node of the result", "why_tests_cant": "Position bookkeeping goes through backtracking; a stale line counter shows up only for particular combinations of backtracking and newlines.", "anchors": ["logstash_config.go: (*parser).read, restore", "logstash_config_helper.go: astPos", "ast/ast.go: Pos"]}
{"id": "C05", "title": "The result of Parse does not depend on earlier parses", "statement": "The value and the error list that a Parse returns are functions of its own arguments only: whatever earlier parses left in the package-level failure list does not influence them. The farthest-failure report that it leaves behind is one too, except when MaxExpressions stops the parse before its fourth expression: then the report of the previous parse is still there (witness proved).", "quantifier": "every input, every option setting, every prior content of the global failure list, i.e. every history of earlier parses", "why_tests_cant": "A history-dependence needs a particular sequence of earlier failing parses to show up.", "anchors": ["parse_error_helper.go: farthestFailure", "logstash_config_helper.go: initParser"]}
{"id": "C06", "title": "GetFarthestFailure reports the farthest failures only", "statement": "After any parse all entries of the failure report are at one and the same position, that position is the maximum of all positions at which an expectation failed since the last reset, and no message is listed twice. Unless the parse is stopped by the expression limit or a failed type assertion, the report is a function of what the grammar does on the text: it lists, in the order in which they came up, the expectations that were not met at the farthest position, with the text of the last construct that was complete. GetFarthestFailure returns nothing if there are none, otherwise a text with the position, end and one-line text of that construct and a line per message.", "quantifier": "every sequence of recorded expectation failures, in particular every parse", "why_tests_cant": "Depends on the whole history of pushes, in any order.", "anchors": ["parse_error_helper.go: pushError, fatalError, GetFarthestFailure"]}
{"id": "C07", "title": "A fatal error reports the same text through the error and through GetFarthestFailure", "statement": "When a parse is aborted by a missing closing character, the text returned by GetFarthestFailure is exactly the text carried by the returned error, so CLI users see it once.", "quantifier": "every state in which a fatal error is raised", "why_tests_cant": "Two independently written formatters must agree for every position, text and message.", "anchors": ["parse_error_helper.go: fatalError, GetFarthestFailure", "internal/app/check/check.go"]}
{"id": "C08", "title": "IgnoreComments changes nothing but comments", "statement": "Parse with IgnoreComments(true) succeeds exactly when Parse without it does, and its AST is the AST of the plain parse with every comment block emptied (everything else, including positions, equal).", "quantifier": "every input", "why_tests_cant": "Comment text could change the outcome of an alternative in some context; only a simulation over all inputs excludes it.", "anchors": ["logstash_config_options.go: IgnoreComments", "logstash_config_helper.go: comment, commentBlock"]}
{"id": "C09", "title": "ExceptionalCommentsWarning only adds warnings", "statement": "Parse with ExceptionalCommentsWarning(true) succeeds exactly when Parse without it does, with equal errors, and the ASTs differ at most in Config.Warnings, which is empty when the option is off.", "quantifier": "every input, every setting of the other options", "why_tests_cant": "State changes made inside failed alternatives must be rolled back on every path.", "anchors": ["logstash_config_options.go: ExceptionalCommentsWarning", "logstash_config_helper.go: warnComment"]}
{"id": "C10", "title": "check, format and lint agree on validity", "statement": "The three commands call the parser with three different option sets, yet for every file content they agree on whether it parses.", "quantifier": "every file content", "why_tests_cant": "Needs equality of the accepted languages of three parser configurations.", "anchors": ["internal/app/check/check.go: Run", "internal/app/format/format.go: Run", "internal/app/lint/lint.go: Run"]}
{"id": "C11", "title": "MaxExpressions is transparent or an error", "statement": "Parse with MaxExpressions(n) either returns exactly what it returns without the limit, or returns a nil value and an error whose last entry is the limit error. It never silently yields a truncated AST.", "quantifier": "every input and every n", "why_tests_cant": "The limit can strike at every one of arbitrarily many evaluation steps.", "anchors": ["logstash_config.go: MaxExpressions, parseExpr"]}
{"id": "C12", "title": "AllowInvalidUTF8 has no effect on valid input", "statement": "On valid UTF-8 input Parse with AllowInvalidUTF8(true) returns the same value, error and failure report as without.", "quantifier": "every valid UTF-8 input", "why_tests_cant": "Ranges over all valid inputs.", "anchors": ["logstash_config.go: AllowInvalidUTF8, read"]}
{"id": "C13", "title": "Parse with Recover never lets a panic escape and pairs values with errors", "statement": "Parse returns either an ast.Config and no error, or (a nil value or, for recoverable value errors only, an ast.Config) and a non-empty error list; in particular a nil error implies that the returned value is an ast.Config, so the type assertion the CLI performs cannot fail.", "quantifier": "every byte string and option setting", "why_tests_cant": "Type assertions inside the ~40 action callbacks could fail on some nesting of constructs.", "anchors": ["logstash_config.go: Recover, parse", "internal/app/lint/lint.go: conf := c.(ast.Config)"]}
{"id": "C14", "title": "Sections keep their type and order", "statement": "The input/filter/output sections of the AST are, per type and in source order, exactly the sections written in the file; Config.Input contains only input sections, etc.", "quantifier": "every input that parses", "why_tests_cant": "All interleavings of any number of sections of the three types.", "anchors": ["logstash_config_helper.go: config, configSection"]}
{"id": "C15", "title": "Layout is irrelevant", "statement": "Replacing any gap of a file that Parse accepts by any other gap of whitespace and comments permitted at that place yields a file that parses, to the same AST up to positions and comments.", "quantifier": "every well-formed concrete syntax tree and every choice of gaps", "why_tests_cant": "Infinite family of layouts; PEG ordered choice and backtracking could make a gap change which alternative matches.", "anchors": ["logstash_config.peg: _, __"]}
{"id": "C16", "title": "Formatting preserves the configuration", "statement": "The text String produces for a printable configuration parses without error (with any options that set no expression limit), and the result is the same configuration: equal up to source positions, warnings and comments, and with comments read, equal to the configuration obtained by normalising only the marks for blank lines around comments. Every configuration Parse returns has the shape this needs; it is printable when its numbers are zero or at least 1e-4, quotes in its regexps and selectors are balanced with no newline outside them, no array in a condition prints like a field reference, and no plugin whose name reads as the beginning of an else block follows a branch printed without one (exactly then, for configurations Parse returned). Without these restrictions it fails: witnesses proved. The text determines the configuration: two printable configurations with the same text are the same up to positions and the marks for blank lines.", "quantifier": "every printable AST (any size, any nesting), every options value without limit, every file name", "why_tests_cant": "Round-trip over all ASTs; interaction of indentation, quoting and comments at every depth.", "anchors": ["ast/ast.go: String methods", "ast/ast_helper.go: prefix", "logstash_config.go: Parse, (*parser).parse, parseExpr"]}
{"id": "C17", "title": "Formatting reaches a fixed point after two rounds", "statement": "For a printable configuration, formatting the reparsed formatted text once more changes nothing: from the second round on the text is stable. For configurations without comments the first round is already stable. (One round is not enough in general: a blank line in front of a first comment is printed once and then dropped; witness proved.)", "quantifier": "every printable AST", "why_tests_cant": "Every AST; a second pass sees the output of the first.", "anchors": ["ast/ast.go: String methods", "ast/ast_helper.go: prefix"]}
{"id": "C18", "title": "Regexps survive formatting when their quotes are balanced", "statement": "All regular expressions of a printable configuration occur in the formatted text byte for byte, in order, at any nesting depth. Without balanced quotes this fails: the formatter drops the beginning of the line up to the quote, or inserts blanks after a newline (witnesses proved).", "quantifier": "every printable AST; concrete witnesses for the failures", "why_tests_cant": "Depends on quote balance over arbitrary multi-line text.", "anchors": ["ast/ast_helper.go: linesRe, prefix"]}
{"id": "C19", "title": "No array element is lost by Parse, unless a plugin is the first element", "statement": "In every successfully parsed file in which no array element is a plugin, every array of the AST has exactly as many elements as the array written in the file. (The unrestricted statement is false: an array whose first element is a plugin loses that element without an error.)", "quantifier": "every input that parses", "why_tests_cant": "Every array, element type and nesting.", "anchors": ["logstash_config_helper.go: attributes, attributeComment", "logstash_config.peg: array"]}
{"id": "C20", "title": "Comments survive formatting", "statement": "Formatting a printable configuration and parsing the text again gives the same configuration including all comments, each attached to the same node, up to positions and marks for blank lines, provided the sections of each type have the same comments and a file with comments at its end has a section. (Without these provisos comments are lost or replaced; witnesses proved.)", "quantifier": "every printable AST", "why_tests_cant": "All positions and nestings of comments.", "anchors": ["ast/ast.go: pluginSectionString, CommentBlock.String", "logstash_config_helper.go: comment, commentBlock"]}
{"id": "C21", "title": "Indentation of nested blocks only inserts blanks at line starts outside quotes", "statement": "For text made of lines of code with balanced quotes, comments and indentation, the re-indentation of nested blocks adds two blanks at the start of every non-empty line that starts outside a quoted string, drops trailing newlines, and changes nothing else; no visible byte is added, removed or moved.", "quantifier": "every text with balanced quotes, any number of lines", "why_tests_cant": "All multi-line texts.", "anchors": ["ast/ast_helper.go: prefix, linesRe"]}
{"id": "C22", "title": "Names, strings and field references survive nesting", "statement": "Every plugin and attribute name, string literal (with embedded newlines, the other quote character, # characters and escapes), field reference and regexp of a printable configuration occurs in the output of String byte for byte, in order and without overlap, at any nesting depth.", "quantifier": "every printable AST", "why_tests_cant": "All strings and all depths.", "anchors": ["ast/ast_helper.go: prefix, linesRe", "ast/ast.go: StringAttribute.ValueString"]}
{"id": "C23", "title": "Numbers survive formatting", "statement": "Every float64 v that is zero or has |v| >= 1e-4 is printed as a literal that the number syntax of the grammar accepts and that parses back to exactly v; for smaller |v| precision is lost (violated there). Every number other than zero is printed as a literal; if it has digits after the point, then no literal with the same value and as many digits or less after the point is closer to the number. A number from 1 up to 100000 in magnitude is printed with the fewest digits after the point that a literal with its value can have.", "quantifier": "all finite float64 values", "why_tests_cant": "2^64 values; shortest-decimal printing.", "anchors": ["ast/ast.go: NumberAttribute.ValueString", "logstash_config_helper.go: number"]}
{"id": "C24", "title": "Unescape inverts Escape", "statement": "Unescape(Escape(s)) = s.", "quantifier": "all strings (any bytes)", "why_tests_cant": "All strings.", "anchors": ["ast/astutil/escape.go: Escape, Unescape"]}
{"id": "C25", "title": "Escape produces a string that is safe inside quotes", "statement": "Escape(s) contains no newline, carriage return or tab, and every quote character in it is preceded by a backslash; a string literal built from it by adding quotes of either kind is one complete token of the grammar exactly if s does not end in a backslash (the grammar knows no escaped backslash; witness proved).", "quantifier": "all strings, both quote types", "why_tests_cant": "All strings.", "anchors": ["ast/astutil/escape.go: Escape", "logstash_config.peg: doubleQuotedString, singleQuotedString"]}
{"id": "C26", "title": "Quote never changes the value", "statement": "Quote(v, q) either fails or returns v between two q characters (v itself for Bareword); Bareword succeeds exactly on [A-Za-z_][A-Za-z0-9_]+. A result for quoted types is one complete string token exactly if v does not end in a backslash and has no unescaped quote at index 0 or 1; that Quote itself rejects the latter is false.", "quantifier": "all strings and quote types", "why_tests_cant": "All strings.", "anchors": ["ast/astutil/quote.go: Quote"]}
{"id": "C27", "title": "QuoteWithEscape yields a valid quoted string", "statement": "QuoteWithEscape(v, q) is one complete string token of the grammar for every v without a quote at index 1 and without trailing backslash (violated otherwise).", "quantifier": "all strings, both quote types", "why_tests_cant": "All strings.", "anchors": ["ast/astutil/quote.go: QuoteWithEscape, escapeQuotes"]}
{"id": "C28", "title": "Escaped barewords are barewords", "statement": "QuoteWithEscape(v, Bareword) consists of letters, digits and underscores, does not start with a digit, is idempotent, has one character per rune of v, and is a valid bareword iff v has at least two runes (violated for shorter v); valid barewords without underscore changes are returned unchanged.", "quantifier": "all strings", "why_tests_cant": "All strings.", "anchors": ["ast/astutil/quote.go: escapeBareword"]}
{"id": "C29", "title": "QuoteWithEscape only inserts backslashes", "statement": "Deleting the inserted backslashes gives back v: v is obtained from the escaped text by deleting backslashes that directly precede a quote; a text whose quotes are all escaped is unchanged; escaping twice equals escaping once.", "quantifier": "all strings", "why_tests_cant": "All strings.", "anchors": ["ast/astutil/quote.go: escapeQuotes"]}
{"id": "C30", "title": "ApplyPlugins visits every plugin exactly once, in source order", "statement": "With a callback that performs at most one of Replace/Delete and any insertions, the callback is invoked exactly once for every plugin (and nil element) of the original tree, in depth-first source order, and never for inserted or replacing elements.", "quantifier": "every tree, every callback behaviour (including stateful callbacks)", "why_tests_cant": "All trees times all callback behaviours.", "anchors": ["ast/astutil/apply.go: ApplyPlugins, Cursor"]}
{"id": "C31", "title": "ApplyPlugins returns the tree described by the callback's edits", "statement": "The returned list is the original with every plugin replaced by: elements inserted before, the (replaced or deleted or kept) plugin, elements inserted after; branches are kept with their blocks rewritten in the same way.", "quantifier": "every tree, every callback behaviour in the discipline of C30", "why_tests_cant": "All trees times all edit scripts.", "anchors": ["ast/astutil/apply.go: ApplyPlugins, Cursor.Delete, Replace, InsertBefore, InsertAfter"]}
{"id": "C32", "title": "Replace-only traversals work in place", "statement": "If the callback only replaces, the slice passed by the caller is updated in place, so ignoring the result (as lint does) loses nothing; with Delete/Insert the caller's slice is not the result (aliasing).", "quantifier": "every tree and every replacing callback", "why_tests_cant": "Slice aliasing over all trees.", "anchors": ["ast/astutil/apply.go: ApplyPlugins", "internal/app/lint/lint.go: Run"]}
{"id": "C33", "title": "Cursor operations compose only in a disciplined order", "statement": "Replace and InsertAfter in any number, then at most one Delete, then InsertBefore in any number act on the current plugin (C31). Outside this order they do not compose: a second Delete removes the next plugin and makes the traversal revisit or panic, and Replace/InsertAfter after InsertBefore act on the inserted element.", "quantifier": "every callback", "why_tests_cant": "All operation sequences.", "anchors": ["ast/astutil/apply.go: Cursor.Delete, Replace"]}
{"id": "C34", "title": "Plugin.ID returns the first id attribute", "statement": "ID returns the value of the first attribute named id if that is a string attribute, a type error if it is of another type, and a not-found error iff there is no attribute named id; nil attributes are skipped.", "quantifier": "every plugin", "why_tests_cant": "All attribute lists.", "anchors": ["ast/ast.go: Plugin.ID"]}
{"id": "C35", "title": "NotFound errors are recognisable", "statement": "IsNotFoundError(err) is true exactly for the error of a plugin without an id attribute, and the message names the plugin.", "quantifier": "every plugin", "why_tests_cant": "All attribute lists.", "anchors": ["ast/ast.go: NotFoundError, IsNotFoundError, NotFoundErrorf"]}
{"id": "C36", "title": "nil elements are skipped when printing", "statement": "Removing nil attributes, array elements, branch-or-plugin elements and expressions from an AST does not change String(), unless that makes an else block empty that had only nil elements (witness proved). A nil operand of an `in` expression is not skipped: the text of a panic inside fmt is printed in its place (witness proved).", "quantifier": "every AST", "why_tests_cant": "All placements of nil.", "anchors": ["ast/ast.go: String methods"]}
{"id": "C37", "title": "Condition.Pos never panics on parsed input", "statement": "Every condition of a successfully parsed file has at least one expression; its Pos is the position of the first one: the line, column and offset of the place in the file where the condition is written. The offset -1 of InvalidPos is returned exactly for conditions without expressions, also if they were built by hand.", "quantifier": "every input that parses, every branch in it", "why_tests_cant": "All inputs.", "anchors": ["ast/ast.go: Condition.Pos", "logstash_config_helper.go: condition"]}
{"id": "C38", "title": "Operator texts round-trip", "statement": "The text printed for every compare, regexp and boolean operator is the text from which the parser builds the same operator, and distinct operators print distinct texts.", "quantifier": "all operators", "why_tests_cant": "Finite; included because C16 rests on it.", "anchors": ["ast/ast.go: CompareOperator.String, RegexpOperator.String, BooleanOperator.String", "logstash_config_helper.go: compareOperator, regexpOperator, booleanOperator"]}
{"id": "C39", "title": "check reports exactly the files that do not parse", "statement": "If all arguments exist, check returns an error iff some non-directory argument fails to parse, with one entry per such file, in argument order; directories are skipped.", "quantifier": "every list of arguments and file contents", "why_tests_cant": "All argument lists.", "anchors": ["internal/app/check/check.go: Run"]}
{"id": "C40", "title": "check and lint crash iff an argument is missing; format reports it", "statement": "Whenever at least one argument of check or lint does not exist, the command crashes with a nil dereference (the code appends the error but does not continue); format reports a missing file as an error entry naming the file.", "quantifier": "every argument list", "why_tests_cant": "All argument lists.", "anchors": ["internal/app/check/check.go: Run", "internal/app/lint/lint.go: Run"]}
{"id": "C41", "title": "format stops at the first failing argument", "statement": "format prints (or rewrites) the arguments before the first failing one, in order, and nothing after it.", "quantifier": "every argument list", "why_tests_cant": "All argument lists.", "anchors": ["internal/app/format/format.go: Run"]}
{"id": "C42", "title": "format -w and lint only write files that parsed", "statement": "No file other than a listed, existing, non-directory argument that parsed is ever opened for writing, and what is written is the printed form of its own configuration; without -w / --auto-fix-id nothing is written.", "quantifier": "every argument list and file system", "why_tests_cant": "All argument lists and contents.", "anchors": ["internal/app/format/format.go: Run", "internal/app/lint/lint.go: Run"]}
{"id": "C43", "title": "A crash while rewriting leaves the old content or a prefix of the new one", "statement": "At every crash point (including torn writes and write errors) of format -w and lint --auto-fix-id every file holds its old content or a prefix of its new content, and files that are not arguments are untouched; it is not atomic: a crash can leave a file with neither its old nor its new content (empty).", "quantifier": "every crash point between and within the write operations", "why_tests_cant": "Crash points cannot be enumerated by unit tests.", "anchors": ["internal/app/format/format.go: Run", "internal/app/lint/lint.go: Run"]}
{"id": "C44", "title": "lint reports exactly the missing and duplicate ids", "statement": "Without --auto-fix-id, lint's no-ID list is exactly the list of plugins without usable id, in traversal order, and its duplicate list exactly those whose id occurred on an earlier plugin of the same file.", "quantifier": "every configuration", "why_tests_cant": "All configurations.", "anchors": ["internal/app/lint/lint.go: validator.walk, Run"]}
{"id": "C45", "title": "lint --auto-fix-id appends a distinct id to exactly the plugins without one", "statement": "After --auto-fix-id plugins that had an id are unchanged and nothing but one appended id attribute changes elsewhere; generated ids are pairwise distinct; every plugin without an id attribute has an id afterwards, and if no existing id has the generated form, all ids are distinct. It fails for plugins whose first id attribute is not a string (they still have no id), and generated ids can collide with existing ones.", "quantifier": "every configuration", "why_tests_cant": "All configurations.", "anchors": ["internal/app/lint/lint.go: validator.walk"]}
{"id": "C46", "title": "lint --auto-fix-id and the validity of the file it writes", "statement": "If every double quote in the name of a plugin without id is escaped, the file written by --auto-fix-id for a printable configuration parses, to the configuration with the ids added; if the ids it had before are distinct and not of the made-up form, lint reports nothing about the file written. (For arbitrary configurations this fails: witnesses proved.)", "quantifier": "every printable configuration with escaped names", "why_tests_cant": "All configurations.", "anchors": ["internal/app/lint/lint.go: validator.walk"]}
{"id": "C47", "title": "Error lists are rendered completely", "statement": "MultiErr renders the number of errors and every line of every error message, each message introduced by one bullet, in order.", "quantifier": "every list of errors", "why_tests_cant": "All error lists and message texts.", "anchors": ["internal/format/multierr.go: MultiErr, prefix"]}
{"id": "C48", "title": "Options are restorable, independent, and the last one wins", "statement": "Applying the option returned by applying an option restores the previous setting. For every list of options the parser runs with the last value given to each setting, and with the documented default where none is given; order matters only between occurrences of the same option. Under the two keys of GlobalStore that IgnoreComments and ExceptionalCommentsWarning use, only the bool true counts as true. A call of Parse with a list of options that leaves the entry point and Recover at their defaults is the parse with exactly those values.", "quantifier": "every parser state, option value and list of options", "why_tests_cant": "All states and all lists of options.", "anchors": ["logstash_config_options.go", "logstash_config.go: Option"]}
{"id": "C49", "title": "Backtracking leaves no trace", "statement": "A failed alternative leaves the read position, the user state (warnings) and the variable bindings exactly as they were before it was tried.", "quantifier": "every grammar expression, every parser state", "why_tests_cant": "All expressions and states.", "anchors": ["logstash_config.go: parseChoiceExpr, parseSeqExpr, restore, restoreState, pushV, popV"]}
{"id": "C50", "title": "Escape and unescape", "statement": "Escape replaces exactly the characters newline, carriage return, tab, backslash, double and single quote by their two-character escape sequences and nothing else. Unescape, reading from the left, replaces exactly those sequences by the characters; a backslash before any other character is kept with that character.", "quantifier": "every byte string", "why_tests_cant": "All strings; overlapping replacements and runs of backslashes only show up for particular inputs.", "anchors": ["ast/astutil/escape.go: Escape, Unescape"]}
{"id": "C51", "title": "Errors are located in the input", "statement": "Every error of Parse carries an offset inside the input (end included). For valid UTF-8 input its line, column and offset are exactly those of one place of the input, found by counting newlines and characters, and no error is about the encoding. An 'invalid encoding' error is only reported without AllowInvalidUTF8, at an offset where the input really does not start a UTF-8 character. The text quoted by the farthest-failure report is exactly the input between the two positions it names.", "quantifier": "every input, every option set, every earlier history of the package", "why_tests_cant": "All inputs and options; errors are raised at any depth of backtracking and their position is saved and restored with the parser state.", "anchors": ["logstash_config.go: addErr, addErrAt, failAt, read, parse", "logstash_config.peg: fatalError, pushError, farthest failure", "logstash_config_helper.go"]}
{"id": "C52", "title": "No error is reported twice", "statement": "The errors in the list returned by Parse have pairwise distinct texts, and every distinct error raised during the parse is still in the list: removing duplicates loses no message and keeps the order of first occurrence.", "quantifier": "every input, every option set", "why_tests_cant": "All inputs; duplicates arise from backtracking over the same place by several alternatives.", "anchors": ["logstash_config.go: errList.dedupe, errList.err, parse"]}
{"id": "C53", "title": "Warnings name the comments that are lost", "statement": "With the option ExceptionalCommentsWarning(true), the warnings of a successful parse are, in the order of the file, one for each gap containing a comment in a place where the configuration cannot keep comments (around =>, inside conditions, before an opening brace or a comma), naming the line, column and offset where that gap starts; there are no other warnings, and without the option none at all. Alternatives tried and abandoned leave no warning. Formatted text has none.", "quantifier": "every input that parses without error, every option set", "why_tests_cant": "Warnings are collected during backtracking; a warning kept from an abandoned alternative or lost on restore shows up only for particular inputs.", "anchors": ["logstash_config.peg: init, _, warnings state", "logstash_config_helper.go: warnComment", "logstash_config_options.go: ExceptionalCommentsWarning"]}
{"id": "C54", "title": "Parsing takes time linear in the input", "statement": "The number of expressions the parser evaluates (Stats.ExprCnt) is at most 270000·(n+1) for an input of n bytes, accepted or rejected; so setting MaxExpressions to such a limit never changes the value, the errors or the farthest-failure report of Parse. Nesting of branches, conditions, hashes, arrays and comments does not make backtracking exponential or quadratic.", "quantifier": "every byte string, every option set (without memoization), every previous content of the farthest-failure report", "why_tests_cant": "A PEG parser without memoization is exponential for many grammars; timing a few files does not exclude an input on which alternatives are retried at every nesting level.", "anchors": ["logstash_config.peg: all rules", "logstash_config.go: parseExpr, Stats.ExprCnt, MaxExpressions"]}
{"id": "C55", "title": "Parse reports only foreseen errors", "statement": "Every error returned by Parse is one of: invalid encoding; the expression limit; 'no match found, expected: …'; a missing closing delimiter (the delimiter being one the reporting rule has); a number out of range; or one of three complaints about a plugin used inside an array or hash, which are reported only by the rules array and hashentry. None of the other internal consistency checks of the code that builds the configuration ever fails. The failure report lists only the fourteen expectations of the grammar. The text of an error determines its position, rule and message. (That no internal type assertion ever fails is false: a plugin as a hash value is reported as 'interface conversion'.)", "quantifier": "every byte string, every option set", "why_tests_cant": "The builder code works on untyped values and asserts their types at run time; that no combination of alternatives delivers an unexpected type needs an argument over all derivations of the grammar.", "anchors": ["logstash_config_helper.go: all action functions", "logstash_config.go: addErrAt, parse, errList", "parse_error_helper.go"]}
{"id": "C56", "title": "The accepted language is exactly the documented one, and unambiguous", "statement": "Without an expression limit, Parse returns a nil error for exactly the texts (valid UTF-8, unless invalid UTF-8 is allowed) of well-formed trees of the documented syntax in which no plugin name can be taken for the beginning of a branch: no name that is `if` followed by a condition made of numbers (if5, if1in2and3) or that starts with `if`, such a condition and contains a number out of range, and no plugin named `else` (or `else` and such a name) directly after a branch without an else block. Two such trees for the same file denote the same configuration, with the same positions, comments and warnings.", "quantifier": "every input, every options value without limit", "why_tests_cant": "Both directions range over all inputs: nothing outside the language is accepted, nothing inside is rejected; ordered choice can hide an alternative for particular names only.", "anchors": ["logstash_config.peg: all rules", "logstash_config.go: Parse, (*parser).parse, parseExpr"]}
{"id": "C57", "title": "Number literals are rounded correctly", "statement": "The value of a number literal is the IEEE-754 binary64 value closest to the decimal number written, a tie going to the value with an even significand; this value is unique. A literal has no value, and is rejected where a number can stand, exactly if its magnitude is at least 2^1024 - 2^970. Every number in a configuration Parse returns is the correctly rounded value, with the sign, of a literal that stands in the file.", "quantifier": "every number literal of any length; every accepted input and options", "why_tests_cant": "Rounding, ties and the range limit over all decimal strings.", "anchors": ["logstash_config_helper.go: number", "logstash_config.peg: number", "ast/ast.go: NumberAttribute"]}
{"id": "C58", "title": "Parse may be called from several goroutines", "statement": "Calls of Parse and GetFarthestFailure made at the same time by several goroutines return, and each Parse returns what it returns alone. As stated this is false: the calls share the unsynchronised package variable behind GetFarthestFailure, and a Parse that starts at the wrong moment makes another Parse of a valid file return an index-out-of-range error, or makes GetFarthestFailure panic or return a text that mixes two failures and was never the report. What holds for every set of calls and every interleaving of their accesses: every call returns; a Parse returns exactly what it returns alone or nil with that error (never a wrong configuration); it is not disturbed at all unless another call starts while it is under way, and GetFarthestFailure then does not panic; an uninterrupted call behaves as in a sequential program.", "quantifier": "every finite set of concurrent calls, every input and options, every interleaving (schedule) of the accesses to the shared variable", "why_tests_cant": "Ranges over all schedules; the failing ones need a context switch between two particular reads.", "anchors": ["parse_error_helper.go: farthestFailure, pushError, fatalError, GetFarthestFailure", "logstash_config_helper.go: initParser", "logstash_config.go: Parse"]}
{"id": "C59", "title": "The accepted language is the grammar of Logstash, with four changes", "statement": "Parse follows grammar.treetop, the grammar of Logstash, with these changes: a comment may be ended by the end of the file; a comment may stand between the entries of a hash; there are no method calls; a field name in [...] contains no '['. Every accepted input is a text of that grammar, or only white space and comments. A text of that grammar, or only white space and comments, is never rejected with \"no match found\": if it is rejected at all, every error is a complaint about a delimiter that is not closed, a number out of range, or a plugin in an array or hash. On texts without the changed features (no '#', no '(', no '[' that is followed by another '[' before the next ']' or ',') the changed grammar is the original one. That Parse accepts exactly what Logstash accepts is false: each change matters, and plugins named like a condition (if5) or else, numbers above the float64 range and plugins as hash values are accepted by the grammar and rejected by Parse.", "quantifier": "every input text and options; every text of the grammar", "why_tests_cant": "Equality of two infinite languages given by different grammars; the 40 rules were regrouped to attach comments.", "anchors": ["grammar.treetop", "logstash_config.peg", "logstash_config.go: Parse"]}
{"id": "C60", "title": "ParseReader and ParseFile are Parse on the contents", "statement": "ParseReader returns what Parse returns on the concatenation of everything the reader delivers, in whatever pieces it delivers it, with the same effect on GetFarthestFailure and on the statistics; if reading fails it returns nil and the reader's error and nothing is parsed. ParseFile returns the error of opening the file, or what ParseReader returns for its contents if the file can be closed; if it cannot, the error of Close takes the place of any other error and the value stays. That the error of ParseFile tells what is wrong with the contents is false if closing fails: the error of Close replaces the parse error.", "quantifier": "every reader (every division of the contents into reads, every error), every file, every options", "why_tests_cant": "All ways to chunk all inputs and all I/O errors.", "anchors": ["logstash_config.go: ParseFile, ParseReader, Parse"]}
{"id": "C61", "title": "Statistics count the work, and MaxExpressions limits the total", "statement": "Without a limit, the result of a call does not depend on the Stats handed to Statistics, and every call adds to ExprCnt a number that depends on the input, options and entry point only and is linear in the length of the input (entry point init). With MaxExpressions(n): if the value of ExprCnt before the call plus the number of expressions of the call is at most n, the limit changes nothing (result, counter, farthest failure); otherwise the call fails with the limit error as last error (or panics with it, without Recover) and ExprCnt is left at max(n, value before)+1. That a file that is within the limit stays within it is false: reusing a Stats makes a second parse of the same file fail.", "quantifier": "every input, options, entry point and every previous value of the counter", "why_tests_cant": "The exact threshold for every input; counters of all earlier histories.", "anchors": ["logstash_config.go: Statistics, MaxExpressions, Stats, parser.parseExpr, incChoiceAltCnt"]}
{"id": "C62", "title": "Recover(false) panics exactly on the fatal errors", "statement": "With Recover(false) a call has the same result, the same effect on GetFarthestFailure and on the statistics as with Recover(true), except when Recover(true) returns nil and an error list that ends in a fatal error (expression limit, failed type assertion, missing closing delimiter); then it panics with the message of exactly that error. Other errors (no match, encoding, number range, ...) never panic. Fatal errors occur only as the last error. Accepted inputs never panic.", "quantifier": "every input, options and entry point", "why_tests_cant": "Any input may panic; the absence of others has to be shown for all.", "anchors": ["logstash_config.go: Recover, parser.parse", "parse_error_helper.go: fatalError"]}
{"id": "C63", "title": "Entrypoint selects the rule", "statement": "Entrypoint(name) with a name that is not a rule of the grammar returns nil and the single error \"invalid entrypoint\" and has no other effect. With the name of a rule, a call succeeds only if a beginning of the text matches what the rule stands for in grammar.treetop with the listed changes (C59); if a beginning matches, the call does not report \"no match found\". With \"config\" the configuration is that of Parse without the warnings, for every file with at least one section; \"plugin\" and the others do not require the text to end there. What the other entry points return is the value of a piece of valid text at the beginning of the input, with the positions of the input; and every such piece is returned when what follows it cannot be taken for a part of it (pieces that end in a bracket may be followed by anything).", "quantifier": "every name, text, options and previous history", "why_tests_cant": "23 entry points times all texts.", "anchors": ["logstash_config.go: Entrypoint, parser.parse, parseRule", "logstash_config.peg", "grammar.treetop"]}
{"id": "C64", "title": "Memoize does not change the accepted language", "statement": "With Memoize(true), for every entry point and every text: the call terminates; it succeeds only if a beginning of the text matches what the entry point stands for in grammar.treetop with the listed changes; if a beginning matches it does not report \"no match found\". So a text that one of the two modes accepts is never rejected by the other for lack of a match. That the result is the same in both modes is false: warnings about exceptional comments are lost, and the report of GetFarthestFailure can lack entries.", "quantifier": "every text, option set, entry point, limit and previous history", "why_tests_cant": "The table changes the order and number of evaluations on every input that backtracks; whether a stored result is used in a context in which it is wrong depends on all ways two evaluations can meet at the same place.", "anchors": ["logstash_config.go: Memoize, getMemoized, setMemoized, parseRule, parseExpr"]}
{"id": "C65", "title": "Memoize evaluates every expression at most once at each place", "statement": "With Memoize(true) a call evaluates each of the 1785 expressions of the grammar at most once at each of the n+1 places of an input of n bytes: ExprCnt grows by at most 1785·(n+1), whatever the options, the entry point and the outcome (the documented guarantee of linear parsing time).", "quantifier": "every byte string (valid UTF-8 or not), option set, entry point, limit and previous counter", "why_tests_cant": "A bound over all inputs; in particular no expression may be started again at the same place while it is being evaluated.", "anchors": ["logstash_config.go: Memoize, parseExpr, Stats.ExprCnt"]}
{"id": "C66", "title": "Sequences of commands settle and keep the configurations", "statement": "However check, format, format -w and lint are run one after the other, with any arguments (a file may be named more than once), on paths that can be formatted (directories, and readable and writable files that parse to a printable configuration): every command returns, no check and no format reports an error, every such path stays formattable, files that are not named are not touched, and every file keeps its configuration up to positions and comments. Running format -w again and again changes no file from the second run on. lint --auto-fix-id on paths it can give ids to gives every plugin an id, for good: whatever is run on the files afterwards, every plugin still has an id and lint --auto-fix-id reports what lint reports and writes nothing.", "quantifier": "every file system, every list of arguments, every history of commands of any length", "why_tests_cant": "Ranges over all histories of commands on all file contents.", "anchors": ["internal/app/check/check.go: Run", "internal/app/format/format.go: Run", "internal/app/lint/lint.go: Run, validator.walk", "ast/ast.go: Config.String", "logstash_config.go: ParseFile"]}
{"id": "C67", "title": "The shared pool of state maps cannot be observed", "statement": "Parsers keep the warnings in maps that they copy before every sequence, choice, negation and action, take from a pool shared by all goroutines of the process, and put back when they backtrack. Whatever calls of Parse and GetFarthestFailure run, one after the other or at the same time, with any options, and whichever map the pool hands out or drops: no goroutine ever uses a map that another one holds or that lies in the pool (so the run time never sees two goroutines using one map), every map in the pool is empty and in it once, every call returns, and what the calls return and what GetFarthestFailure reports is the same as if every parser had its own copies. In particular the warnings in the result of a call are those of its own input: none is left behind by another call, by a recovered panic or by an abandoned alternative.", "quantifier": "every number of calls, every option set and input, every interleaving of the single map, pool and variable operations, every choice of the pool, every growth of the reused slices", "why_tests_cant": "sync.Pool hands out maps depending on the processor, the scheduler and the garbage collector; a map put back twice, or before it is cleared, shows only under particular interleavings.", "anchors": ["logstash_config.go: Parse, ExceptionalCommentsWarning", "logstash_config.go: statePool, storeDict.Discard, cloneState, restoreState, pushV, popV", "logstash_config_helper.go: initState, warnComment, retConfig"]}
{"id": "C68", "title": "The exit status of mustache says whether everything is in order", "statement": "The process mustache always ends. check exits with 0 iff every argument is a directory or a readable file that parses, with 1 if all arguments exist and some cannot be read or does not parse, and crashes (status 2) iff an argument does not exist. format exits with 0 iff no argument fails and then has printed all configurations, otherwise with 1, a message about the first failing argument and the configurations before it; format -w (distinct arguments) exits with 0 iff every argument is a directory or a file that can be read, parses and can be written. lint exits with 0 iff every argument is a directory or a readable file that parses without warnings, in which every plugin has an id and no id occurs twice (with --auto-fix-id: in which no id occurs twice and which can be written if a plugin has none), and crashes iff an argument does not exist. Status 0 means nothing on the standard error, status 1 a message there that lists all failures. An unreadable configuration file or a rejected command line give status 1 and no command is run. format exits with 0 iff check does, and if lint does.", "quantifier": "all parsed command lines, all file systems (missing, unreadable and unwritable paths included), all errors of the configuration file, all earlier states of the process", "why_tests_cant": "The status is a function of all files named and of every way the operating system may refuse them; a CI job relies on 0 never meaning that a file was skipped.", "anchors": ["internal/app/app.go:Execute", "internal/app/check.go:runCheck", "internal/app/format.go:runFormat", "internal/app/lint.go:runLint", "cmd/mustache/main.go:main", "internal/app/check/check.go:Check.Run", "internal/app/format/format.go:Format.Run", "internal/app/lint/lint.go:Lint.Run", "internal/format/multierr.go:MultiErr"]}
{"id": "C69", "title": "The message \"no match found\" names what was looked for at the farthest place", "statement": "When Parse reports that nothing matches, it returns nil and this error only. The error is located at the farthest place of the text where the grammar looked for a token in vain, and its message names exactly the tokens looked for in vain at that place: in lexicographic order, each once, separated by commas and a final or; a token that must not follow is written with a ! in front, and the end of the text is called EOF and comes last. Which tokens are tried where is determined by the grammar and the text.", "quantifier": "every text, all options, all earlier states of the process", "why_tests_cant": "All texts with a syntax error and every order of attempts the grammar makes on them.", "anchors": ["logstash_config.go: parse, failAt, parseLitMatcher, parseCharClassMatcher, parseAnyMatcher, parseNotExpr, listJoin, addErrAt"]}
{"id": "C70", "title": "How deep the parser recurses", "statement": "The depth to which calls of the parser nest is bounded by the number of opening brackets of the text (46 calls for each and 27 more), independently of its length, and a stack with room for that depth gives the result of Parse; a smaller stack gives that result or overflows. With MaxExpressions(m) a depth of m+1 is enough for every text. Without that option no stack is large enough: for every depth there is a valid configuration, of a length linear in the depth, on which it overflows (which in Go ends the process; Recover does not help).", "quantifier": "every text, all options, every stack size", "why_tests_cant": "All texts of all nestings; the overflow needs inputs of hundreds of megabytes with Go's default limit.", "anchors": ["logstash_config.go: parseExpr, parseExprWrap, parseRule, parseSeqExpr, parseChoiceExpr, MaxExpressions, Recover"]}
{"id": "C71", "title": "What Statistics counts", "statement": "With Statistics(&stats, label) a call of Parse has the same result, the same farthest failure and the same ExprCnt as without. It adds to ExprCnt the number of expressions tried, and to ChoiceAltCnt[rule line:col][k] the number of times alternative k (from 1) of an ordered choice written at that place, reached in that rule, is the one that matches; to ChoiceAltCnt[rule line:col][label] the number of times none of them matches. Only choices and alternatives of the grammar are counted, and every choice of the grammar has a position. The counters of alternatives are separate from the one for no match if the label is not a number (with the label 1 they are not); copies of a choice inlined into the same rule share their counters.", "quantifier": "every text, all other options without MaxExpressions, every earlier content of stats, every label, every entry point", "why_tests_cant": "All texts and all histories of a Stats value; the counts depend on every step of the evaluation.", "anchors": ["logstash_config.go: Statistics, Stats, incChoiceAltCnt, parseChoiceExpr"]}
{"id": "C72", "title": "Debug only prints, and what it prints is true", "statement": "With Debug(true) a call of Parse has the same result, the same farthest failure and the same ExprCnt as without; without Debug(true), and for an unknown entry point, nothing is printed. The printed lines are well nested at every depth, also when a panic stops the parse: every opening line has a closing line with the same name, and blocks do not overlap. The block of a rule ends with a MATCH line exactly if the rule matches the text there, and the line shows exactly the part of the text matched; if the rule does not match, its block closes at the position where it opened. Every line shows the position of a place of the text and the character there. The number of blocks of parsing expressions is what ExprCnt counts; only the expression that exceeds MaxExpressions has none.", "quantifier": "every text, all options, every entry point, every earlier content of the counter and of farthestFailure", "why_tests_cant": "All texts and all points at which a panic may stop the parse.", "anchors": ["logstash_config.go: Debug, in, out, print, parseRule, parseActionExpr, restore, cloneState, restoreState"]}
{"id": "C73", "title": "InitState has no effect", "statement": "The options InitState(key, value) change neither the result of Parse nor the farthest failure, ExprCnt or the lines printed with Debug(true), for any keys (also the one under which the parser keeps its warnings) and any values, whatever their Clone methods return.", "quantifier": "every list of InitState options, every text, all other options", "why_tests_cant": "All keys, values and texts.", "anchors": ["logstash_config.go: InitState, cloneState, restoreState", "logstash_config_helper.go: warnComment, exceptionalCommentsWarnings"]}
{"id": "C74", "title": "Configurations built with the constructors survive printing and parsing", "statement": "Take any configuration built with the constructors of package ast (NewConfig, NewPluginSection, NewPlugin, the New…Attribute functions, NewHashEntry, NewBranch, NewIfBlock, NewElseIfBlock, NewElseBlock, NewCondition, the New…Expression functions, NewRegexp, NewSelectorFromNames) from arguments that can stand in a file. Its text (String) is valid UTF-8 and is accepted by Parse whatever the options other than MaxExpressions are; the result is the configuration that was built, up to positions and warnings, and has the same text. Different configurations have different texts. NewSelectorFromNames makes one element of each name, in order; in the text of an expression or attribute the arguments stand where they belong. Without the restrictions on the arguments this fails: the constructors check nothing.", "quantifier": "every configuration built from admissible arguments, of any size and nesting; all options other than MaxExpressions", "why_tests_cant": "The test has a dozen configurations and compares texts only.", "anchors": ["ast/ast.go: NewConfig, NewPluginSection, NewPluginSections, NewPlugin, NewPluginAttribute, NewStringAttribute, NewNumberAttribute, NewArrayAttribute, NewHashAttribute, NewHashEntry, NewBranch, NewIfBlock, NewElseIfBlock, NewElseBlock, NewCondition, New…Expression, NewRegexp, NewSelector, NewSelectorElement, NewSelectorFromNames, String", "logstash_config.go: Parse"]}
{"id": "C75", "title": "Text of a part is read back by its entry point", "statement": "The text that String (for values: ValueString) returns for a part of a configuration — a plugin, a branch, an if block without a comment, an attribute, a value, an array, a hash, a hash entry, a condition, an expression, an operand of a condition — is accepted by Parse with the Entrypoint for that kind of part, and the result is that part, up to positions and the marks for blank lines around comments. This holds for parts that are formatted faithfully (C16's conditions), with comments kept, whatever follows a part that ends in a bracket, and at the end of the text or before the bracket that may follow for the others. Whatever the option for comments, the result is that part up to positions and comments. Else-if and else blocks are the exception: their text starts with the separator from the block before (and their comment) and is rejected by elseIf and elseCond; the text after the separator is read back.", "quantifier": "every printable part of a configuration, file name, rest of the text and call history", "why_tests_cant": "All trees of unbounded size times everything that may follow.", "anchors": ["ast/ast.go: Plugin.String, Branch.String, Condition.String, Attribute.ValueString, HashEntry.String", "logstash_config.go: Entrypoint, Parse"]}
{"id": "C76", "title": "Edits with ApplyPlugins survive writing and reading", "statement": "A configuration is read from a file and edited by any number of calls of ApplyPlugins on the blocks of its sections, each with a callback that deletes plugins, replaces them or inserts plugins before and after them. If the configuration that was read is formatted faithfully (C16's conditions), no plugin in it has a name that can be taken for the beginning of an else block, and every plugin a callback puts in is formatted faithfully, valid UTF-8 and not named like the beginning of an if branch or else block, then the text of the edited configuration is valid UTF-8, Parse accepts it, and what Parse returns is the edited configuration, up to positions and the marks for blank lines around comments. Without the condition on else names this fails: deleting the plugin between a branch and a plugin named else makes that plugin be read back as an empty else block and be lost.", "quantifier": "every input file, every sequence of ApplyPlugins calls, every stateful callback that uses its cursor in the disciplined way, and every call history", "why_tests_cant": "All files times all sequences of edits of unbounded length with arbitrary stateful callbacks.", "anchors": ["ast/astutil/apply.go: ApplyPlugins, Cursor.Delete, Cursor.Replace, Cursor.InsertBefore, Cursor.InsertAfter", "ast/ast.go: Config.String", "logstash_config.go: Parse", "internal/app/lint/lint.go"]}
{"id": "C77", "title": "Configuration files can be put one after the other", "statement": "If Parse accepts each of several files, it accepts their concatenation with a newline after each (Logstash joins the files of its configuration directory in this way), and the inputs, filters and outputs it returns are those of the files, in order, with everything in them including comments; the comments around the sections of two files with sections are all kept. Conversely, if the first file is accepted, the text after it and a newline is accepted in the concatenation iff it is accepted alone. No newline has to be added after a file that ends in one; after a file that ends in a comment without a newline it is needed: there the concatenation silently loses what stands on the first line of the next file. So the order in which files are put together matters only among the files that have sections of the same type.", "quantifier": "all pairs and lists of files, all options (without expression limit), file names and call histories", "why_tests_cant": "All pairs and lists of files of unbounded length.", "anchors": ["logstash_config.peg: init, config, comment, _", "logstash_config.go: Parse", "logstash_config_helper.go: config, configSection, commentBlock"]}
{"id": "C78", "title": "Line ends of Windows", "statement": "A file without carriage returns that Parse accepts is also accepted after every newline has been replaced by carriage return and newline. Parse then returns the same configuration with all its comments (and their marks for blank lines), except that every newline in a name, a string, a regular expression or a field reference has become carriage return and newline too; if there is none, the configuration is the same. A second conversion is harmful: two carriage returns before the newline at the end of a comment are a syntax error.", "quantifier": "every file without carriage returns, all options (without expression limit), file names and call histories", "why_tests_cant": "All files of unbounded length and nesting.", "anchors": ["logstash_config.peg: comment, whitespace, _", "logstash_config_helper.go: commentBlock", "logstash_config.go: Parse"]}
{"id": "C79", "title": "A file that has been cut off", "statement": "If Parse accepts a file and also accepts a beginning of it (what is left of the file when the rest is lost), then for each type of section the configuration of the beginning has exactly the sections of the whole file that start within the beginning, in order, each complete: the same plugins, branches, attributes and values, the same comments and the same offsets, lines and columns. So a file cut off within a section is never read as a file with less in this section; what a cut can lose without an error is only whole sections at the end and comments after the last one.", "quantifier": "all pairs of a file and a beginning of it that Parse accepts, all options (without expression limit), file names and call histories", "why_tests_cant": "All files of unbounded length and nesting and all places of the cut.", "anchors": ["logstash_config.peg: init, config, pluginSection, comment, _", "logstash_config.go: Parse", "logstash_config_helper.go: config, configSection, commentBlock"]}
{"id": "C80", "title": "The cause of \"no match found\" is not behind the place it names", "statement": "If Parse rejects a file with the error \"no match found\" at offset k, then it rejects every file that has the same first k+10 bytes, with the same error and the same farthest failure: nothing that stands further behind can repair the file. The place itself is not always enough (a keyword with a wrong letter is reported at its beginning). For fatal errors (\"expect closing curly bracket\" and the like) it does not hold: they may name a place any distance before the cause. So behind a beginning that is accepted by itself such an error names a place in the continuation or among the last nine bytes before it.", "quantifier": "all pairs of files with the same first k+10 bytes, all options, file names and call histories", "why_tests_cant": "All files of unbounded length and all continuations of them.", "anchors": ["logstash_config.go: (*parser).parse, parseExpr, failAt, parseNotExpr, parseLitMatcher", "parse_error_helper.go: pushError, fatalError", "logstash_config.peg"]}
{"id": "C81", "title": "How an accepted file begins and ends", "statement": "The first thing in an accepted file that is not a blank, tab, carriage return or newline is a comment or one of the keywords input, filter and output. So a file that begins with a UTF-8 byte order mark (as some editors write) is rejected, whatever follows and with every option. The last thing in an accepted file that is not blank is a closing bracket, or it belongs to a comment.", "quantifier": "all files, options, file names and call histories", "why_tests_cant": "All files of unbounded length.", "anchors": ["logstash_config.peg: init, config, pluginSection", "logstash_config.go: Parse"]}
{"id": "C82", "title": "What format prints for several files is one configuration", "statement": "`mustache format` of several paths, none of which fails and whose configurations can be printed faithfully, writes to standard output a text that Parse accepts as one configuration: for each type it has the sections of all the files in the order of the arguments, up to positions and comments. The text of a configuration, also of one built by hand, is empty or ends in a newline.", "quantifier": "all lists of arguments, file systems and contents of files; every AST for the newline", "why_tests_cant": "All lists of files of unbounded size.", "anchors": ["internal/app/format/format.go: Run", "ast/ast.go: Config.String, pluginSectionString, CommentBlock.String", "logstash_config.go: Parse"]}
