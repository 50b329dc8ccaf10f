# Formal model of breml/logstash-config in Lean 4

## Layout

| part | where | contents |
|---|---|---|
| model | `lean/Verif/Model/*.lean` | the code, function by function; every definition cites file:lines |
| specifications | `lean/Verif/Spec/*.lean` | small definitions used to *state* properties, independent of the model's helpers |
| lemmas | `lean/Verif/Proofs/*.lean` | proofs |
| properties | `lean/Verif/Props/*.lean` | the property theorems (named `C01_…` etc.), each with a non-vacuity example |
| generators | `tools/` | `gen_treetop.py`: reads `/repo/grammar.treetop` and writes `Spec/TreetopFile.lean`; `parse_go.py`/`gen_grammar.py`: read the grammar literal `g` of `/repo/logstash_config.go` and write `Model/GrammarGo.lean` |

## What is modelled

* `Model/Bytes.lean` – Go strings as byte lists; `utf8.DecodeRune`, the used part of `strings`/`bytes`/`strconv`.
* `Model/Float.lean` – finite float64; `strconv.ParseFloat` on the grammar's number syntax; `%g`/`%d`/`%.10f` as used by `NumberAttribute.ValueString`.
* `Model/Regex.lean` – the regexp `linesRe` with leftmost-first semantics and `prefix` (ast/ast_helper.go).
* `Model/Ast.lean`, `Model/Print.lean` – all of package `ast` (types, `String`, `ValueString`, `Pos`, `ID`).
* `Model/Construct.lean` – the constructors of package `ast`.
* `Model/Syntax.lean`, `Model/GrammarGo.lean`, `Model/Grammar.lean` – the pigeon grammar.  `GrammarGo` is the generated transcript of the literal `g`, `Grammar` the readable version following `logstash_config.peg`; `gram_eq_go` proves them equal.
* `Model/Actions.lean` – every action of logstash_config_helper.go.
* `Model/Peg.lean`, `Model/Parse.lean` – the parsing engine: `parseExpr` and all `parseXxx` methods in use, backtracking, the variable stack, the user state, `read`/positions, error list, farthest-failure bookkeeping, `Recover`, `MaxExpressions`, `AllowInvalidUTF8`.
* `Model/Errors.lean`, `Model/Options.lean` – the texts of the errors, the option values.
* `Model/StatePool.lean` – the same calls with the state maps in a shared heap, `statePool`, `cloneState`, `restoreState`, `Discard`, and the stack of label sets with its reused slots (`pushV`, `popV`); the steps are the single map, pool and variable operations.
* `Model/Concurrent.lean` – `Parse` and `GetFarthestFailure` as programs whose steps are the single accesses of `farthestFailure`, and schedules of goroutines running them.
* `Model/Entry.lean` – `Parse`, `ParseReader` and `ParseFile` with `Entrypoint`, `Statistics` (`ExprCnt`), `Recover` and `MaxExpressions`.
* `Model/Depth.lean` – the engine on a stack with room for a given number of nested calls of `parseExpr`.
* `Model/Stats.lean` – the same engine with `ChoiceAltCnt` of `Statistics`; `Model/ChoiceSpots.lean`, generated by `tools/gen_choices.py`, holds the positions of the ordered choices.
* `Model/Debug.lean` – the same engine with the lines of `Debug(true)` and with the whole dictionary `cur.state`, into which `InitState` puts values.
* `Model/Memo.lean` – the same engine with the table of `Memoize(true)` (`getMemoized`, `setMemoized`).
* `Model/Heap.lean` – the aliasing of plugin slices behind `ApplyPlugins`/`Cursor`.
* `Model/AstUtil.lean` – package `astutil`: `Escape`, `Unescape`, `Quote`, `QuoteWithEscape`, `ApplyPlugins` and `Cursor`.
* `Model/App.lean` – `internal/format.MultiErr`, `check`, `format`, `lint`, with a file system as a parameter.
* `Model/Main.lean` – `Execute` and `main`: exit status and standard error, with what `cobra` and `viper` find out as parameters.

## How the model is checked against the code

* The grammar is generated from `/repo/logstash_config.go` (`tools/gen_grammar.py`) and proved equal to the readable one.
* The unit tests of the project run on the model: `tools/gen_tests.py` translates them.  Those of `ast` and `astutil` (except `ApplyPlugins`) and the short ones of the parser are `example`s in `lean/Verif/Tests/Go.lean`, checked by the kernel; all 85 tests of the parser (texts, errors, positions, comments, warnings) are in `tools/go_tests.txt` and run with `lake env lean --run ../tools/conformance.src ../tools/go_tests.txt` (85 ok).  These are tests, no proof rests on them.

## What is not modelled

* The text of a line printed with `Debug(true)` (its parts are modelled: indentation, mark, position, name or matched text, character), `Debug(true)` together with `Memoize(true)`, a `Clone` method of a caller's value that panics or reads the parser, and the difference between a nil and an empty `Config.Warnings`.  The cloned state is a value everywhere but in `Model/StatePool`, and C67 justifies that.  The option `Memoize` is modelled separately (`parseMemo`); the other properties are about calls without it.
* `cobra`/`viper` (argument and config-file handling), the text of a panic report, `go-multierror`'s own code (an error list).
* Texts of errors that dump Go values with `%#v`, and the quoting of literals in "no match found" messages beyond the escapes that occur.
* The operating system: `os.Stat`, `os.Open`, `os.Create`, `WriteString` are modelled as operations on an abstract file system.
* Go's run-time limits in bytes (stack overflow at about 1 GB, memory).  C70 counts nested calls: it bounds their number and shows that it is unbounded over all texts.
* Weak memory: concurrent calls (C58) are interleavings of indivisible reads and writes of the package variable `farthestFailure`; Go promises less to a program with a data race. The slice is a value, so two goroutines appending into the same spare capacity do not overwrite each other's entry.

## Trusted base

Lean 4.33.0's kernel; the axioms `propext`, `Classical.choice`, `Quot.sound` (no others); the faithfulness of the model to the source (each definition cites its lines; the model was executed on every file of `/repo/testdata` and reproduces the expected outputs of the project's own tests); the correctness of `tools/gen_grammar.py` as a transcriber (the result is checked in and equal to the hand-written grammar by `gram_eq_go`).

## Proof plan

*Parser engine* (C01, C03, C04, C05, C08–C13, C49).  The engine `eval` is a fuelled interpreter over grammar expressions.  One induction over fuel per property, with an invariant on the parser state:
C49 position/state/frame restoration; C04 "the point is `ptAt data k`"; C03 "an invalid byte passed ⇒ an error is recorded"; C05 equality of runs modulo the initial `ff` after `initParser`; C09/C12 simulations between two option sets; C08 simulation under the comment-erasing map on values; C11 simulation up to the limit; C01 by a rank on rule references (left-recursion freedom) and consumption of repetition bodies, giving explicit sufficient fuel.  C13 by typing the values: a `Val` type discipline for grammar expressions.

*Language* (C02, C14, C15, C16, C17, C20, C37).  A concrete-syntax tree type holds the raw gaps; `text`, `ast` and `WF` are structural functions.  Completeness: `WF t → Parse(text t) = ast t`.  Soundness: a successful parse comes from a WF tree.  The printer is shown to produce `text` of a WF tree whose AST is the printed one.

*Printer* (C18, C21, C22, C23, C36, C38).  Direct inductions; C23 through exact rational arithmetic.

*astutil* (C24–C33), *ast* (C34, C35), *CLI* (C39–C47), *options* (C48): direct inductions over lists/trees; the file system is a parameter; crash points are prefixes of the list of primitive write operations.

## Per property

| id | modelled | proof |
|---|---|---|
| C01 | `eval`, `parse` | rank/fuel induction; `parse ≠ diverges` |
| C02 | whole parser | soundness of the CST |
| C03 | engine | invariant: point reached past invalid byte ⇒ errs ≠ [] |
| C04 | engine + actions | invariant `pt = ptAt data k`; all positions in values are of that form |
| C05 | engine | noninterference in `ff` |
| C06 | `pushFF`, engine | induction over the push history; simulation of the engine by the event relation of `Spec/Attempts` |
| C07 | `runCode` | equality of texts |
| C08 | engine + actions | simulation under comment erasure |
| C09 | engine | simulation modulo warnings |
| C10 | app | corollary of C08, C09 |
| C11 | engine | simulation until the limit |
| C12 | engine | valid suffixes stay valid; `invalid` never true |
| C13 | engine + actions | typing of values |
| C14 | `configLoop`, CST | list induction |
| C15 | CST | completeness, also with positions and warnings (`Proofs/CompletePos*`, `Props/Exact`) |
| C16, C17, C20 | printer + parser | printed text is the text of a CST |
| C18 | printer | counterexample by evaluation |
| C19 | parser | counterexample by evaluation |
| C21, C22 | `prefixS` | induction on segments |
| C23 | Float | rational arithmetic; closest decimal: a value between a float and a decimal that rounds to it rounds to it (`Proofs/Closest`) |
| C24–C29 | AstUtil | list induction |
| C30–C33 | AstUtil | list/tree induction; heap model for aliasing |
| C34, C35 | Print | list induction |
| C36 | Print | mutual structural induction |
| C37 | parser | typing invariant: conditions non-empty; positions by induction over the tree of C04 |
| C38 | Print, Actions | case analysis (finite table) |
| C39–C47 | App | list induction; crash points = prefixes |
| C48 | Actions/Opts | direct |
| C49 | engine | fuel induction |
| C50 | Actions, AstUtil, CST | every string of the configuration is the text between the quotes / the bareword in the file, and nothing else (induction over the CST) |
| C51 | engine | invariant on the point and the error list (`Proofs/ErrInv`); valid and arbitrary input |
| C52 | `dedupe` | list induction |
| C53 | engine, CST with positions | soundness of the positioned CST (`Proofs/SoundPos*`), which also carries the warning list |
| C54 | engine, `MaxExpressions` | relational cost semantics `Cost` of grammar expressions (`Proofs/Cost*`), weakest-precondition calculus for bounds, amortised potential (length of the gap ahead, pending `else`), totality; transfer to `eval` by fuel induction |
| C55 | engine, actions, grammar | a type system for grammar expressions (`Proofs/Typing`, `TypeCheck`), soundness by fuel induction (`TypeSound`), checker run by the kernel; injectivity of the error text by unique splitting |
| C56 | CST, `Spec/Clear` | soundness with `Clear` (`Proofs/SoundBlock`, `ClearIff`) + completeness (`Complete*`, `NumCond`, `NumTri`) give an iff: a text is accepted exactly when it is the text of a well-formed, clear concrete tree; unambiguity from C15_exact and determinism of Parse |
| C57 | `Model/Float`, `Spec/Rounding` | `roundPos` = nearest-even over ℚ (`Proofs/FloatRound`), uniqueness of the nearest value (`Proofs/Rounding`), numbers traced to tokens of the text by induction on the CST (`Proofs/RisksText`) |
| C58 | `Model/Concurrent` | executions with interference (rely relation on the variable); a simulation of the program of a call by the sequential engine, parametrised by a coupling (anything / never emptied / alone), by fuel induction (`Proofs/Concurrent`); schedules are such executions (`Proofs/Pool`) |
| C59 | `Spec/Treetop` (grammar.treetop as a parsing expression grammar with the standard semantics, and the changed rules), `Spec/TreetopFile` (the same, generated from the file) | the engine with code, labels and predicates erased agrees with the standard semantics wherever it neither aborts nor times out (`Proofs/PegErase`); the erased rules and the rules of grammar.treetop have the same outcomes, rule by rule, by local laws about gaps (`Proofs/Treetop`); induction over derivations for the texts without changed features (`Proofs/TreetopSame`) |
| C60 | `Model/Entry` (`parseReader`, `parseFileCall`; a reader is a list of chunks and an error) | unfolding; C60_parse links the call with all options to `parse` |
| C61 | `Model/Entry` (the counter as an argument and result of a call) | simulation that shifts the counter and the limit (`Entry.out_shift`), the limited and the unlimited run agree below the limit (`eval_cap`) and the limited run stops one behind it (`eval_under`), C54 for the linear bound |
| C62 | `Model/Entry` (`finishCall`), `Spec/Fatal` | the messages of recorded errors and of panics are disjoint (`eval_msgs`, `eval_typed` for every rule), error texts are injective (C55) |
| C63 | `Model/Entry`, `Spec/Entry` (what every entry point stands for), `Spec/EntryVal` (what every entry point returns) | erasure of the engine to the standard semantics for every rule (C59's machinery), runs with positions of `config` and `init` related by inversion and construction; the value by soundness and completeness of every rule with positions (C37's and C15's machinery) |
| C64 | `Model/Memo` (`parseMemo`: the table as an association list from node and offset to value and end point) | invariant of the table: every entry is a match of the erased node at its place; induction over the memoised evaluation. Whether value and errors (without warnings) are unchanged is not proved: it needs that no labelled expression is ever answered from the table |
| C65 | `Model/Memo` | the counter equals the number of node entries; all entries are different because the termination measure falls strictly along the evaluation stack |
| C66 | `Model/App`, `Spec/Session` | a history of commands as a list; induction over it with the invariant “formattable”, using C16, C17, C39, C41, C44, C46; `format -w` as iteration of one text function |
| C67 | `Model/StatePool` | a program logic in the style of separation logic (`Safe`: the maps held, and the program of C58 that is followed); every parser function is proved in it by fuel induction (`Proofs/StatePool`); a global invariant over all goroutines gives exclusive use and the refinement |
| C68 | `Model/Main`, `Spec/Main` | case analysis of `Execute`; the loops of the commands by induction over the arguments, with the reports of C39, C41, C44 and the rendering of C47 |
| C69 | engine, `failAt`, `noMatchMsg` | `Spec/Attempts`: a relation that reads the grammar and logs the tokens looked for in vain; simulation by induction over the evaluation; the farthest entries of the log are `maxFailExpected` |
| C70 | `Model/Depth` (`parseDepth`: the engine with separate bounds for nested calls and for iterations) | a measure of the grammar (calls before the next opening bracket) checked rule by rule, induction over the evaluation; under `MaxExpressions` the counter grows with every call; lower bound by the erased evaluation on `filter{aa{bb=>[[…]]}}`, which C15 shows to be accepted |
| C71 | `Model/Stats` (`parseStats`: the engine with the counters of `ChoiceAltCnt`) | projection to `eval` for the result; induction over the evaluation against `Picks` (Spec/Picks), a reading of the grammar that lists the choices decided; positions by a check of all rules of the grammar |
| C72 | `Model/Debug` (`parseDebug`: the engine with the printed lines and the state dictionary) | projection to `eval` for the result; induction over the evaluation against `Nested` and `Verdict` (Spec/Trace): blocks, the verdict of a rule as a reading of the grammar (`Tries`), positions by C04's invariant, the counter by counting opening lines |
| C73 | `Model/Debug` (`Dict.init`) | relation between two runs whose dictionaries agree on the warnings |
| C74 | `Model/Construct`, `Spec/Built` | built configurations are printable, are not changed by formatting (`settle c = c`) and have no positions or comments: induction over how they are built; then C15/C16 |
| C75 | `Model/Print` (the `String` methods), `IfBlock.string` in `Model/Construct`, `Model/Entry`, `Spec/Printable` | the text of a part is the text of a syntax tree (C16's constructions, `*_ok` in `Proofs/PrintCst*`), which the entry point returns (C63_value_complete); positions zeroed by induction over the tree |
| C76 | `Model/AstUtil` (`applyPlugins`), `Model/Parse`, `Model/Print`, `Spec/Edited`, `Spec/Printable` | C31 gives the list `ApplyPlugins` returns as a function of the callback; being faithful, valid UTF-8 and free of if- and else-like names goes through every cursor operation (`list_nice`, induction over the list and the branches), then C16 |
| C77 | `Model/Parse`, `Spec/Cst`, `Spec/Concat` | the trees of two files are joined (the gap at the end of the first and the one at the start of the second become one) and C15 gives what the joined tree denotes; conversely gaps (`gapOf`) and sections (`section_complete`, determinism of the engine) are cancelled one by one from the text |
| C78 | `Model/Parse`, `Spec/Cst`, `Spec/Crlf`, `Spec/Literals` | the syntax tree of the file is mapped gap by gap and literal by literal; the mapped tree is well-formed, its text is the converted text and it denotes the converted configuration (inductions over the tree); C15 gives the result of `Parse` |
| C79 | `Model/Parse`, `Spec/Cst`, `Spec/Positioned`, `Spec/Cut` | C04 gives the syntax trees of both texts; their sections are cancelled one by one from the front (`section_cancel`, determinism of the engine; induction on the list); the offsets of the positioned tree tell which sections start in the beginning |
| C80 | `Model/Peg`, `Model/Grammar`, `Model/Parse` | simulation of two runs of the engine on inputs that agree up to N, by induction on the fuel and cases of the expression: every expression that fails has recorded a failure at or behind its start (checked for the grammar by `recs`/`wf`), so ten bytes behind the farthest record bound what was read |
| C81 | `Model/Peg`, `Model/Grammar`, `Model/Parse` | from the sentence of C02: cases of the concrete syntax tree; the blanks in front of the first other byte are those of its first gap; behind the last one, those of its last gap |
| C82 | `Model/App`, `Model/Print`, `Model/Parse` | C41 gives the text written; it is the concatenation of printed configurations, each of which is read back by C16 and ends in a newline (cases of `Config.String`), so C77 applies by induction on the arguments |
