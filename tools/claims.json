{
 "C01": [
  "proved",
  ""
 ],
 "C02": [
  "proved",
  "The returned configuration is moreover exactly the one the tree denotes."
 ],
 "C03": [
  "proved",
  ""
 ],
 "C04": [
  "proved",
  "C04_exact gives the exact position of every node (zero for bare numbers, arrays, hashes and absent operators, as in the code); C04_positions is the weaker statement that needs no tree. C04_tree: any well-formed tree for the file tells the same configuration."
 ],
 "C05": [
  "proved",
  "Violated for the failure report when MaxExpressions is below 4 (witness proved)."
 ],
 "C06": [
  "proved",
  "C06_events excludes parses stopped by the expression limit or by a failed type assertion; C06_text is for valid UTF-8 and a limit of at least four, if any."
 ],
 "C07": [
  "proved",
  ""
 ],
 "C08": [
  "proved",
  ""
 ],
 "C09": [
  "proved",
  ""
 ],
 "C10": [
  "proved",
  ""
 ],
 "C11": [
  "proved",
  ""
 ],
 "C12": [
  "proved",
  ""
 ],
 "C13": [
  "proved",
  ""
 ],
 "C14": [
  "proved",
  ""
 ],
 "C15": [
  "proved",
  "C15_relayout: for every accepted file. C15_accepts/C15_layout: for given well-formed trees (Ok and Clear); C15_clear_needed shows that the condition on plugin names cannot be dropped there. C15_exact: the whole configuration returned for the text of a given tree, with every position, comment and warning."
 ],
 "C16": [
  "proved",
  "C16_printable: for configurations Parse returned, printable means four explicit conditions; C16_violated_else and C16_violated_array show two of them cannot be dropped (the other two: C23_violated_*, C18_violated_*)."
 ],
 "C17": [
  "proved",
  "The unqualified claim (one round suffices) is refuted by a witness."
 ],
 "C18": [
  "proved",
  "The unqualified claim is refuted by witnesses."
 ],
 "C19": [
  "proved",
  "Holds for files without plugins as array elements; violated for a plugin as first element (witness proved)."
 ],
 "C20": [
  "proved",
  "The unqualified claim is refuted by witnesses."
 ],
 "C21": [
  "proved",
  ""
 ],
 "C22": [
  "proved",
  ""
 ],
 "C23": [
  "proved",
  "Exactness for every float that is zero or at least 1e-4 in magnitude (binary64 rounding, shortest decimal search and %.10f modelled exactly); witnesses show the loss below 1e-4. C23_closest: of the literals with this value and as many digits after the point, the printed one is closest."
 ],
 "C24": [
  "proved",
  ""
 ],
 "C25": [
  "proved",
  "The string-token claim is an iff; it is violated exactly for values with a trailing backslash."
 ],
 "C26": [
  "proved",
  "Violations for a quote at index 0 and 1 are proved with witnesses; Quote's failure condition and the condition under which its result is one literal are characterised exactly."
 ],
 "C27": [
  "proved",
  "Exact characterisation (iff) plus violation witnesses."
 ],
 "C28": [
  "proved",
  ""
 ],
 "C29": [
  "proved",
  ""
 ],
 "C30": [
  "proved",
  "For disciplined callbacks (Spec/Traverse.lean)."
 ],
 "C31": [
  "proved",
  "For disciplined callbacks (Spec/Traverse.lean)."
 ],
 "C32": [
  "proved",
  "On a heap with backing arrays and append (Model/Heap.lean); the limits for Delete/Insert are witnessed by C32_violated_delete_insert. Slices start at index 0 of their array and no two slices of a tree share one (true of parser output)."
 ],
 "C33": [
  "proved",
  "The property as one would wish it is violated; the violations are the theorems."
 ],
 "C34": [
  "proved",
  ""
 ],
 "C35": [
  "proved",
  ""
 ],
 "C36": [
  "proved",
  "Exact exception (an else block holding only nil elements) is proved as a violation."
 ],
 "C37": [
  "proved",
  ""
 ],
 "C38": [
  "proved",
  ""
 ],
 "C39": [
  "proved",
  "Entries also quote the error text and the farthest-failure report."
 ],
 "C40": [
  "proved",
  "The desirable property (a missing file is reported) is false for check and lint; the crash is proved for every argument list with a missing file."
 ],
 "C41": [
  "proved",
  "Write mode for distinct arguments (a file listed twice is reformatted twice)."
 ],
 "C42": [
  "proved",
  ""
 ],
 "C43": [
  "proved",
  "Atomicity itself is refuted by a witness."
 ],
 "C44": [
  "proved",
  ""
 ],
 "C45": [
  "proved",
  "The two exceptions are proved with witnesses."
 ],
 "C46": [
  "proved",
  "The property as first stated (for every configuration) is false; C46_violated and C46_violated_injection are the counterexamples. Proved: for printable configurations in which every double quote in the name of a plugin without id is escaped, the file written parses to the configuration with ids added (C46_parses); if existing ids are distinct strings not of the made-up form, lint then reports nothing at all about the file written, neither about ids nor about comments (C46_clean), and on the file system lint after lint --auto-fix-id (C46_run)."
 ],
 "C47": [
  "proved",
  ""
 ],
 "C48": [
  "proved",
  ""
 ],
 "C49": [
  "proved",
  ""
 ],
 "C50": [
  "proved",
  ""
 ],
 "C51": [
  "proved",
  ""
 ],
 "C52": [
  "proved",
  ""
 ],
 "C53": [
  "proved",
  "Positions are stated for valid UTF-8 input or AllowInvalidUTF8(false). C53_given: the warnings for the text of a given tree. C53_formatted: formatted text gives no warnings."
 ],
 "C54": [
  "proved",
  "The constant is generous: the theorem states linearity, not the best factor. Memoize(false), the default, is what is modelled."
 ],
 "C55": [
  "proved",
  "The expected property (no internal type error is ever reported) is false and stated as violated; proved is the exact list of messages and the rules that report them."
 ],
 "C56": [
  "proved",
  "Documented syntax = Spec.Cst (Ok) and Spec.Clear. C56_boundary: names on both sides of the boundary."
 ],
 "C57": [
  "proved",
  "strconv.ParseFloat is modelled by exact rational rounding (roundPos); the theorems show this model meets the IEEE specification. That Go's strconv meets it too is trusted."
 ],
 "C58": [
  "proved",
  "The expected property is false (C58_violated_parse, C58_violated_report, C58_violated_torn); proved is what holds of every interleaving. Model: each read or write of the variable is one step of a sequentially consistent memory, the slice is a value; the Go memory model promises less to a racy program."
 ],
 "C59": [
  "proved",
  "grammar.treetop is transcribed by hand (Spec/Treetop.lean) and mechanically (tools/gen_treetop.py, treetop_eq_file proves the two equal); the semantics of parsing expressions is the standard one. Exact agreement with Logstash is false: C59_narrower, C59_wider, C59_rejected."
 ],
 "C60": [
  "proved",
  "The operating system is a parameter (the errors of Open, Read and Close and the chunks read). C60_violated: the error of Close hides the parse error."
 ],
 "C61": [
  "proved",
  "ExprCnt is a natural number in the model (no overflow at 2^64). ChoiceAltCnt is not modelled. C61_violated: reused Stats."
 ],
 "C62": [
  "proved",
  "A panic is an outcome of the model; a caller's own recovery is not modelled."
 ],
 "C63": [
  "proved",
  "The expressions of the entry points are listed in Spec/Entry.lean over the transcribed grammar.treetop; what each entry point returns, with positions, is listed in Spec/EntryVal.lean (one line per entry point, over the syntax trees of Spec/Cst.lean). C63_value_complete excludes plugins whose name starts like a branch (Spec/Clear.lean) and, for values, conditions and branches, asks that a closing bracket or the block follows."
 ],
 "C64": [
  "proved",
  "Language level: which texts match is unchanged. That the whole result is unchanged is false (C64_violated: warnings, C64_violated_report: farthest failure); that value and errors other than warnings coincide is not proved. The key of a table entry is the place of the node in the grammar; in the code it is the address of the node."
 ],
 "C65": [
  "proved",
  "1785 is the number of expression nodes of the grammar. The counter is ExprCnt; the cost of the table lookups themselves is not modelled."
 ],
 "C66": [
  "proved",
  "C66_session is the general history theorem (check, format, format -w, lint in any order); C66_settles the fixed point; C66_fix and C66_fix_once for lint --auto-fix-id. Formattable and Fixable are the conditions under which C16 and C46 hold; without them the properties are false (C16_violated_*, C46_violated)."
 ],
 "C67": [
  "proved",
  "C67_exclusive: the maps are never shared and the pool is clean; C67_refines: every run is a run of the model of C58, which has no maps and no pool; C67_outcome and C67_uninterrupted: the results are those of parse; C67_returns: termination under fair scheduling. User keys of InitState are not modelled."
 ],
 "C68": [
  "proved",
  "The command line as parsed by cobra and the error of viper are inputs. C68_format_write and C68_lint_fix need distinct arguments; C68_format_check covers repeated ones on formattable paths. A panic is status 2, its report on the standard error is not modelled."
 ],
 "C69": [
  "proved",
  "Tries (Spec/Attempts.lean) is the textbook reading of the grammar with a list of what is tried on the way; C69_unique: it is a function. The grammar it reads is the one of the model (Model/Grammar.lean)."
 ],
 "C70": [
  "proved",
  "Depth is counted in nested calls of parseExpr (Model/Depth.lean); the bytes of stack a call takes are not modelled. C70_violated: the depth is unbounded without MaxExpressions."
 ],
 "C71": [
  "proved",
  "Picks (Spec/Picks.lean) is the textbook reading of the grammar with the list of choices decided; C71_unique: it is a function. C71_counts assumes that no type assertion fails (C55 says when one does). C71_violated_label, C71_violated_copies: the negative parts."
 ],
 "C72": [
  "proved",
  "Nested, Verdict, Shows (Spec/Trace.lean) describe the lines; C72_same (result), C72_quiet, C72_nested, C72_places (valid UTF-8), C72_count."
 ],
 "C73": [
  "proved",
  "C73_inert: equality of results and of the printed lines with those of a call without InitState. The nil/empty difference of Config.Warnings is not modelled."
 ],
 "C74": [
  "proved",
  "C74_roundtrip, C74_injective, C74_valid, C74_selector; C74_expressions and C74_attributes: the texts. Admissible arguments are those of Spec/Built. C74_violated and C74_violated_injective: without the restrictions."
 ],
 "C75": ["proved", "no expression limit; with ignoreComments off up to positions and marks, and (C75_*_any) whatever ignoreComments up to positions and comments; the conditions on the part are those of C16 (Spec/Printable.lean); C75_violated_else states that no text of an else-if or else block is accepted by its entry point; C75_elseIf and C75_else are about the text after the separator."],
 "C76": ["proved", "no AllowInvalidUTF8 for the first read and no expression limit for the second; disciplined use of the cursor is that of C30–C33; the callback is assumed to put fitting plugins in only as long as the list it works on consists of fitting plugins; C76_violated_else is the counterexample for else names."],
 "C77": ["proved", "no expression limit; the comments of a file without sections are lost when it is read alone (finding 17), so the statement about comments is for two files with sections; C77_violated is the counterexample without a newline."],
 "C78": ["proved", "no expression limit; positions are not compared (lines and columns are those of C04 for the new text); C78_violated_twice is about files that already have the line ends of Windows."],
 "C79": ["proved", "C79_place: the lines and columns in the beginning are those in the whole file; that the places in a configuration are places of its text is C04."],
 "C80": ["proved", "C80_violated_place and C80_violated_fatal show that neither the ten bytes nor the restriction to this error can simply be dropped."],
 "C81": ["proved", "C81_bom is the instance for byte order marks."],
 "C82": ["proved", "Printable: as in C16, its four restrictions are findings of C16 and C18; comments of sections may move, as in C20."]
}
