{
 "claims": [
  {
   "property": "C01",
   "status": "proved",
   "theorems": [
    "Verif.Props.C01_terminates",
    "Verif.Props.C01_linear_depth"
   ],
   "note": ""
  },
  {
   "property": "C02",
   "status": "proved",
   "theorems": [
    "Verif.Props.C02_tree",
    "Verif.Props.C02_sentence"
   ],
   "note": "The returned configuration is moreover exactly the one the tree denotes."
  },
  {
   "property": "C03",
   "status": "proved",
   "theorems": [
    "Verif.Props.C03_valid"
   ],
   "note": ""
  },
  {
   "property": "C04",
   "status": "proved",
   "theorems": [
    "Verif.Props.C04_tree",
    "Verif.Props.C04_exact",
    "Verif.Props.C04_entries",
    "Verif.Props.C04_positions"
   ],
   "note": "C04_exact gives the exact position of every node (zero for bare numbers, arrays, hashes and absent operators, as in the code); C04_positions is the weaker statement that needs no tree. C04_tree: any well-formed tree for the file tells the same configuration."
  },
  {
   "property": "C05",
   "status": "proved",
   "theorems": [
    "Verif.Props.C05_result",
    "Verif.Props.C05_report",
    "Verif.Props.C05_violated"
   ],
   "note": "Violated for the failure report when MaxExpressions is below 4 (witness proved)."
  },
  {
   "property": "C06",
   "status": "proved",
   "theorems": [
    "Verif.Props.C06_events",
    "Verif.Props.C06_text",
    "Verif.Props.C06_parse",
    "Verif.Props.C06_parse_entries",
    "Verif.Props.C06_farthest"
   ],
   "note": "C06_events excludes parses stopped by the expression limit or by a failed type assertion; C06_text is for valid UTF-8 and a limit of at least four, if any."
  },
  {
   "property": "C07",
   "status": "proved",
   "theorems": [
    "Verif.Props.C07_cli",
    "Verif.Props.C07_same_text"
   ],
   "note": ""
  },
  {
   "property": "C08",
   "status": "proved",
   "theorems": [
    "Verif.Props.C08_ignoreComments"
   ],
   "note": ""
  },
  {
   "property": "C09",
   "status": "proved",
   "theorems": [
    "Verif.Props.C09_warnings"
   ],
   "note": ""
  },
  {
   "property": "C10",
   "status": "proved",
   "theorems": [
    "Verif.Props.C10_agree"
   ],
   "note": ""
  },
  {
   "property": "C11",
   "status": "proved",
   "theorems": [
    "Verif.Props.C11_limit"
   ],
   "note": ""
  },
  {
   "property": "C12",
   "status": "proved",
   "theorems": [
    "Verif.Props.C12_valid"
   ],
   "note": ""
  },
  {
   "property": "C13",
   "status": "proved",
   "theorems": [
    "Verif.Props.C13_shape",
    "Verif.Props.C13_nil_error"
   ],
   "note": ""
  },
  {
   "property": "C14",
   "status": "proved",
   "theorems": [
    "Verif.Props.C14_sections"
   ],
   "note": ""
  },
  {
   "property": "C15",
   "status": "proved",
   "theorems": [
    "Verif.Props.C15_exact",
    "Verif.Props.C15_accepts",
    "Verif.Props.C15_layout",
    "Verif.Props.C15_relayout",
    "Verif.Props.C15_tree_ok",
    "Verif.Props.C15_clear_needed"
   ],
   "note": "C15_relayout: for every accepted file. C15_accepts/C15_layout: for given well-formed trees (Ok and Clear); C15_clear_needed shows that the condition on plugin names cannot be dropped there. C15_exact: the whole configuration returned for the text of a given tree, with every position, comment and warning."
  },
  {
   "property": "C16",
   "status": "proved",
   "theorems": [
    "Verif.Props.C16_shape",
    "Verif.Props.C16_roundtrip",
    "Verif.Props.C16_configuration",
    "Verif.Props.C16_determined",
    "Verif.Props.C16_valid",
    "Verif.Props.C16_file",
    "Verif.Props.C16_names",
    "Verif.Props.C16_printable",
    "Verif.Props.C16_faithful",
    "Verif.Props.C16_violated_else",
    "Verif.Props.C16_violated_array"
   ],
   "note": "C16_printable: for configurations Parse returned, printable means four explicit conditions; C16_violated_else and C16_violated_array show two of them cannot be dropped (the other two: C23_violated_*, C18_violated_*)."
  },
  {
   "property": "C17",
   "status": "proved",
   "theorems": [
    "Verif.Props.C17_second",
    "Verif.Props.C17_file",
    "Verif.Props.C17_plain",
    "Verif.Props.C17_ignore",
    "Verif.Props.C17_violated"
   ],
   "note": "The unqualified claim (one round suffices) is refuted by a witness."
  },
  {
   "property": "C18",
   "status": "proved",
   "theorems": [
    "Verif.Props.C18_regexps",
    "Verif.Props.C18_violated_quote",
    "Verif.Props.C18_violated_newline"
   ],
   "note": "The unqualified claim is refuted by witnesses."
  },
  {
   "property": "C19",
   "status": "proved",
   "theorems": [
    "Verif.Props.C19_elements",
    "Verif.Props.C19_violated"
   ],
   "note": "Holds for files without plugins as array elements; violated for a plugin as first element (witness proved)."
  },
  {
   "property": "C20",
   "status": "proved",
   "theorems": [
    "Verif.Props.C20_comments",
    "Verif.Props.C20_file",
    "Verif.Props.C20_violated_sections",
    "Verif.Props.C20_violated_empty"
   ],
   "note": "The unqualified claim is refuted by witnesses."
  },
  {
   "property": "C21",
   "status": "proved",
   "theorems": [
    "Verif.Props.C21_indent",
    "Verif.Props.C21_visible"
   ],
   "note": ""
  },
  {
   "property": "C22",
   "status": "proved",
   "theorems": [
    "Verif.Props.C22_literals"
   ],
   "note": ""
  },
  {
   "property": "C23",
   "status": "proved",
   "theorems": [
    "Verif.Props.C23_numbers",
    "Verif.Props.C23_magnitude",
    "Verif.Props.C23_violated_small",
    "Verif.Props.C23_violated_tiny",
    "Verif.Props.C23_closest",
    "Verif.Props.C23_fewest"
   ],
   "note": "Exactness for every float that is zero or at least 1e-4 in magnitude (binary64 rounding, shortest decimal search and %.10f modelled exactly); witnesses show the loss below 1e-4. C23_closest: of the literals with this value and as many digits after the point, the printed one is closest."
  },
  {
   "property": "C24",
   "status": "proved",
   "theorems": [
    "Verif.Props.C24_unescape_escape"
   ],
   "note": ""
  },
  {
   "property": "C25",
   "status": "proved",
   "theorems": [
    "Verif.Props.C25_escape_no_control",
    "Verif.Props.C25_escape_quotes_escaped",
    "Verif.Props.C25_escape_is_string_body",
    "Verif.Props.C25_violated_trailing_backslash"
   ],
   "note": "The string-token claim is an iff; it is violated exactly for values with a trailing backslash."
  },
  {
   "property": "C26",
   "status": "proved",
   "theorems": [
    "Verif.Props.C26_quote_shape",
    "Verif.Props.C26_quote_fails_iff",
    "Verif.Props.C26_quote_is_string_body",
    "Verif.Props.C26_violated_leading_quote",
    "Verif.Props.C26_violated_quote_at_one",
    "Verif.Props.C26_quote_bareword"
   ],
   "note": "Violations for a quote at index 0 and 1 are proved with witnesses; Quote's failure condition and the condition under which its result is one literal are characterised exactly."
  },
  {
   "property": "C27",
   "status": "proved",
   "theorems": [
    "Verif.Props.C27_quoteWithEscape",
    "Verif.Props.C27_violated_quote_at_one",
    "Verif.Props.C27_violated_trailing_backslash"
   ],
   "note": "Exact characterisation (iff) plus violation witnesses."
  },
  {
   "property": "C28",
   "status": "proved",
   "theorems": [
    "Verif.Props.C28_escapeBareword",
    "Verif.Props.C28_escapeBareword_idempotent",
    "Verif.Props.C28_violated_short"
   ],
   "note": ""
  },
  {
   "property": "C29",
   "status": "proved",
   "theorems": [
    "Verif.Props.C29_only_inserts",
    "Verif.Props.C29_idempotent",
    "Verif.Props.C29_escaped_unchanged"
   ],
   "note": ""
  },
  {
   "property": "C30",
   "status": "proved",
   "theorems": [
    "Verif.Props.C30_visits_each_once",
    "Verif.Props.C30_terminates"
   ],
   "note": "For disciplined callbacks (Spec/Traverse.lean)."
  },
  {
   "property": "C31",
   "status": "proved",
   "theorems": [
    "Verif.Props.C31_result"
   ],
   "note": "For disciplined callbacks (Spec/Traverse.lean)."
  },
  {
   "property": "C32",
   "status": "proved",
   "theorems": [
    "Verif.Props.C32_refines",
    "Verif.Props.C32_in_place",
    "Verif.Props.C32_every_tree",
    "Verif.Props.C32_lint",
    "Verif.Props.C32_violated_delete_insert"
   ],
   "note": "On a heap with backing arrays and append (Model/Heap.lean); the limits for Delete/Insert are witnessed by C32_violated_delete_insert. Slices start at index 0 of their array and no two slices of a tree share one (true of parser output)."
  },
  {
   "property": "C33",
   "status": "proved",
   "theorems": [
    "Verif.Props.C33_operations",
    "Verif.Props.C33_behind",
    "Verif.Props.C33_delete_twice",
    "Verif.Props.C33_violated_delete_twice",
    "Verif.Props.C33_violated_delete_twice_panics",
    "Verif.Props.C33_violated_after_insertBefore"
   ],
   "note": "The property as one would wish it is violated; the violations are the theorems."
  },
  {
   "property": "C34",
   "status": "proved",
   "theorems": [
    "Verif.Props.C34_id_value",
    "Verif.Props.C34_id_wrong_type",
    "Verif.Props.C34_id_not_found"
   ],
   "note": ""
  },
  {
   "property": "C35",
   "status": "proved",
   "theorems": [
    "Verif.Props.C35_is_not_found",
    "Verif.Props.C35_message",
    "Verif.Props.C35_chain"
   ],
   "note": ""
  },
  {
   "property": "C36",
   "status": "proved",
   "theorems": [
    "Verif.Props.C36_nil_elements_skipped",
    "Verif.Props.C36_nil_attributes_skipped",
    "Verif.Props.C36_violated_nil_else",
    "Verif.Props.C36_violated_nil_operand"
   ],
   "note": "Exact exception (an else block holding only nil elements) is proved as a violation."
  },
  {
   "property": "C37",
   "status": "proved",
   "theorems": [
    "Verif.Props.C37_conditions",
    "Verif.Props.C37_empty",
    "Verif.Props.C37_position"
   ],
   "note": ""
  },
  {
   "property": "C38",
   "status": "proved",
   "theorems": [
    "Verif.Props.C38_print_then_parse",
    "Verif.Props.C38_parse_then_print",
    "Verif.Props.C38_injective"
   ],
   "note": ""
  },
  {
   "property": "C39",
   "status": "proved",
   "theorems": [
    "Verif.Props.C39_reports",
    "Verif.Props.C39_error_iff"
   ],
   "note": "Entries also quote the error text and the farthest-failure report."
  },
  {
   "property": "C40",
   "status": "proved",
   "theorems": [
    "Verif.Props.C40_violated_check",
    "Verif.Props.C40_violated_lint",
    "Verif.Props.C40_format"
   ],
   "note": "The desirable property (a missing file is reported) is false for check and lint; the crash is proved for every argument list with a missing file."
  },
  {
   "property": "C41",
   "status": "proved",
   "theorems": [
    "Verif.Props.C41_prints_all",
    "Verif.Props.C41_stops",
    "Verif.Props.C41_rewrites_all",
    "Verif.Props.C41_write_stops"
   ],
   "note": "Write mode for distinct arguments (a file listed twice is reformatted twice)."
  },
  {
   "property": "C42",
   "status": "proved",
   "theorems": [
    "Verif.Props.C42_format",
    "Verif.Props.C42_lint",
    "Verif.Props.C42_others_untouched",
    "Verif.Props.C42_others_kept"
   ],
   "note": ""
  },
  {
   "property": "C43",
   "status": "proved",
   "theorems": [
    "Verif.Props.C43_format_prefix",
    "Verif.Props.C43_lint_prefix",
    "Verif.Props.C43_violated"
   ],
   "note": "Atomicity itself is refuted by a witness."
  },
  {
   "property": "C44",
   "status": "proved",
   "theorems": [
    "Verif.Props.C44_reports",
    "Verif.Props.C44_clean"
   ],
   "note": ""
  },
  {
   "property": "C45",
   "status": "proved",
   "theorems": [
    "Verif.Props.C45_result",
    "Verif.Props.C45_plugins",
    "Verif.Props.C45_distinct",
    "Verif.Props.C45_gets_id",
    "Verif.Props.C45_violated_notString",
    "Verif.Props.C45_all_have_ids",
    "Verif.Props.C45_no_duplicates",
    "Verif.Props.C45_violated_collision",
    "Verif.Props.C45_violated_still_without"
   ],
   "note": "The two exceptions are proved with witnesses."
  },
  {
   "property": "C46",
   "status": "proved",
   "theorems": [
    "Verif.Props.C46_violated",
    "Verif.Props.C46_parses",
    "Verif.Props.C46_clean",
    "Verif.Props.C46_run",
    "Verif.Props.C46_violated_injection"
   ],
   "note": "The property as first stated (for every configuration) is false; C46_violated and C46_violated_injection are the counterexamples. Proved: for printable configurations in which every double quote in the name of a plugin without id is escaped, the file written parses to the configuration with ids added (C46_parses); if existing ids are distinct strings not of the made-up form, lint then reports nothing at all about the file written, neither about ids nor about comments (C46_clean), and on the file system lint after lint --auto-fix-id (C46_run)."
  },
  {
   "property": "C47",
   "status": "proved",
   "theorems": [
    "Verif.Props.C47_lines",
    "Verif.Props.C47_message_recoverable"
   ],
   "note": ""
  },
  {
   "property": "C48",
   "status": "proved",
   "theorems": [
    "Verif.Props.C48_parse",
    "Verif.Props.C48_restore",
    "Verif.Props.C48_last_wins",
    "Verif.Props.C48_last_wins_rest"
   ],
   "note": ""
  },
  {
   "property": "C49",
   "status": "proved",
   "theorems": [
    "Verif.Props.C49_fail",
    "Verif.Props.C49_choice"
   ],
   "note": ""
  },
  {
   "property": "C50",
   "status": "proved",
   "theorems": [
    "Verif.Props.C50_escape",
    "Verif.Props.C50_unescape"
   ],
   "note": ""
  },
  {
   "property": "C51",
   "status": "proved",
   "theorems": [
    "Verif.Props.C51_positions",
    "Verif.Props.C51_encoding",
    "Verif.Props.C51_report"
   ],
   "note": ""
  },
  {
   "property": "C52",
   "status": "proved",
   "theorems": [
    "Verif.Props.C52_distinct",
    "Verif.Props.C52_keeps"
   ],
   "note": ""
  },
  {
   "property": "C53",
   "status": "proved",
   "theorems": [
    "Verif.Props.C53_given",
    "Verif.Props.C53_formatted",
    "Verif.Props.C53_warnings",
    "Verif.Props.C53_off",
    "Verif.Props.C53_silent"
   ],
   "note": "Positions are stated for valid UTF-8 input or AllowInvalidUTF8(false). C53_given: the warnings for the text of a given tree. C53_formatted: formatted text gives no warnings."
  },
  {
   "property": "C54",
   "status": "proved",
   "theorems": [
    "Verif.Props.C54_linear",
    "Verif.Props.C54_count",
    "Verif.Props.C54_limited"
   ],
   "note": "The constant is generous: the theorem states linearity, not the best factor. Memoize(false), the default, is what is modelled."
  },
  {
   "property": "C55",
   "status": "proved",
   "theorems": [
    "Verif.Props.C55_messages",
    "Verif.Props.C55_never",
    "Verif.Props.C55_where",
    "Verif.Props.C55_report",
    "Verif.Props.C55_text",
    "Verif.Props.C55_violated",
    "Verif.Props.C55_violated_array"
   ],
   "note": "The expected property (no internal type error is ever reported) is false and stated as violated; proved is the exact list of messages and the rules that report them."
  },
  {
   "property": "C56",
   "status": "proved",
   "theorems": [
    "Verif.Props.C56_unambiguous",
    "Verif.Props.C56_language",
    "Verif.Props.C56_boundary"
   ],
   "note": "Documented syntax = Spec.Cst (Ok) and Spec.Clear. C56_boundary: names on both sides of the boundary."
  },
  {
   "property": "C57",
   "status": "proved",
   "theorems": [
    "Verif.Props.C57_nearest",
    "Verif.Props.C57_determined",
    "Verif.Props.C57_range",
    "Verif.Props.C57_parsed"
   ],
   "note": "strconv.ParseFloat is modelled by exact rational rounding (roundPos); the theorems show this model meets the IEEE specification. That Go's strconv meets it too is trusted."
  },
  {
   "property": "C58",
   "status": "proved",
   "theorems": [
    "Verif.Props.C58_returns",
    "Verif.Props.C58_outcome",
    "Verif.Props.C58_undisturbed",
    "Verif.Props.C58_report",
    "Verif.Props.C58_uninterrupted",
    "Verif.Props.C58_uninterrupted_report",
    "Verif.Props.C58_violated_parse",
    "Verif.Props.C58_violated_report",
    "Verif.Props.C58_violated_torn"
   ],
   "note": "The expected property is false (C58_violated_parse, C58_violated_report, C58_violated_torn); proved is what holds of every interleaving. Model: each read or write of the variable is one step of a sequentially consistent memory, the slice is a value; the Go memory model promises less to a racy program."
  },
  {
   "property": "C59",
   "status": "proved",
   "theorems": [
    "Verif.Props.C59_sound",
    "Verif.Props.C59_complete",
    "Verif.Props.C59_original",
    "Verif.Props.C59_logstash",
    "Verif.Props.C59_narrower",
    "Verif.Props.C59_wider",
    "Verif.Props.C59_rejected"
   ],
   "note": "grammar.treetop is transcribed by hand (Spec/Treetop.lean) and mechanically (tools/gen_treetop.py, treetop_eq_file proves the two equal); the semantics of parsing expressions is the standard one. Exact agreement with Logstash is false: C59_narrower, C59_wider, C59_rejected."
  },
  {
   "property": "C60",
   "status": "proved",
   "theorems": [
    "Verif.Props.C60_parse",
    "Verif.Props.C60_reader",
    "Verif.Props.C60_file",
    "Verif.Props.C60_contents",
    "Verif.Props.C60_violated"
   ],
   "note": "The operating system is a parameter (the errors of Open, Read and Close and the chunks read). C60_violated: the error of Close hides the parse error."
  },
  {
   "property": "C61",
   "status": "proved",
   "theorems": [
    "Verif.Props.C61_count",
    "Verif.Props.C61_linear",
    "Verif.Props.C61_enough",
    "Verif.Props.C61_short",
    "Verif.Props.C61_violated"
   ],
   "note": "ExprCnt is a natural number in the model (no overflow at 2^64). ChoiceAltCnt is not modelled. C61_violated: reused Stats."
  },
  {
   "property": "C62",
   "status": "proved",
   "theorems": [
    "Verif.Props.C62_recover",
    "Verif.Props.C62_accepted"
   ],
   "note": "A panic is an outcome of the model; a caller's own recovery is not modelled."
  },
  {
   "property": "C63",
   "status": "proved",
   "theorems": [
    "Verif.Props.C63_unknown",
    "Verif.Props.C63_prefix",
    "Verif.Props.C63_matches",
    "Verif.Props.C63_rejects",
    "Verif.Props.C63_config",
    "Verif.Props.C63_config_complete",
    "Verif.Props.C63_value",
    "Verif.Props.C63_value_complete"
   ],
   "note": "The expressions of the entry points are listed in Spec/Entry.lean over the transcribed grammar.treetop; what each entry point returns, with positions, is listed in Spec/EntryVal.lean (one line per entry point, over the syntax trees of Spec/Cst.lean). C63_value_complete excludes plugins whose name starts like a branch (Spec/Clear.lean) and, for values, conditions and branches, asks that a closing bracket or the block follows."
  },
  {
   "property": "C64",
   "status": "proved",
   "theorems": [
    "Verif.Props.C64_terminates",
    "Verif.Props.C64_prefix",
    "Verif.Props.C64_matches",
    "Verif.Props.C64_language",
    "Verif.Props.C64_violated",
    "Verif.Props.C64_violated_report"
   ],
   "note": "Language level: which texts match is unchanged. That the whole result is unchanged is false (C64_violated: warnings, C64_violated_report: farthest failure); that value and errors other than warnings coincide is not proved. The key of a table entry is the place of the node in the grammar; in the code it is the address of the node."
  },
  {
   "property": "C65",
   "status": "proved",
   "theorems": [
    "Verif.Props.C65_nodes",
    "Verif.Props.C65_once"
   ],
   "note": "1785 is the number of expression nodes of the grammar. The counter is ExprCnt; the cost of the table lookups themselves is not modelled."
  },
  {
   "property": "C66",
   "status": "proved",
   "theorems": [
    "Verif.Props.C66_run",
    "Verif.Props.C66_settles",
    "Verif.Props.C66_session",
    "Verif.Props.C66_fix_done",
    "Verif.Props.C66_fix",
    "Verif.Props.C66_fix_once"
   ],
   "note": "C66_session is the general history theorem (check, format, format -w, lint in any order); C66_settles the fixed point; C66_fix and C66_fix_once for lint --auto-fix-id. Formattable and Fixable are the conditions under which C16 and C46 hold; without them the properties are false (C16_violated_*, C46_violated)."
  },
  {
   "property": "C67",
   "status": "proved",
   "theorems": [
    "Verif.Props.C67_exclusive",
    "Verif.Props.C67_refines",
    "Verif.Props.C67_returns",
    "Verif.Props.C67_outcome",
    "Verif.Props.C67_uninterrupted",
    "Verif.Props.C67_uninterrupted_report"
   ],
   "note": "C67_exclusive: the maps are never shared and the pool is clean; C67_refines: every run is a run of the model of C58, which has no maps and no pool; C67_outcome and C67_uninterrupted: the results are those of parse; C67_returns: termination under fair scheduling. User keys of InitState are not modelled."
  },
  {
   "property": "C68",
   "status": "proved",
   "theorems": [
    "Verif.Props.C68_check",
    "Verif.Props.C68_format",
    "Verif.Props.C68_format_write",
    "Verif.Props.C68_lint",
    "Verif.Props.C68_lint_fix",
    "Verif.Props.C68_ends",
    "Verif.Props.C68_nothing_done",
    "Verif.Props.C68_stdout",
    "Verif.Props.C68_check_stderr",
    "Verif.Props.C68_lint_stderr",
    "Verif.Props.C68_format_stderr",
    "Verif.Props.C68_agree",
    "Verif.Props.C68_format_check"
   ],
   "note": "The command line as parsed by cobra and the error of viper are inputs. C68_format_write and C68_lint_fix need distinct arguments; C68_format_check covers repeated ones on formattable paths. A panic is status 2, its report on the standard error is not modelled."
  },
  {
   "property": "C69",
   "status": "proved",
   "theorems": [
    "Verif.Props.C69_unique",
    "Verif.Props.C69_no_match"
   ],
   "note": "Tries (Spec/Attempts.lean) is the textbook reading of the grammar with a list of what is tried on the way; C69_unique: it is a function. The grammar it reads is the one of the model (Model/Grammar.lean)."
  },
  {
   "property": "C70",
   "status": "proved",
   "theorems": [
    "Verif.Props.C70_depth",
    "Verif.Props.C70_same",
    "Verif.Props.C70_limited",
    "Verif.Props.C70_violated"
   ],
   "note": "Depth is counted in nested calls of parseExpr (Model/Depth.lean); the bytes of stack a call takes are not modelled. C70_violated: the depth is unbounded without MaxExpressions."
  },
  {
   "property": "C71",
   "status": "proved",
   "theorems": [
    "Verif.Props.C71_same",
    "Verif.Props.C71_unique",
    "Verif.Props.C71_counts",
    "Verif.Props.C71_choices",
    "Verif.Props.C71_spots",
    "Verif.Props.C71_separate",
    "Verif.Props.C71_violated_label",
    "Verif.Props.C71_violated_copies"
   ],
   "note": "Picks (Spec/Picks.lean) is the textbook reading of the grammar with the list of choices decided; C71_unique: it is a function. C71_counts assumes that no type assertion fails (C55 says when one does). C71_violated_label, C71_violated_copies: the negative parts."
  },
  {
   "property": "C72",
   "status": "proved",
   "theorems": [
    "Verif.Props.C72_same",
    "Verif.Props.C72_quiet",
    "Verif.Props.C72_nested",
    "Verif.Props.C72_places",
    "Verif.Props.C72_count"
   ],
   "note": "Nested, Verdict, Shows (Spec/Trace.lean) describe the lines; C72_same (result), C72_quiet, C72_nested, C72_places (valid UTF-8), C72_count."
  },
  {
   "property": "C73",
   "status": "proved",
   "theorems": [
    "Verif.Props.C73_inert"
   ],
   "note": "C73_inert: equality of results and of the printed lines with those of a call without InitState. The nil/empty difference of Config.Warnings is not modelled."
  },
  {
   "property": "C74",
   "status": "proved",
   "theorems": [
    "Verif.Props.C74_roundtrip",
    "Verif.Props.C74_injective",
    "Verif.Props.C74_valid",
    "Verif.Props.C74_selector",
    "Verif.Props.C74_expressions",
    "Verif.Props.C74_attributes",
    "Verif.Props.C74_violated",
    "Verif.Props.C74_violated_injective"
   ],
   "note": "C74_roundtrip, C74_injective, C74_valid, C74_selector; C74_expressions and C74_attributes: the texts. Admissible arguments are those of Spec/Built. C74_violated and C74_violated_injective: without the restrictions."
  },
  {
   "property": "C75",
   "status": "proved",
   "theorems": [
    "Verif.Props.C75_ifBlock",
    "Verif.Props.C75_elseIf",
    "Verif.Props.C75_else",
    "Verif.Props.C75_plugin",
    "Verif.Props.C75_branchOrPlugin",
    "Verif.Props.C75_branch",
    "Verif.Props.C75_value",
    "Verif.Props.C75_attribute",
    "Verif.Props.C75_hashentry",
    "Verif.Props.C75_array",
    "Verif.Props.C75_hash",
    "Verif.Props.C75_rvalue",
    "Verif.Props.C75_condition",
    "Verif.Props.C75_expression",
    "Verif.Props.C75_violated_else",
    "Verif.Props.C75_plugin_any",
    "Verif.Props.C75_branchOrPlugin_any",
    "Verif.Props.C75_value_any",
    "Verif.Props.C75_rvalue_any",
    "Verif.Props.C75_condition_any",
    "Verif.Props.C75_branch_any",
    "Verif.Props.C75_attribute_any",
    "Verif.Props.C75_hashentry_any",
    "Verif.Props.C75_array_any",
    "Verif.Props.C75_hash_any",
    "Verif.Props.C75_expression_any"
   ],
   "note": "no expression limit; with ignoreComments off up to positions and marks, and (C75_*_any) whatever ignoreComments up to positions and comments; the conditions on the part are those of C16 (Spec/Printable.lean); C75_violated_else states that no text of an else-if or else block is accepted by its entry point; C75_elseIf and C75_else are about the text after the separator."
  },
  {
   "property": "C76",
   "status": "proved",
   "theorems": [
    "Verif.Props.C76_printable",
    "Verif.Props.C76_edited",
    "Verif.Props.C76_violated_else"
   ],
   "note": "no AllowInvalidUTF8 for the first read and no expression limit for the second; disciplined use of the cursor is that of C30\u2013C33; the callback is assumed to put fitting plugins in only as long as the list it works on consists of fitting plugins; C76_violated_else is the counterexample for else names."
  },
  {
   "property": "C77",
   "status": "proved",
   "theorems": [
    "Verif.Props.C77_newline",
    "Verif.Props.C77_split",
    "Verif.Props.C77_concat",
    "Verif.Props.C77_files",
    "Verif.Props.C77_separate",
    "Verif.Props.C77_order",
    "Verif.Props.C77_violated"
   ],
   "note": "no expression limit; the comments of a file without sections are lost when it is read alone (finding 17), so the statement about comments is for two files with sections; C77_violated is the counterexample without a newline."
  },
  {
   "property": "C78",
   "status": "proved",
   "theorems": [
    "Verif.Props.C78_crlf",
    "Verif.Props.C78_same",
    "Verif.Props.C78_violated_twice"
   ],
   "note": "no expression limit; positions are not compared (lines and columns are those of C04 for the new text); C78_violated_twice is about files that already have the line ends of Windows."
  },
  {
   "property": "C79",
   "status": "proved",
   "theorems": [
    "Verif.Props.C79_truncated",
    "Verif.Props.C79_place"
   ],
   "note": "C79_place: the lines and columns in the beginning are those in the whole file; that the places in a configuration are places of its text is C04."
  },
  {
   "property": "C80",
   "status": "proved",
   "theorems": [
    "Verif.Props.C80_no_later_cause",
    "Verif.Props.C80_no_continuation",
    "Verif.Props.C80_behind_correct",
    "Verif.Props.C80_violated_place",
    "Verif.Props.C80_violated_fatal"
   ],
   "note": "C80_violated_place and C80_violated_fatal show that neither the ten bytes nor the restriction to this error can simply be dropped."
  },
  {
   "property": "C81",
   "status": "proved",
   "theorems": [
    "Verif.Props.C81_first",
    "Verif.Props.C81_bom",
    "Verif.Props.C81_last"
   ],
   "note": "C81_bom is the instance for byte order marks."
  },
  {
   "property": "C82",
   "status": "proved",
   "theorems": [
    "Verif.Props.C82_newline",
    "Verif.Props.C82_stdout"
   ],
   "note": "Printable: as in C16, its four restrictions are findings of C16 and C18; comments of sections may move, as in C20."
  }
 ]
}