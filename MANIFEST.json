{
 "claims": [
  {
   "property": "C01",
   "status": "proved",
   "theorems": [
    "Verif.C01_merge_adds_counts",
    "Verif.C01_whenever",
    "Verif.C01_exact",
    "Verif.C01_fails_on_duplicates"
   ],
   "note": "exact addition; only the receiver needs distinct locations; C01_whenever holds whatever truthiness counts the reports have"
  },
  {
   "property": "C02",
   "status": "partial",
   "theorems": [
    "Verif.C02_merge_order_independent_partial",
    "Verif.C02_merge_is_sum_partial",
    "Verif.C02_exact",
    "Verif.C02_whenever",
    "Verif.C02_duplicates_fails",
    "Verif.C02_truth_fails"
   ],
   "note": "C02_exact says for all well-formed shards and all groupings what is counted and what is lost whenever the merges succeed; order independence is proved for all merge trees over real reports and placeholders that list no location twice and whose truthiness counts have ids below the number of branches; refuted by witnesses without these provisos"
  },
  {
   "property": "C03",
   "status": "partial",
   "theorems": [
    "Verif.C03_merge_well_formed_partial",
    "Verif.C03_whenever",
    "Verif.C03_order",
    "Verif.C03_items",
    "Verif.C03_truth_fails",
    "Verif.C03_ids_fail",
    "Verif.C03_aborts_without_item",
    "Verif.C03_aborts_on_empty_branch"
   ],
   "note": "exact for reports without truthiness counts; with them a merge may abort (C03_truth_fails, exactly when: C05_succeeds_iff) or keep ids of branches that do not exist (C03_ids_fail); C03_whenever says what holds whenever it succeeds"
  },
  {
   "property": "C04",
   "status": "partial",
   "theorems": [
    "Verif.C04_covered_stays_covered_partial",
    "Verif.C04_fails_on_duplicates",
    "Verif.C04_fails_on_overflow",
    "Verif.C04_wrap_is_mod",
    "Verif.C04_no_overflow",
    "Verif.C04_exact"
   ],
   "note": "refuted for duplicates in the receiver and for 32-bit overflow"
  },
  {
   "property": "C05",
   "status": "partial",
   "theorems": [
    "Verif.C05_truth_counts_add_partial",
    "Verif.C05_exact",
    "Verif.C05_succeeds_iff",
    "Verif.C05_counts_move",
    "Verif.C05_merge_panics",
    "Verif.C05_counts_dropped"
   ],
   "note": "the code violates the property in general; partial for reports where every branch has truthiness counts; C05_succeeds_iff says exactly when a merge does not abort, C05_exact what it yields then for all well-formed reports"
  },
  {
   "property": "C06",
   "status": "proved",
   "theorems": [
    "Verif.C06_placeholders"
   ],
   "note": ""
  },
  {
   "property": "C07",
   "status": "proved",
   "theorems": [
    "Verif.C07_key_injective"
   ],
   "note": ""
  },
  {
   "property": "C08",
   "status": "proved",
   "theorems": [
    "Verif.C08_line_coverage",
    "Verif.C08_uncovered_lines",
    "Verif.C08_aborts_without_location"
   ],
   "note": ""
  },
  {
   "property": "C09",
   "status": "proved",
   "theorems": [
    "Verif.C09_summary_totals",
    "Verif.C09_truth_totals",
    "Verif.C09_covered_le_total",
    "Verif.C09_covered_monotone"
   ],
   "note": ""
  },
  {
   "property": "C10",
   "status": "proved",
   "theorems": [
    "Verif.C10_project_summary",
    "Verif.C10_is_empty",
    "Verif.C10_empty_project",
    "Verif.C10_defaults",
    "Verif.C10_order_independent"
   ],
   "note": ""
  },
  {
   "property": "C11",
   "status": "proved",
   "theorems": [
    "Verif.C11_percent_range",
    "Verif.C11_percent_100",
    "Verif.C11_percent_0",
    "Verif.C11_percent_accuracy",
    "Verif.C11_percent_truncated",
    "Verif.C11_percent_monotone",
    "Verif.C11_f32_exact",
    "Verif.C11_f32_mono",
    "Verif.C11_f32_representable",
    "Verif.C11_f32_error",
    "Verif.C11_f32_tie",
    "Verif.C11_f32_nearest"
   ],
   "note": "single-precision rounding is modelled explicitly; C11_f32_* show the rounding function is correct rounding"
  },
  {
   "property": "C12",
   "status": "proved",
   "theorems": [
    "Verif.C12_one_per_path",
    "Verif.C12_add_is_local",
    "Verif.C12_merge_paths",
    "Verif.C12_filter"
   ],
   "note": ""
  },
  {
   "property": "C13",
   "status": "partial",
   "theorems": [
    "Verif.C13_reset",
    "Verif.C13_reset_counts",
    "Verif.C13_merge_reset_partial",
    "Verif.C13_exact",
    "Verif.C13_duplicates_fails",
    "Verif.C13_truth_fails"
   ],
   "note": "reset is proved for all reports; the merge of a reset report for receivers that list no location twice and whose truthiness ids are below the number of branches, with witnesses that it fails otherwise"
  },
  {
   "property": "C14",
   "status": "proved",
   "theorems": [
    "Verif.C14_branches_by_line",
    "Verif.C14_entries",
    "Verif.C14_quotient",
    "Verif.C14_quotient_monotone",
    "Verif.C14_aborts_without_line",
    "Verif.C14_no_arms_no_share"
   ],
   "note": "the share of covered arms in f32 is treated for lines with fewer than 2^24 arms; it is NaN for a line without arms"
  },
  {
   "property": "C15",
   "status": "proved",
   "theorems": [
    "Verif.C15_registry",
    "Verif.C15_aborts_on_unknown_branch",
    "Verif.C15_ids_fresh",
    "Verif.C15_tables_in_step"
   ],
   "note": ""
  },
  {
   "property": "C16",
   "status": "proved",
   "theorems": [
    "Verif.C16_freeze",
    "Verif.C16_finished_report",
    "Verif.C16_count_order_changes"
   ],
   "note": "the order of the count table can change; the property only promises the branch table order"
  },
  {
   "property": "C27",
   "status": "proved",
   "theorems": [
    "Verif.C27_comment_is_hint_iff",
    "Verif.C27_comment_is_no_hint_iff",
    "Verif.C27_scope_is_first_hint",
    "Verif.C27_no_scope_iff",
    "Verif.C27_file_hint_iff"
   ],
   "note": "the Unicode classes of the regex crate are parameters; assumed of them: lower-case ASCII letters are word characters and not white space"
  },
  {
   "property": "C17",
   "status": "partial",
   "theorems": [
    "Verif.C17_counters_exist",
    "Verif.C17_no_dangling_partial",
    "Verif.C17_refuted",
    "Verif.C17_dangling_iff",
    "Verif.C17_dangling_throws"
   ],
   "note": "the full statement fails; the counters that dangle are exactly the truthiness counters of default values (C17_dangling_iff), and evaluating one throws a TypeError whenever the default value counts as true (C17_dangling_throws); proved for statement, function and branch counters of every program and for all counters unless truthiness is reported and the program has default values; in that case refuted by a witness"
  },
  {
   "property": "C18",
   "status": "proved",
   "theorems": [
    "Verif.C18_one_site"
   ],
   "note": ""
  },
  {
   "property": "C19",
   "status": "partial",
   "theorems": [
    "Verif.C19_functions_and_arms_counted",
    "Verif.C19_all_counted_partial",
    "Verif.C19_refuted",
    "Verif.C19_lost",
    "Verif.C19_lost_none"
   ],
   "note": "functions and arms: every program; statements: programs whose switch heads contain no tagged template or class field; otherwise refuted by a witness; C19_lost says for every program which statements are counted nowhere: only those listed for a construct in a switch head"
  },
  {
   "property": "C20",
   "status": "proved",
   "theorems": [
    "Verif.C20_erase",
    "Verif.C20_counts"
   ],
   "note": "normal form of bodies as in the statement of the property"
  },
  {
   "property": "C35",
   "status": "proved",
   "theorems": [
    "Verif.C35_locations"
   ],
   "note": ""
  },
  {
   "property": "C23",
   "status": "partial",
   "theorems": [
    "Verif.C23_construct",
    "Verif.C23_nested",
    "Verif.C23_statement",
    "Verif.C23_module_partial",
    "Verif.C23_refuted",
    "Verif.C23_body_refuted",
    "Verif.C23_operand_fails",
    "Verif.C23_arm_fails",
    "Verif.C23_operand_exact"
   ],
   "note": "proved for every visit of a hinted construct, for every statement list and for module items; refuted by witnesses for export const items, for blocks that are function bodies and for statements inside operands of logical expressions C23_arm_fails: a hinted block that is an arm of an if statement is instrumented inside. C23_operand_exact says what exactly happens inside operands."
  },
  {
   "property": "C26",
   "status": "partial",
   "theorems": [
    "Verif.C26_listed_partial",
    "Verif.C26_operand_fails",
    "Verif.C26_operand_exact"
   ],
   "note": "proved for every visit of such a construct that is not inside an operand of a logical expression; refuted there by a witness C26_operand_exact says what exactly happens inside operands."
  },
  {
   "property": "C36",
   "status": "proved",
   "theorems": [
    "Verif.C36_ends",
    "Verif.C36_unique",
    "Verif.C36_no_abort",
    "Verif.C36_bodyless_aborts"
   ],
   "note": ""
  },
  {
   "property": "C24",
   "status": "partial",
   "theorems": [
    "Verif.C24_arms",
    "Verif.C24_ignore_if_partial",
    "Verif.C24_ignore_else_partial",
    "Verif.C24_operand_fails",
    "Verif.C24_operand_exact"
   ],
   "note": "proved for every visit of an if statement that is not inside an operand of a logical expression; refuted there by a witness C24_operand_exact says what exactly happens inside operands."
  },
  {
   "property": "C21",
   "status": "partial",
   "theorems": [
    "Verif.C21_partial",
    "Verif.C21_refuted_directives",
    "Verif.C21_refuted_names"
   ],
   "note": "trace equivalence for every interpretation of what instrumentation does not touch, for programs without the directives and anonymous functions of C28 and C29; refuted by witnesses for those"
  },
  {
   "property": "C28",
   "status": "partial",
   "theorems": [
    "Verif.C28_partial",
    "Verif.C28_module",
    "Verif.C28_script",
    "Verif.C28_functions",
    "Verif.C28_never_added",
    "Verif.C28_uncounted",
    "Verif.C28_refuted"
   ],
   "note": "exact effect on module and script prologues and on those of functions that are reached (all lost); no directive is ever added; prologues kept for programs whose only directive starts a module; refuted by witnesses for scripts, functions and second directives"
  },
  {
   "property": "C29",
   "status": "partial",
   "theorems": [
    "Verif.C29_declarators",
    "Verif.C29_fields_partial",
    "Verif.C29_fields_lost",
    "Verif.C29_defaults_iff",
    "Verif.C29_never_added",
    "Verif.C29_refuted"
   ],
   "note": "proved for variable declarators; class fields kept if there is a block in the function, otherwise lost wherever the field is reached; default values that are reached keep them exactly if a hint excludes them or there is a logical expression in them; no name is ever gained; refuted for arrow fields without a block and for default values"
  },
  {
   "property": "C37",
   "status": "partial",
   "theorems": [
    "Verif.C37_items_partial",
    "Verif.C37_lists_partial",
    "Verif.C37_initialisers_partial",
    "Verif.C37_hoisted_initialiser_fails",
    "Verif.C37_earlier_code_fails",
    "Verif.C37_string_item_fails"
   ],
   "note": "Proved for every part of a program that instrumentation reaches (Spec/Reached.lean): statements of modules, scripts, blocks, cases, functions and arms are preceded by injected statements among which is the counter with their range; plain initialisers are wrapped. The full property is false: initialisers containing functions inside function bodies or after a logical expression, and string statements of modules, get no entry (proved). Parts not reached: string-named class methods, parameters of arrow functions, object of with, parts of operands below inner logical operators, tagged-template initialisers."
  },
  {
   "property": "C38",
   "status": "partial",
   "theorems": [
    "Verif.C38_functions_partial",
    "Verif.C38_string_method_fails",
    "Verif.C38_constructor_fails"
   ],
   "note": "Proved for every function, function expression, arrow, method and accessor that is reached: the body starts with the counter of an entry with its name, declaration range and body range. The full property is false: methods with string or computed names and constructors are not registered (proved)."
  },
  {
   "property": "C39",
   "status": "partial",
   "theorems": [
    "Verif.C39_branches_partial",
    "Verif.C39_nested_operand_fails",
    "Verif.C39_arrow_default_fails"
   ],
   "note": "Proved for every branching construct that is reached, arm by arm. The full property is false: constructs inside operands of nested logical expressions and default values of arrow parameters have no branch (proved)."
  },
  {
   "property": "C34",
   "status": "partial",
   "theorems": [
    "Verif.C34_statements_partial",
    "Verif.C34_functions_partial",
    "Verif.C34_branches_partial",
    "Verif.C34_arms_partial",
    "Verif.C34_bodies_partial",
    "Verif.C34_distinct_partial",
    "Verif.C34_locations_partial",
    "Verif.C34_tagged_initialiser_fails",
    "Verif.C34_tagged_statement_fails"
   ],
   "note": "entries with a range are at most as many as constructs there, for programs without tagged-template initialisers, and likewise for function bodies and first arms, so a program whose constructs are at different places has a report without repeated locations (C34_locations_partial); refuted by witnesses for tagged templates as initialisers and as statements without semicolon"
  },
  {
   "property": "C40",
   "status": "proved",
   "theorems": [
    "Verif.C40_names"
   ],
   "note": ""
  },
  {
   "property": "C30",
   "status": "partial",
   "theorems": [
    "Verif.C30_books_partial",
    "Verif.C30_counts_accumulate_partial",
    "Verif.C30_other_paths_partial",
    "Verif.C30_reload_keeps_partial",
    "Verif.C30_changed_resets_partial",
    "Verif.C30_life_partial",
    "Verif.C30_life_accumulates_partial",
    "Verif.C30_life_loads_partial",
    "Verif.C30_proto_path_fails"
   ],
   "note": "Proved for every history of loads and counter hits, and (C30_life_*) for every life of a realm in which arbitrary program code that leaves the objects and scopes of the coverage code alone runs in between and inside operands of truthiness wrappers; by refinement of the evaluation of the emitted code to a table of counts, in a fragment of JavaScript modelled in Model/Js.lean: files loaded as modules (own scopes), a common coverage variable that is no member of Object.prototype, paths other than __proto__, counts below 2^53. For the path __proto__ the statement is refuted."
  },
  {
   "property": "C31",
   "status": "partial",
   "theorems": [
    "Verif.C31_reads_partial",
    "Verif.C31_reads_strictly_partial",
    "Verif.C31_instrumented",
    "Verif.C31_printed_partial",
    "Verif.C31_armless_fails",
    "Verif.C31_quote_fails"
   ],
   "note": "Proved for all data with distinct keys: evaluating the literal yields the data, read leniently; strictly for the data of every instrumented program. Not for all data: branches without arms are emitted without locations (refuted). For the printed text: function names are printed without escaping, proved for names without special characters, refuted for a name with a quote."
  },
  {
   "property": "C33",
   "status": "partial",
   "theorems": [
    "Verif.C33_one_cell",
    "Verif.C33_only_counts",
    "Verif.C33_counter_partial",
    "Verif.C33_wrapper_partial",
    "Verif.C33_wrapper_throws_partial",
    "Verif.C33_life_counter_partial",
    "Verif.C33_life_wrapper_partial",
    "Verif.C33_life_throws_partial",
    "Verif.C33_counter_tree",
    "Verif.C33_wrapper_tree",
    "Verif.C33_arm_tree",
    "Verif.C33_injected_trees",
    "Verif.C33_getter_fails",
    "Verif.C33_proxy_fails",
    "Verif.C33_shadowed_fails"
   ],
   "note": "Counters: at any place of a loaded file, after any history, a counter yields the old count and changes exactly its cell. Wrapper: for every operand (which may itself run instrumented code and create objects) whose value can be inspected without running user code, the wrapper yields the value, evaluates the operand once, and counts exactly if the value is truthy, no empty array and no empty plain object; nothing outside the coverage data changes. Refuted as stated: plain objects with getters (the getters are run, and re-entering the file overwrites the temporary, so another value is yielded) and files that declare Object or Array. C33_*_tree: the syntax trees that the visitor inserts are the syntax of these expressions and of no others. C33_life_*: the same at any time of the life of a realm, where program code may change existing objects and scopes except those of the coverage code. Missing: values whose inspection runs user code (proxies; plain objects with getters, where it fails)."
  },
  {
   "property": "C41",
   "status": "proved",
   "theorems": [
    "Verif.C41_lossless",
    "Verif.C41_loaded",
    "Verif.C41_again",
    "Verif.C41_escapes"
   ],
   "note": "C41_escapes: strings are read the same however their characters are escaped. For all data whose tables have no key twice and whose numbers are 32 bit numbers, which is all data of the types in /repo and (proved) all data that was loaded. serde and serde_json are modelled in Model/Serde.lean and Model/Json.lean."
  },
  {
   "property": "C42",
   "status": "partial",
   "theorems": [
    "Verif.C42_text",
    "Verif.C42_hash",
    "Verif.C42_reload_partial",
    "Verif.C42_siphash",
    "Verif.C42_emitted",
    "Verif.C42_bits"
   ],
   "note": "The hashed text determines the data; with the hash function of the code (SipHash-1-3 of the UTF-8 bytes, shown equal to the published algorithm in Spec/SipHash by C42_siphash) up to collisions. At run time under the hypotheses of C30."
  },
  {
   "property": "C25",
   "status": "proved",
   "theorems": [
    "Verif.C25_excluded",
    "Verif.C25_ignored",
    "Verif.C25_malformed_options",
    "Verif.C25_malformed_patterns",
    "Verif.C25_otherwise",
    "Verif.C25_normalised"
   ],
   "note": "Path normalisation and glob matching of other crates are parameters; that wax::any is alternation of its patterns is a hypothesis (Alternation). C25_ignored supposes that the log set-up does not panic (see C44). C25_otherwise is the converse: all other files get the coverage function."
  },
  {
   "property": "C32",
   "status": "partial",
   "theorems": [
    "Verif.C32_refuted",
    "Verif.C32_first_name_wins",
    "Verif.C32_own_process_partial",
    "Verif.C32_shared_scope_fails"
   ],
   "note": "The property as stated is refuted: the name is kept in a process-global cell, all files of a process share the name made from the first. It holds between processes. C32_shared_scope_fails: two scripts with the shared name in one scope, the counts of the first go to the second."
  },
  {
   "property": "C44",
   "status": "partial",
   "theorems": [
    "Verif.C44_independent_partial",
    "Verif.C44_logging_fails",
    "Verif.C44_history_partial"
   ],
   "note": "Independent up to the names of the coverage function and its temporary (C32), and unless logging is asked for twice in a process, which panics (C44_logging_fails). C44_history_partial says of whole histories that they panic exactly if two files ask for logging, and otherwise give what the files give alone."
  },
  {
   "property": "C22",
   "status": "partial",
   "theorems": [
    "Verif.C22_items_partial",
    "Verif.C22_statements_partial",
    "Verif.C22_initialisers_partial",
    "Verif.C22_functions_partial",
    "Verif.C22_if_partial",
    "Verif.C22_cases_partial",
    "Verif.C22_conditional_partial",
    "Verif.C22_operands_partial",
    "Verif.C22_truths_partial",
    "Verif.C22_defaults_partial",
    "Verif.C22_start_partial",
    "Verif.C22_reported_beginnings_partial",
    "Verif.C22_reported_entries_partial",
    "Verif.C22_reported_truths_partial",
    "Verif.C22_saturates",
    "Verif.C22_hoisted_initialiser_fails"
   ],
   "note": "In every execution (environment semantics of Spec/Sem.lean) the counter of a reached statement, initialiser, operand or conditional arm is incremented as often as that part begins, that of a function body, if arm or case as often as that part is entered, and the truthiness counter of an operand as often as the operand ends with a truthy, non-empty value; with C21 this is the behaviour of the source program and the count in the report. Fails for initialisers that contain a block: they are counted before the whole declaration (witness). Missing: parts that are not unique by kind and position, initialisers with blocks."
  },
  {
   "property": "C43",
   "status": "partial",
   "theorems": [
    "Verif.C43_entry_partial",
    "Verif.C43_text_partial",
    "Verif.C43_map_partial",
    "Verif.C43_instrumented_partial",
    "Verif.C43_overflow_fails",
    "Verif.C43_cyclic_fails"
   ],
   "note": "Whatever JSON.stringify writes for the entry of a file (or the whole coverage object) at any moment of a life is loaded as the counted data up to table order, if counts and positions fit into 32 bits, branches have arms, no toJSON is on the prototypes. Without truthiness counters exactly one text can be written and it is loaded. Fails for 2^32 hits (witness) and with reportLogic when the operand last tested is cyclic: JSON.stringify throws (witness). Where JSON.stringify runs user code (toJSON, getters, proxies in a temporary) it may write anything there, but is assumed to change nothing."
  },
  {
   "property": "C45",
   "status": "partial",
   "theorems": [
    "Verif.C45_partial",
    "Verif.C45_fits_partial",
    "Verif.C45_statements_partial",
    "Verif.C45_items_partial",
    "Verif.C45_initialisers_partial",
    "Verif.C45_functions_partial",
    "Verif.C45_if_partial",
    "Verif.C45_cases_partial",
    "Verif.C45_conditional_partial",
    "Verif.C45_operands_partial",
    "Verif.C45_truths_partial",
    "Verif.C45_defaults_partial",
    "Verif.C45_counted_partial",
    "Verif.C45_source_partial",
    "Verif.C45_performed_partial",
    "Verif.C45_performable_partial",
    "Verif.C45_source_performed_partial"
   ],
   "note": "Composition of C21, C22, C30, C33 and C43. For all executions of the instrumented program with less than 2^32 increments per counter, and every life of a realm whose hits are those of the executions (in any order), what JSON.stringify writes is loaded as a report with the source ranges and the execution counts. C45_source_partial: for all executions of the source there is such a life, with exactly one text, which is loaded (with reportLogic: if there are no default values). C45_performed_partial: the executions take place in the realm (Spec/Joint: the emitted counters and wrappers are evaluated where the execution comes to them, and the program may do as it likes in between), and nothing is assumed about the hits. C45_performable_partial and C45_source_performed_partial: all executions take place in some realm (with reportLogic: if there are neither default values nor tagged templates). Missing: the source language itself has no semantics beyond the dialogue of Spec/Sem, parts that are not unique by kind and position, initialisers with blocks (C22_hoisted_initialiser_fails), 2^32 and more hits (C43_overflow_fails)."
  },
  {
   "property": "C46",
   "status": "proved",
   "theorems": [
    "Verif.C46_read",
    "Verif.C46_written",
    "Verif.C46_instrumented",
    "Verif.C46_report",
    "Verif.C46_no_truth"
   ],
   "note": "Members are read by name (C46_read), written options are read back (C46_written), and they reach the instrumentation and the report. The option compact is read and, as in the code, has no effect; the log options are covered by C44, the exclude patterns by C25."
  },
  {
   "property": "C47",
   "status": "partial",
   "theorems": [
    "Verif.C47_attached",
    "Verif.C47_comment_iff",
    "Verif.C47_partial",
    "Verif.C47_fails"
   ],
   "note": "Proved: when a comment is attached and its text; that the printed comment is read as attached if and only if the saved data does not contain the end of a comment; that the reader of the test-suite then gets the data. It fails in general: a source map with sourcesContent that has a block comment ends the debug comment early, and the rest of the data is taken for program text (C47_fails). Missing for the full statement: escaping in create_coverage_fn_decl.rs."
  },
  {
   "property": "C48",
   "status": "partial",
   "theorems": [
    "Verif.C48_partial",
    "Verif.C48_fewer_partial",
    "Verif.C48_fails",
    "Verif.C48_tagged_fails"
   ],
   "note": "Proved for programs without tagged templates as initialisers whose operands and default values contain a logical operator or nothing to instrument. It fails in general: with reportLogic other operands are not visited, so that a function in an operand is not reported (C48_fails), and the truthiness wrappers in a tagged template that initialises a variable are instrumented themselves on the second visit (C48_tagged_fails). C48_fewer_partial, for operands with anything in them: functions and branches are those of the report without reportLogic, some left out."
  },
  {
   "property": "C49",
   "status": "proved",
   "theorems": [
    "Verif.C49_alike",
    "Verif.C49_succeeds_iff",
    "Verif.C49_moved",
    "Verif.C49_comments"
   ],
   "note": "By running the two visits in lockstep. The ranges correspond by the change of spans, the names of functions by the change of names (names stay on the list of ignored methods or off it)."
  },
  {
   "property": "C50",
   "status": "partial",
   "theorems": [
    "Verif.C50_partial",
    "Verif.C50_fits_partial",
    "Verif.C50_armed_partial",
    "Verif.C50_outline_partial",
    "Verif.C50_grouping_partial",
    "Verif.C50_statements_partial",
    "Verif.C50_items_partial",
    "Verif.C50_initialisers_partial",
    "Verif.C50_functions_partial",
    "Verif.C50_if_partial",
    "Verif.C50_cases_partial",
    "Verif.C50_conditional_partial",
    "Verif.C50_operands_partial",
    "Verif.C50_defaults_partial",
    "Verif.C50_source_partial",
    "Verif.C50_obtained_partial",
    "Verif.C50_twice_fails",
    "Verif.C50_modulo",
    "Verif.C50_wraps_fails"
   ],
   "note": "Proved for programs whose report lists no location twice and has no truthiness counts with ids beyond the number of branches (always so without reportLogic; otherwise the reports cannot be merged), for the merge with unbounded additions and for the merge of a release build, where u32 additions wrap around, if the counters are incremented less than 2^32 times in all runs together (`Merged` in Spec/Runs says both; the same goes for C51, C53 and C54). Without that bound the counts of a release build are right modulo 2^32 (C50_modulo), so that a statement executed 2^32 times is reported as not executed (C50_wraps_fails). C50_source_partial replaces the condition on the report by one on the program: its statements, function bodies and arms are at different places. C50_obtained_partial shows that such reports are obtained for any executions of the source. It fails when the instrumenter lists a location twice, as it does for a tagged template as a statement: merging counts one execution for both entries (C50_twice_fails). Missing for the full statement: distinct locations, which the code does not ensure. Truthiness counts are in C54. C50_outline_partial has, for the ids of truthiness counts, a condition on the outline of the source (C72) that is necessary as well (C54_merge_iff_partial)."
  },
  {
   "property": "C51",
   "status": "partial",
   "theorems": [
    "Verif.C51_partial",
    "Verif.C51_fits_partial",
    "Verif.C51_armed_partial",
    "Verif.C51_outline_partial",
    "Verif.C51_complete_partial"
   ],
   "note": "Under the hypotheses of C50_partial. C51_outline_partial has conditions on the source only."
  },
  {
   "property": "C52",
   "status": "proved",
   "theorems": [
    "Verif.C52_lookups"
   ],
   "note": "Source maps are total functions in the model, so that a lookup that would abort is one whose answer must not matter."
  },
  {
   "property": "C53",
   "status": "partial",
   "theorems": [
    "Verif.C53_partial",
    "Verif.C53_fits_partial",
    "Verif.C53_armed_partial",
    "Verif.C53_outline_partial"
   ],
   "note": "Under the hypotheses of C50_partial. C53_outline_partial has conditions on the source only."
  },
  {
   "property": "C54",
   "status": "partial",
   "theorems": [
    "Verif.C54_partial",
    "Verif.C54_fits_partial",
    "Verif.C54_logical_partial",
    "Verif.C54_armed_iff",
    "Verif.C54_merge_iff_partial",
    "Verif.C54_source_partial",
    "Verif.C54_source_iff_partial",
    "Verif.C54_source_aborts_partial",
    "Verif.C54_operands_partial",
    "Verif.C54_summary_partial",
    "Verif.C54_aborts_iff",
    "Verif.C54_aborts",
    "Verif.C54_renumbered",
    "Verif.C54_first_iff",
    "Verif.C54_moved_fails",
    "Verif.C54_abort_fails"
   ],
   "note": "Proved, under the hypotheses of C50_partial, for files whose logical expressions are the first branches. The code violates the full statement: the merge numbers truthiness counts from 0 whatever the ids of their branches are, so that they are attached to other branches if another branch precedes (C54_moved_fails; C54_first_iff: exactly then, unless branches were dropped), and merging aborts if an id is beyond the number of branches (C54_abort_fails; C54_aborts_iff: exactly then). C54_logical_partial has conditions on the source only (nothing but logical expressions branches, each has an operand in which nothing is ignored). C54_merge_iff_partial, C54_source_aborts_partial, C54_source_partial and C54_source_iff_partial say the same of the outline of the source (C72): whether reports can be merged, and whether the counts are those of the right branches, is a property of the source."
  },
  {
   "property": "C55",
   "status": "partial",
   "theorems": [
    "Verif.C55_partial",
    "Verif.C55_reads_partial",
    "Verif.C55_comment_partial",
    "Verif.C55_exact",
    "Verif.C55_unmarked",
    "Verif.C55_unknown_fails",
    "Verif.C55_marked_fails",
    "Verif.C55_twice_fails",
    "Verif.C55_variables",
    "Verif.C55_handmade_fails"
   ],
   "note": "Proved for programs that do not mention the marker themselves behind the emitted code and source maps without unknown texts (C55_exact: the latter is necessary). Violated otherwise: an unknown text is dropped, so the texts of other sources are moved to it (C55_unknown_fails); a marked object literal in the source hides the data (C55_marked_fails); of a program that is instrumented twice the inner data is read (C55_twice_fails); of handwritten functions with the marker values are misread (C55_handmade_fails), and anything is read of them exactly if they have the other variables (C55_variables)."
  },
  {
   "property": "C56",
   "status": "partial",
   "theorems": [
    "Verif.C56_report_partial",
    "Verif.C56_program",
    "Verif.C56_linear_partial",
    "Verif.C56_exponential_fails",
    "Verif.C56_unbounded_fails"
   ],
   "note": "Proved for programs without initialisers that are tagged templates; the bound of the emitted program by program and report holds for all programs. Violated otherwise: such an initialiser is visited twice, so that nested ones double the work at each level, and a program with 9 n + 7 nodes gets more than 2 ^ n entries (C56_exponential_fails)."
  },
  {
   "property": "C57",
   "status": "partial",
   "theorems": [
    "Verif.C57_partial",
    "Verif.C57_ids_partial",
    "Verif.C57_fails"
   ],
   "note": "Proved for programs with less than 2^30 nodes in which no initialiser is a tagged template. Violated otherwise: a program of 295 nodes needs more than 2^32 ids (C57_fails, by C56). The corollaries C45_fits_partial, C50_fits_partial, C51_fits_partial, C53_fits_partial and C54_fits_partial put this in place of the hypothesis that the report has 32 bit numbers."
  },
  {
   "property": "C58",
   "status": "partial",
   "theorems": [
    "Verif.C58_same_partial",
    "Verif.C58_malformed",
    "Verif.C58_excluded_fails",
    "Verif.C58_malformed_fails",
    "Verif.C58_lenient_fails",
    "Verif.C58_unnamed_fails"
   ],
   "note": "Proved for well-formed options, files with a name that are not excluded, and where logging is not set up twice. Violated otherwise: the native transform does not know exclusion (C58_excluded_fails), fails on malformed options where the plugin uses its defaults (C58_malformed_fails), accepts options with trailing text or deep nesting that the plugin drops (C58_lenient_fails), and names unnamed files differently (C58_unnamed_fails)."
  },
  {
   "property": "C59",
   "status": "proved",
   "theorems": [
    "Verif.C59_texts",
    "Verif.C59_unique",
    "Verif.C59_reports",
    "Verif.C59_options",
    "Verif.C59_members",
    "Verif.C59_printed"
   ],
   "note": "The grammar and the layout of the data are relations of their own (Spec/Grammar, Spec/Layout). Three things that serde_json does differently are listed in DESIGN.md: structs given as arrays, escapes in the keys of tables, and leniency inside of members that are skipped."
  },
  {
   "property": "C60",
   "status": "partial",
   "theorems": [
    "Verif.C60_merge",
    "Verif.C60_overflow",
    "Verif.C60_maps",
    "Verif.C60_release",
    "Verif.C60_runs_partial",
    "Verif.C60_panics"
   ],
   "note": "Merging is proved in full; the statement about runs (C60_runs_partial) has the hypotheses of C50: no two items at one location, truth counts in range. C60_panics: the sixteen runs of which a release build says that nothing was executed (C50_wraps_fails) make a debug build panic."
  },
  {
   "property": "C61",
   "status": "partial",
   "theorems": [
    "Verif.C61_plain",
    "Verif.C61_taken_over_partial",
    "Verif.C61_last_partial",
    "Verif.C61_script_partial",
    "Verif.C61_shared_partial",
    "Verif.C61_namespace_first_fails",
    "Verif.C61_namespace_later_fails"
   ],
   "note": "Violated: C61_namespace_first_fails and C61_namespace_later_fails are programs with a namespace of which an executed statement is reported as never executed, or not at all. C61_plain: without namespaces instrumentation is the one of the other claims. C61_taken_over_partial: what becomes of the counts of two coverage functions of one file with different data, for all data and hits. C61_last_partial, C61_script_partial and C61_shared_partial: the function of a namespace of a module or script after which there are only items of kinds that are never registered, and in a module strings, has the data of the file, and with the same data nothing is lost. Missing: namespaces before items that register nothing because of a hint or their place, and namespaces in namespaces."
  },
  {
   "property": "C62",
   "status": "proved",
   "theorems": [
    "Verif.C62_module",
    "Verif.C62_script"
   ],
   "note": "For modules the first part must have an item: the coverage function is put after the first item, and an empty module has it alone (example in Props/Append). Code put before does change the instrumentation of what follows, see C37_earlier_code_fails."
  },
  {
   "property": "C63",
   "status": "partial",
   "theorems": [
    "Verif.C63_module_partial",
    "Verif.C63_script_partial",
    "Verif.C63_branches_partial",
    "Verif.C63_functions_partial",
    "Verif.C63_module_fails",
    "Verif.C63_script_fails"
   ],
   "note": "Violated: in the module `a || b; const f = () => 1;` the initialiser of f has no statement entry, alone it has one (C63_module_fails; C63_script_fails for a script), because visit_mut_bin_expr leaves a node on the stack. Proved if the first part has no logical expression outside of blocks, arrow functions and switches (with truthiness reporting also no tagged template there), for all programs without injected nodes. For the functions and branches of modules in which no initialiser is a tagged template the condition on the first part is not needed (C63_branches_partial, C63_functions_partial)."
  },
  {
   "property": "C64",
   "status": "partial",
   "theorems": [
    "Verif.C64_counts",
    "Verif.C64_number_keys",
    "Verif.C64_tables",
    "Verif.C64_handed_on",
    "Verif.C64_constructor",
    "Verif.C64_lines",
    "Verif.C64_constants",
    "Verif.C64_runs_partial",
    "Verif.C64_statements_partial",
    "Verif.C64_source_map_iff",
    "Verif.C64_source_map_fails"
   ],
   "note": "Violated for source maps: a null in sourcesContent comes back as undefined (C64_source_map_fails); otherwise the source map is handed out as it was saved (C64_source_map_iff). The theorems on running programs inherit the provisos of C45 (32 bit numbers, no hooks on the way of JSON.stringify). serde_wasm_bindgen is modelled with its default options."
  },
  {
   "property": "C65",
   "status": "partial",
   "theorems": [
    "Verif.C65_report_partial",
    "Verif.C65_same_partial",
    "Verif.C65_operand_fails",
    "Verif.C65_initialiser_fails"
   ],
   "note": "Violated: a logical expression in ignored code takes the arm away from the operand around it (C65_operand_fails), and a block in ignored code gives a statement entry to the initialiser around it (C65_initialiser_fails). Proved for all other pairs of programs: hinted constructs that are no blocks, without logical expressions if inside an operand or default value, with blocks if inside an initialiser. Hinted blocks are not left out in general (C23_arm_fails, C23_body_refuted)."
  },
  {
   "property": "C66",
   "status": "partial",
   "theorems": [
    "Verif.C66_module_partial",
    "Verif.C66_script_partial",
    "Verif.C66_same_partial",
    "Verif.C66_export_fails",
    "Verif.C66_operand_fails"
   ],
   "note": "Violated: an ignored export const item is a statement of the report (C66_export_fails), and a logical expression in an ignored statement takes the arm away from the operand around it (C66_operand_fails). Proved for all other statements: hinted items at which hints are looked up, and hinted statements of blocks and cases at any depth, without logical expressions if inside an operand or default value."
  },
  {
   "property": "C67",
   "status": "partial",
   "theorems": [
    "Verif.C67_items",
    "Verif.C67_partial",
    "Verif.C67_plain_partial",
    "Verif.C67_gaps_iff_partial",
    "Verif.C67_switch_fails",
    "Verif.C67_default_fails"
   ],
   "note": "Violated: a switch without cases, or a branch all of whose arms are ignored, has an id that the report lacks (C67_switch_fails, C67_default_fails). Proved for statements and functions without conditions (C67_items), and for branches of programs in which every switch has a case every conditional expression an arm that is not ignored, every logical expression an operand in which nothing is ignored, and in default values nothing is ignored (C67_partial); without hints the first is all that is needed (C67_plain_partial). C50_armed_partial, C51_armed_partial, C53_armed_partial and C54_logical_partial are the consequences for merged reports. C67_gaps_iff_partial says exactly when there is no gap: if and only if branches without arms come after all others in the outline of the source (C72)."
  },
  {
   "property": "C68",
   "status": "partial",
   "theorems": [
    "Verif.C68_items_partial",
    "Verif.C68_statements_partial",
    "Verif.C68_functions_partial",
    "Verif.C68_arrows_partial",
    "Verif.C68_if_partial",
    "Verif.C68_cases_partial",
    "Verif.C68_reported",
    "Verif.C68_reported_equal",
    "Verif.C68_behind"
   ],
   "note": "Proved for statements that no hint excludes, of lists that are reached (C37), whose statements differ in kind or place, and for functions and cases that exist once in the program. C68_reported and C68_reported_equal carry the relations over to the counts of a report at any moment, including counts above 2^53. Missing: statements under hints, which are counted in places that depend on the hint (C23, C66)."
  },
  {
   "property": "C69",
   "status": "partial",
   "theorems": [
    "Verif.C69_order_partial",
    "Verif.C69_test_fails",
    "Verif.C69_pattern_fails",
    "Verif.C69_tagged_fails"
   ],
   "note": "Proved for each of the three tables and all programs in which the constructs that have entries in it are listed in the order of the source, tests of if statements have no entries in it, and no initialiser is a tagged template. It is violated otherwise: the test of an if statement is visited after its arms (C69_test_fails), an initialiser becomes a statement before the pattern or key in front of it is visited (C69_pattern_fails), and an initialiser that is a tagged template is visited twice (C69_tagged_fails)."
  },
  {
   "property": "C70",
   "status": "proved",
   "theorems": [
    "Verif.C70_arms",
    "Verif.C70_inside",
    "Verif.C70_nested"
   ],
   "note": "Proved for all programs whose nodes lie in their parents; C70_nested for all programs whose nodes do not cross. Nodes without position, and ranges that are zero because of them, are left out. The position table must be monotone, as every table of line starts is."
  },
  {
   "property": "C71",
   "status": "partial",
   "theorems": [
    "Verif.C71_arms_partial",
    "Verif.C71_order_partial",
    "Verif.C71_tagged_fails"
   ],
   "note": "Proved for all programs in which no initialiser is a tagged template: every branch is that of a construct of the source with exactly its arms in order, and arms of other branches than those of if do not overlap. Missing are initialisers that are tagged templates: they are visited twice, and C71_tagged_fails shows that the report then has branches with arms at no place of the source."
  },
  {
   "property": "C72",
   "status": "partial",
   "theorems": [
    "Verif.C72_functions_partial",
    "Verif.C72_branches_partial",
    "Verif.C72_statements_partial",
    "Verif.C72_sure_partial",
    "Verif.C72_listed_partial",
    "Verif.C72_number_partial",
    "Verif.C72_stateless_partial",
    "Verif.C72_tagged_fails",
    "Verif.C72_unsure_fails"
   ],
   "note": "Proved for all programs in which no initialiser is a tagged template: the functions and branches under each number are those of the outline, and the statements are those of the outline in this order, except that an initialiser with functions but no block in it may be missing (C72_sure_partial: exactly those of the outline if there is no such initialiser). Violated otherwise: tagged templates as initialisers are visited twice, so that a report has a branch more than its outline (C72_tagged_fails), and whether the initialiser of const f = () => 1 is listed depends on what comes before (C72_unsure_fails). C72_listed_partial says in which order the branches are listed."
  },
  {
   "property": "C73",
   "status": "partial",
   "theorems": [
    "Verif.C73_stricter",
    "Verif.C73_functions_partial",
    "Verif.C73_branches_partial",
    "Verif.C73_statements_partial",
    "Verif.C73_nearly_partial",
    "Verif.C73_sure_partial",
    "Verif.C73_totals_partial",
    "Verif.C73_added_fails"
   ],
   "note": "Proved for all programs in which no initialiser is a tagged template: functions, branches, arms and totals only become fewer, and so do statements, except that an initialiser with functions but no block in it may be added (C73_statements_partial; C73_sure_partial if there is none). Violated otherwise: C73_added_fails is a program in which a hint before a logical expression adds the initialiser of a later variable. C73_stricter: adding hints, names or reportLogic excludes more. Missing: initialisers that are tagged templates, which are visited twice. C73_nearly_partial says which initialisers of the source these are."
  },
  {
   "property": "C74",
   "status": "partial",
   "theorems": [
    "Verif.C74_branches_partial",
    "Verif.C74_functions_partial",
    "Verif.C74_statements_partial",
    "Verif.C74_nearly_partial",
    "Verif.C74_order_fails"
   ],
   "note": "Proved for all modules and scripts in which no initialiser is a tagged template: a bijection of the numbers takes the branches and functions of one report to those of the other, and likewise the statements if no initialiser has functions but no block in it. Violated otherwise: C74_order_fails is a pair of items whose report has two statements in one order and three in the other. Missing: initialisers that are tagged templates, which are visited twice, and the order of statements inside of items. In all programs without tagged templates as initialisers, everything but such initialisers is listed as often (C74_nearly_partial)."
  },
  {
   "property": "C75",
   "status": "partial",
   "theorems": [
    "Verif.C75_functions_partial",
    "Verif.C75_branches_partial",
    "Verif.C75_statements_partial",
    "Verif.C75_nearly_partial",
    "Verif.C75_initialiser_fails"
   ],
   "note": "The code violates the full statement: in a script the initialiser of if (a) var f = () => 1 is listed without braces, but not with braces (C75_initialiser_fails). Proved for all programs in which no initialiser is a tagged template: functions and branches are the same under the same numbers, and likewise statements if no initialiser has functions but no block in it. Missing besides: initialisers that are tagged templates (visited twice), and braces around statements without a visitor of their own for hints, such as debugger and the empty statement. For all programs without tagged templates as initialisers the lists of statements only differ in such initialisers (C75_nearly_partial)."
  },
  {
   "property": "C76",
   "status": "partial",
   "theorems": [
    "Verif.C76_functions_partial",
    "Verif.C76_branches_partial",
    "Verif.C76_statements_partial",
    "Verif.C76_nearly_partial"
   ],
   "note": "Proved for all programs in which no initialiser is a tagged template: functions and branches are the same under the same numbers, and likewise statements if no initialiser has functions but no block in it. Missing: initialisers that are tagged templates (visited twice) or have functions but no block in them (whether they are listed depends on what comes before). For all programs without tagged templates as initialisers the lists of statements only differ in such initialisers (C76_nearly_partial)."
  },
  {
   "property": "C77",
   "status": "partial",
   "theorems": [
    "Verif.C77_branches_partial",
    "Verif.C77_functions_partial",
    "Verif.C77_statements_partial",
    "Verif.C77_nearly_partial",
    "Verif.C77_hint_fails",
    "Verif.C77_initialiser_fails"
   ],
   "note": "The code violates the full statement: a hint before a statement without a hook for hints (an enumeration) excludes it in a function, but not at the top of a script (C77_hint_fails), and the initialiser of const f = () => 1 is listed at the top of a script, but not in a function (C77_initialiser_fails). Proved for all scripts in which hints are only before statements with such a hook or with nothing to count, no initialiser is a tagged template and, for statements, no initialiser has functions but no block in it; the parameters and arguments of the wrapper are names. For all other programs without tagged templates as initialisers the lists of statements only differ in such initialisers (C77_nearly_partial)."
  },
  {
   "property": "C78",
   "status": "partial",
   "theorems": [
    "Verif.C78_functions_partial",
    "Verif.C78_branches_partial",
    "Verif.C78_statements_partial",
    "Verif.C78_nearly_partial",
    "Verif.C78_string_fails",
    "Verif.C78_initialiser_fails"
   ],
   "note": "The code violates the full statement: a string as a statement is counted in a script only (C78_string_fails), and so is the initialiser of if (a) var f = () => 1 (C78_initialiser_fails). Proved for all files in which hints are only before statements with a hook for them or with nothing to count, strings as statements are directives, no initialiser is a tagged template and, for statements, no initialiser has functions but no block in it. For all programs without tagged templates as initialisers the lists of statements only differ in such initialisers (C78_nearly_partial)."
  },
  {
   "property": "C79",
   "status": "partial",
   "theorems": [
    "Verif.C79_functions_partial",
    "Verif.C79_branches_partial",
    "Verif.C79_statements_partial",
    "Verif.C79_nearly_partial"
   ],
   "note": "Missing: programs with tagged templates as initialisers, and, for statements, initialisers with functions but no block in them. Everything else is covered, with hints anywhere. No violation is known. For all programs without tagged templates as initialisers the lists of statements only differ in such initialisers (C79_nearly_partial)."
  },
  {
   "property": "C80",
   "status": "partial",
   "theorems": [
    "Verif.C80_functions_partial",
    "Verif.C80_branches_partial",
    "Verif.C80_statements_partial",
    "Verif.C80_nearly_partial",
    "Verif.C80_string_fails"
   ],
   "note": "The code violates the full statement for strings as items of a module (C80_string_fails). Proved for all exchanges of expressions other than single names and strings, and of operators, at any depth, in programs in which no initialiser is a tagged template and, for statements, no initialiser has functions but no block in it. For all programs without tagged templates as initialisers the lists of statements only differ in such initialisers (C80_nearly_partial)."
  },
  {
   "property": "C81",
   "status": "partial",
   "theorems": [
    "Verif.C81_functions_partial",
    "Verif.C81_branches_partial",
    "Verif.C81_statements_partial",
    "Verif.C81_nearly_partial",
    "Verif.C81_export_fails"
   ],
   "note": "Missing: programs with tagged templates as initialisers, and, for statements, initialisers with functions but no block in them. C81_export_fails shows that the exception for export const is needed. No violation is known; for async, generators, var and let C49_alike covers all programs. For all programs without tagged templates as initialisers the lists of statements only differ in such initialisers (C81_nearly_partial)."
  },
  {
   "property": "C82",
   "status": "partial",
   "theorems": [
    "Verif.C82_functions_partial",
    "Verif.C82_branches_partial",
    "Verif.C82_statements_partial",
    "Verif.C82_nearly_partial",
    "Verif.C82_hint_fails"
   ],
   "note": "Missing: programs with tagged templates as initialisers, and, for statements, initialisers with functions but no block in them. C82_hint_fails shows that the exception for hints is needed; hints inside of the expression are covered. Names are covered wherever they are not the name of a function (SparesNames). Patterns, properties and lists (of parameters, for example) are covered if there are expressions or names in both of them or in none. Generalises the exchange of plain expressions in C80; C80_string_fails is why strings are excepted. For all programs without tagged templates as initialisers the lists of statements only differ in such initialisers (C82_nearly_partial)."
  },
  {
   "property": "C83",
   "status": "partial",
   "theorems": [
    "Verif.C83_functions_partial",
    "Verif.C83_branches_partial",
    "Verif.C83_statements_partial",
    "Verif.C83_nearly_partial"
   ],
   "note": "Missing: first and last programs with tagged templates as initialisers, and, for statements, initialisers with functions but no block in them. For these the lists of statements only differ in such initialisers (C83_nearly_partial). The conditions of the single changes (StmtsInBlocks, ListsInBlocks, SparesNames, SparesExports, Bare) hold at each step by the definition of Change1. No violation is known."
  }
 ]
}