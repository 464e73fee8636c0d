{"id": "C01", "title": "Merging adds hit counts per source location", "statement": "When two coverage reports of one file are merged, the count reported for every statement, function and branch arm is the sum of the counts that the two reports gave for that source location (a location missing from one report counts as 0), provided each report lists a location at most once.", "quantifier": "all pairs of well-formed file coverage reports, all source locations", "why_tests_cant": "Reports have unbounded many locations and arbitrary overlap; a test fixes one pair.", "anchors": ["packages/istanbul-oxide/src/file_coverage.rs: FileCoverage::merge, merge_properties, merge_properties_hits_vec, key_from_loc"]}
{"id": "C02", "title": "Merging shards is independent of order and grouping", "statement": "Combining the reports of any number of test shards gives the same location-to-count table whatever the order in which the shards are merged and however they are grouped.", "quantifier": "all lists of well-formed reports and all permutations and groupings of them", "why_tests_cant": "There are n! orders for n shards; unit tests merge two literals once.", "anchors": ["packages/istanbul-oxide/src/file_coverage.rs: FileCoverage::merge", "packages/istanbul-oxide/src/coverage_map.rs: CoverageMap::merge, add_coverage_for_file"]}
{"id": "C03", "title": "A merged report is well formed and densely numbered", "statement": "Merging two well-formed reports never aborts, and yields a report whose statement, function and branch ids are exactly 0..n-1 in both the location table and the count table, so it can be merged again.", "quantifier": "all pairs of well-formed reports, any number of further merges", "why_tests_cant": "An abort needs one unlucky id set; ids are unbounded.", "anchors": ["packages/istanbul-oxide/src/file_coverage.rs: merge_properties, merge_properties_hits_vec, FileCoverage::merge"]}
{"id": "C04", "title": "Merging never turns covered code into uncovered code", "statement": "If either input report says a statement, function or branch arm was executed, the merged report says so too.", "quantifier": "all pairs of reports, including reports that list one location twice and counts near the 32-bit limit", "why_tests_cant": "The failing inputs (repeated locations in the left report, counter wrap-around) never occur in fixtures.", "anchors": ["packages/istanbul-oxide/src/file_coverage.rs: merge_properties (items.insert), merge_properties_hits_vec"]}
{"id": "C05", "title": "Truthiness counts stay attached to their branch when reports are merged", "statement": "With logic reporting enabled in both reports, after a merge the truthiness counts stored under a branch id are the sum of the truthiness counts both inputs had for the branch at that location, and no abort happens.", "quantifier": "all pairs of reports with truthiness tables, any mix of branch kinds", "why_tests_cant": "Needs mixed branch kinds and non-contiguous ids; the test suite has no merge test with a truthiness table.", "anchors": ["packages/istanbul-oxide/src/file_coverage.rs: FileCoverage::merge lines 301-315"]}
{"id": "C06", "title": "Placeholder reports never disturb real data", "statement": "Merging a placeholder report (all = true) into a real one leaves the real one unchanged, merging a real one into a placeholder yields the real one, and two placeholders give the first.", "quantifier": "all reports", "why_tests_cant": "Requires equality of whole reports for arbitrary contents.", "anchors": ["packages/istanbul-oxide/src/file_coverage.rs: FileCoverage::merge lines 260-267"]}
{"id": "C07", "title": "Distinct source ranges never share a merge bucket", "statement": "The textual key under which merge groups entries is different for different source ranges.", "quantifier": "all pairs of ranges", "why_tests_cant": "Four unbounded coordinates concatenated into one string; collisions cannot be excluded by samples.", "anchors": ["packages/istanbul-oxide/src/file_coverage.rs: key_from_loc"]}
{"id": "C08", "title": "Line coverage is the maximum of the statements starting on the line", "statement": "The line report contains exactly the lines on which some statement starts, each with the largest hit count of the statements starting there; the uncovered lines are exactly the lines all of whose statements have count 0.", "quantifier": "all reports in which every counted statement has a location", "why_tests_cant": "Any number of statements in any order may share a line.", "anchors": ["packages/istanbul-oxide/src/file_coverage.rs: get_line_coverage, get_uncovered_lines"]}
{"id": "C09", "title": "Summary totals count what they say", "statement": "In a file summary the statement, function and branch totals are the number of entries (arms for branches), covered is the number with a non-zero count, covered never exceeds total, and a location counted as covered keeps being counted so after any further hits.", "quantifier": "all reports", "why_tests_cant": "Universally quantified over table contents.", "anchors": ["packages/istanbul-oxide/src/file_coverage.rs: to_summary, compute_simple_totals, compute_branch_totals"]}
{"id": "C10", "title": "Project summary is the sum of the file summaries", "statement": "The summary of a coverage map has totals equal to the sums of the totals of its files, independently of file order, with percentages recomputed from those sums.", "quantifier": "all coverage maps, all orders of adding files", "why_tests_cant": "Unbounded number of files.", "anchors": ["packages/istanbul-oxide/src/coverage_map.rs: get_coverage_summary", "packages/istanbul-oxide/src/coverage_summary.rs: CoverageSummary::merge"]}
{"id": "C11", "title": "Percentages are truncated, bounded and exact at the ends", "statement": "For covered <= total the reported percentage lies between 0 and 100, is 100 exactly when covered = total (or total = 0), is 0 only when covered/total < 0.01%, never exceeds the true ratio rounded to single precision, and grows with covered; all this with the single-precision arithmetic the code uses.", "quantifier": "all pairs covered <= total below 2^32", "why_tests_cant": "2^64 pairs; rounding errors appear at isolated points.", "anchors": ["packages/istanbul-oxide/src/percent.rs: percent"]}
{"id": "C12", "title": "A coverage map has one report per path and additions are local", "statement": "After any sequence of additions, merges and filters a coverage map has at most one report per path, stored under its own path; adding a report changes only that path's entry and never removes a path.", "quantifier": "all sequences of operations", "why_tests_cant": "Arbitrary histories.", "anchors": ["packages/istanbul-oxide/src/coverage_map.rs: from_iter, merge, filter, add_coverage_for_file, get_coverage_for_file, get_files"]}
{"id": "C13", "title": "Resetting hits zeroes every count and nothing else", "statement": "After a reset all statement, function, branch and truthiness counts are 0, locations and shapes are unchanged, and a merge of a reset report into another leaves the other's counts unchanged.", "quantifier": "all reports", "why_tests_cant": "Universally quantified.", "anchors": ["packages/istanbul-oxide/src/file_coverage.rs: reset_hits"]}
{"id": "C14", "title": "Branch coverage by line partitions the branch arms", "statement": "The per-line branch report assigns every branch arm to exactly one line (the line of its branch), so that the sums of covered and total over all lines equal the file's branch totals; every line it mentions is the line of some branch. The share reported for a line with fewer than 2^24 arms lies between 0 and 100, is 100 exactly if all its arms are covered and 0 exactly if none is, and is a number whenever the line has an arm. Covering more arms never lowers it.", "quantifier": "all reports in which every branch has a line or location and a count entry", "why_tests_cant": "Any number of branches per line.", "anchors": ["packages/istanbul-oxide/src/file_coverage.rs: get_branch_coverage_by_line, compute_branch_totals"]}
{"id": "C15", "title": "Counter ids are fresh and dense and all tables stay in step", "statement": "Whatever sequence of registrations the instrumenter makes, each new statement, function and branch gets an id never handed out before, ids are 0,1,2,..., location tables and count tables have the same ids, every count is 0 and each branch has as many counts as arms; registering an arm on a known branch never aborts and returns the position of the new arm.", "quantifier": "all finite sequences of registration calls", "why_tests_cant": "Arbitrary interleavings.", "anchors": ["packages/swc-coverage-instrument/src/source_coverage/mod.rs: SourceCoverage::new_statement, new_function, new_branch, add_branch_path, maybe_new_branch_true, maybe_add_branch_true"]}
{"id": "C16", "title": "Freezing drops exactly the branches without arms", "statement": "Finishing a file removes a branch if and only if it has no arm, from the branch table, the count table and the truthiness table alike, and leaves all other data unchanged; the surviving branch table keeps its order.", "quantifier": "all registration histories followed by freeze", "why_tests_cant": "Depends on an order-disturbing removal primitive; tests freeze at most one empty branch.", "anchors": ["packages/swc-coverage-instrument/src/source_coverage/mod.rs: freeze"]}
{"id": "C17", "title": "No dangling counters", "statement": "Every counter increment placed in the emitted program refers to an entry that exists in the coverage data emitted with it, so executing a counter never throws.", "quantifier": "all input programs, all comment placements, all options", "why_tests_cant": "Quantifies over every program; the fixtures exercise about 150 snippets.", "anchors": ["packages/swc-coverage-instrument/src/macros/instrumentation_visitor.rs", "packages/swc-coverage-instrument/src/macros/instrumentation_counter_helper.rs", "packages/swc-coverage-instrument/src/instrument/create_increase_counter_expr.rs", "packages/swc-coverage-instrument/src/instrument/create_increase_true_expr.rs"]}
{"id": "C18", "title": "Every counter has one site", "statement": "No two places of the emitted program increment the same counter.", "quantifier": "all input programs, comments and options", "why_tests_cant": "Quantifies over every program.", "anchors": ["packages/swc-coverage-instrument/src/macros/instrumentation_visitor.rs", "packages/swc-coverage-instrument/src/source_coverage/mod.rs"]}
{"id": "C19", "title": "Every registered item is counted somewhere", "statement": "Each statement, function and branch arm listed in the emitted coverage data has an increment in the emitted program, so executable code is never reported as permanently uncovered.", "quantifier": "all input programs, comments and options", "why_tests_cant": "Quantifies over every program; the failing inputs put a tagged template in a switch head.", "anchors": ["packages/swc-coverage-instrument/src/macros/instrumentation_visitor.rs: visit_mut_switch_stmt", "packages/swc-coverage-instrument/src/visitors/switch_case_visitor.rs", "packages/swc-coverage-instrument/src/macros/instrumentation_stmt_counter_helper.rs: insert_stmts_counter"]}
{"id": "C20", "title": "Deleting the counters gives back the program", "statement": "Removing the injected counters from the emitted program restores the input program, up to wrapping of single-statement bodies in blocks, an added empty else branch and the return form of arrow bodies.", "quantifier": "all input programs, comments and options", "why_tests_cant": "Quantifies over every program; code could be dropped, duplicated or reordered in an untested combination.", "anchors": ["packages/swc-coverage-instrument/src/macros/instrumentation_visitor.rs", "packages/swc-coverage-instrument/src/macros/instrumentation_counter_helper.rs", "packages/swc-coverage-instrument/src/macros/visit_mut_for_like.rs"]}
{"id": "C21", "title": "Instrumentation preserves behaviour", "statement": "The instrumented program has the same observable execution as the original: same sequence of effects, same results, same exceptions and control transfers, for every behaviour of the environment.", "quantifier": "all programs of the modelled language, all environments, all execution lengths", "why_tests_cant": "Quantifies over programs and executions.", "anchors": ["packages/swc-coverage-instrument/src/macros/instrumentation_visitor.rs", "packages/swc-coverage-instrument/src/instrument/create_increase_counter_expr.rs"]}
{"id": "C22", "title": "Reported counts are execution counts", "statement": "After running the instrumented program the count of each function, statement and branch arm equals the number of times the original program entered that function, began that statement, or took that arm.", "quantifier": "all programs of the modelled language, all environments, all executions", "why_tests_cant": "Quantifies over programs and executions.", "anchors": ["packages/swc-coverage-instrument/src/macros/instrumentation_visitor.rs", "packages/swc-coverage-instrument/src/macros/instrumentation_counter_helper.rs"]}
{"id": "C23", "title": "An ignore-next hint removes the whole construct from coverage", "statement": "A construct carrying an 'istanbul ignore next' hint is left exactly as written, including everything nested inside it, and contributes no statement, function or branch to the coverage data.", "quantifier": "all programs, all nesting depths, all hint placements the code consults", "why_tests_cant": "Quantifies over programs nested in the hinted construct.", "anchors": ["packages/swc-coverage-instrument/src/macros/create_instrumentation_visitor.rs: on_enter_with_span", "packages/swc-coverage-instrument/src/macros/instrumentation_visitor.rs", "packages/swc-coverage-instrument/src/visitors/coverage_visitor.rs: visit_mut_module_items"]}
{"id": "C24", "title": "An ignore-if or ignore-else hint removes just that arm", "statement": "With the hint 'ignore if' the consequent of the if statement is left exactly as written and has no arm in the coverage data while the alternative is counted; symmetrically for 'ignore else'.", "quantifier": "all if statements and contents", "why_tests_cant": "Quantifies over programs.", "anchors": ["packages/swc-coverage-instrument/src/macros/instrumentation_visitor.rs: visit_mut_if_stmt"]}
{"id": "C25", "title": "Ignored and excluded files pass through untouched", "statement": "A file with an 'ignore file' comment at the start or end, or whose normalised name matches an exclude pattern, is emitted exactly as it was, with no coverage code; malformed patterns or options never change which code is produced other than by falling back to the defaults.", "quantifier": "all programs, comments, patterns and option texts", "why_tests_cant": "Quantifies over programs.", "anchors": ["packages/swc-coverage-instrument/src/utils/hint_comments.rs: should_ignore_file", "packages/swc-coverage-instrument/src/visitors/coverage_visitor.rs: visit_mut_program", "packages/swc-plugin-coverage/src/lib.rs: process, normalize_path"]}
{"id": "C26", "title": "Methods listed in ignoreClassMethods are left alone", "statement": "A class method, object method, accessor or named function expression whose name is listed in ignoreClassMethods is emitted unchanged and adds nothing to the coverage data.", "quantifier": "all programs and option lists", "why_tests_cant": "Quantifies over method bodies.", "anchors": ["packages/swc-coverage-instrument/src/macros/instrumentation_visitor.rs: visit_mut_class_method, visit_mut_method_prop, visit_mut_getter_prop, visit_mut_setter_prop, visit_mut_fn_expr"]}
{"id": "C27", "title": "Exactly the documented comments are hints", "statement": "A comment is treated as a hint if and only if it reads, after optional white space, 'istanbul', white space, 'ignore', white space, one of if / else / next (or file), followed by the end or a non-word character; the hint found is the first such comment, looking at the end position of the construct before its start position.", "quantifier": "all comment texts and comment lists", "why_tests_cant": "Infinitely many texts; the pattern is interpreted by a regular-expression engine.", "anchors": ["packages/swc-coverage-instrument/src/utils/hint_comments.rs: COMMENT_FILE_REGEX, COMMENT_RE, lookup_hint_comments, should_ignore, should_ignore_file"]}
{"id": "C28", "title": "Directive prologues survive instrumentation", "statement": "If the input program or one of its functions starts with directives such as 'use strict', the output starts with the same directives, so that strictness and similar modes do not change.", "quantifier": "all programs", "why_tests_cant": "Quantifies over programs; the corresponding fixture file is skipped in the test-suite.", "anchors": ["packages/swc-coverage-instrument/src/visitors/coverage_visitor.rs: visit_mut_module_items, visit_mut_script", "packages/swc-coverage-instrument/src/macros/instrumentation_counter_helper.rs: create_fn_instrumentation"]}
{"id": "C29", "title": "Inferred function names are preserved", "statement": "A variable whose initialiser is a function, arrow function or class keeps that expression as its direct initialiser, so that the inferred name property does not change; likewise for class fields and default values.", "quantifier": "all programs", "why_tests_cant": "Quantifies over programs and nesting positions.", "anchors": ["packages/swc-coverage-instrument/src/macros/instrumentation_counter_helper.rs: cover_statement", "packages/swc-coverage-instrument/src/visitors/finders.rs: HoistingFinder"]}
{"id": "C30", "title": "Re-evaluating an instrumented file keeps its counts, a changed file starts fresh", "statement": "Evaluating the emitted coverage function any number of times, interleaved with other files, keeps accumulated counts of the file as long as its data is the same, installs zeroed data when the stored data has another hash, and never touches the data of other paths.", "quantifier": "all histories of module evaluations and counter increments over any set of files", "why_tests_cant": "Arbitrary interleavings of module reloads.", "anchors": ["packages/swc-coverage-instrument/src/coverage_template/create_coverage_fn_decl.rs: create_coverage_fn_decl"]}
{"id": "C31", "title": "The emitted coverage object denotes the collected data", "statement": "Reading the emitted object literal back as a JavaScript object yields exactly the coverage data that was collected (path, locations, names, kinds, counts, source map), together with schema key and hash.", "quantifier": "all coverage data", "why_tests_cant": "Arbitrary table contents.", "anchors": ["packages/swc-coverage-instrument/src/coverage_template/create_coverage_data_object.rs: create_coverage_data_object"]}
{"id": "C32", "title": "Different files use different coverage functions", "statement": "In one process, files with different names get coverage functions with different names (up to hash collisions), so that two instrumented scripts can share a global scope.", "quantifier": "all sequences of files instrumented in one process", "why_tests_cant": "Depends on process-global state and history.", "anchors": ["packages/swc-coverage-instrument/src/coverage_template/create_coverage_fn_decl.rs: create_coverage_fn_ident", "packages/swc-coverage-instrument/src/macros/instrumentation_visitor.rs: new"]}
{"id": "C33", "title": "A counter expression increments one cell by one; a truthiness wrapper is transparent", "statement": "Evaluating an injected counter adds one to exactly its cell and changes nothing else; evaluating an injected truthiness wrapper evaluates the wrapped operand exactly once, yields its value, and adds one to its cell exactly when the value is truthy, not an empty array and not an empty plain object.", "quantifier": "all runtime states and operand values", "why_tests_cant": "Quantifies over states and values.", "anchors": ["packages/swc-coverage-instrument/src/instrument/create_increase_counter_expr.rs", "packages/swc-coverage-instrument/src/instrument/create_increase_true_expr.rs: create_increase_true_expr, validate_true_non_trivial"]}
{"id": "C34", "title": "Each source construct is registered at most once", "statement": "No statement, function or branch of the source gets two entries of the same kind in the coverage data.", "quantifier": "all programs", "why_tests_cant": "Quantifies over programs; the failing inputs are initialisers that are tagged templates.", "anchors": ["packages/swc-coverage-instrument/src/macros/instrumentation_counter_helper.rs: cover_statement", "packages/swc-coverage-instrument/src/macros/instrumentation_visitor.rs: visit_mut_tagged_tpl, visit_mut_var_declarator, visit_mut_class_prop"]}
{"id": "C35", "title": "Reported locations are locations of the source", "statement": "Every location in the emitted coverage data is the range of a node of the input program (or the zero range for nodes without position), and branch arms, functions and statements carry the range of the construct they count.", "quantifier": "all programs", "why_tests_cant": "Quantifies over programs.", "anchors": ["packages/swc-coverage-instrument/src/utils/lookup_range.rs: get_range_from_span", "packages/swc-coverage-instrument/src/macros/instrumentation_visitor.rs"]}
{"id": "C36", "title": "The instrumenter always finishes and aborts only on body-less functions", "statement": "For every input program in which every function has a body, instrumentation terminates with an output program and never aborts.", "quantifier": "all programs, comments and options", "why_tests_cant": "Termination and absence of panics cannot be tested exhaustively.", "anchors": ["packages/swc-coverage-instrument/src/macros/instrumentation_counter_helper.rs: create_fn_instrumentation, cover_statement", "packages/swc-coverage-instrument/src/source_coverage/mod.rs: add_branch_path"]}
{"id": "C37", "title": "Every statement that can execute gets a counter", "statement": "Each non-ignored executable statement (expression, return, throw, break, continue, if, loop, switch, try, with, labelled) and each variable initialiser in a statement list is immediately preceded by, or wraps, a statement counter whose location is its own range.", "quantifier": "all programs", "why_tests_cant": "Quantifies over programs; initialisers containing functions inside function bodies are the missed case.", "anchors": ["packages/swc-coverage-instrument/src/macros/instrumentation_visitor.rs", "packages/swc-coverage-instrument/src/macros/instrumentation_counter_helper.rs: cover_statement"]}
{"id": "C38", "title": "Every function with a body gets a function counter", "statement": "Each non-ignored function-like construct of the source (declaration, expression, arrow, method, accessor, constructor) is registered and increments its counter first thing on entry.", "quantifier": "all programs", "why_tests_cant": "Quantifies over programs; string-named and computed methods, constructors and private methods are the missed cases.", "anchors": ["packages/swc-coverage-instrument/src/macros/instrumentation_visitor.rs: visit_mut_class_method", "packages/swc-coverage-instrument/src/macros/instrumentation_counter_helper.rs: create_fn_instrumentation"]}
{"id": "C39", "title": "Every branch of the source is counted arm by arm", "statement": "Each non-ignored if statement, conditional expression, switch case, default value and operand of a logical operator (&&, ||, ??) has an arm in a branch entry of the right type and range, and the emitted code increments that arm's counter when it is taken.", "quantifier": "all programs, all placements of ignore hints, with and without truthiness reporting", "why_tests_cant": "Quantifies over programs; operands nested under inner logical operators and default values of arrow parameters are the missed cases.", "anchors": ["packages/swc-coverage-instrument/src/macros/instrumentation_visitor.rs: visit_mut_if_stmt, visit_mut_cond_expr, visit_mut_switch_stmt, visit_mut_assign_pat, visit_mut_bin_expr", "packages/swc-coverage-instrument/src/visitors/logical_expr_visitor.rs", "packages/swc-coverage-instrument/src/visitors/switch_case_visitor.rs"]}
{"id": "C40", "title": "Functions are reported under their own names", "statement": "Every entry of the function table carries the name that the source gives to the function whose body the entry locates (identifier, or plain method or accessor name); functions without such a name are reported as 'anonymous' or '(anonymous_N)' with their own number.", "quantifier": "all programs, comments and options", "why_tests_cant": "Quantifies over programs; names could be taken from another function or from injected code.", "anchors": ["packages/swc-coverage-instrument/src/macros/instrumentation_counter_helper.rs: create_fn_instrumentation", "packages/swc-coverage-instrument/src/macros/instrumentation_visitor.rs", "packages/swc-coverage-instrument/src/source_coverage/mod.rs: new_function"]}
{"id": "C41", "title": "Saving and loading coverage data is lossless", "statement": "Serialising coverage data to JSON text and deserialising the text yields the same coverage data, with all tables in the same order; whatever is deserialised has no key twice and can be saved and loaded again without change.", "quantifier": "all coverage data, all texts", "why_tests_cant": "Arbitrary tables, names with arbitrary characters (quotes, control characters, any Unicode), every combination of absent optional parts.", "anchors": ["packages/istanbul-oxide/src/file_coverage.rs: FileCoverage", "packages/istanbul-oxide/src/types.rs: Function, Branch, BranchType", "packages/istanbul-oxide/src/source_map.rs: SourceMap"]}
{"id": "C42", "title": "The emitted hash stands for the data", "statement": "Two sets of coverage data get the same hash if and only if they are equal, up to collisions of the hash function on their texts; so evaluating a changed version of a file resets its counts exactly if its coverage data changed.", "quantifier": "all pairs of coverage data, all histories", "why_tests_cant": "Quantifies over all pairs of data; a field left out of the hashed text would show only for data that differ in it alone.", "anchors": ["packages/swc-coverage-instrument/src/coverage_template/create_coverage_data_object.rs: create_coverage_data_object", "packages/swc-coverage-instrument/src/coverage_template/create_coverage_fn_decl.rs: create_coverage_fn_decl"]}
{"id": "C43", "title": "Counts of a running program arrive in istanbul-oxide", "statement": "At any moment of the life of a realm in which instrumented files run, writing the coverage object (or the entry of a file) with JSON.stringify succeeds, and loading the text as FileCoverage gives the data that was counted, up to the order of the tables: the report of the instrumenter with every hit of every instance of the file added.", "quantifier": "all instrumented programs, all lives of a realm (loads, hits, wrappers, interleaved user code)", "why_tests_cant": "Quantifies over all executions and everything that can be left in the data objects; tests write and load a few fixtures.", "anchors": ["spec/swc-coverage-instrument-wasm/src/lib.rs: FileCoverageInterop::new", "packages/istanbul-oxide/src/file_coverage.rs: FileCoverage", "packages/swc-coverage-instrument/src/coverage_template/create_coverage_data_object.rs: create_coverage_data_object", "packages/swc-coverage-instrument/src/instrument/create_increase_true_expr.rs: create_increase_true_expr"]}
{"id": "C44", "title": "Files are processed independently of each other", "statement": "What the plugin makes of a file depends on the file, its comments, its name and its options only, not on the files processed before in the same process.", "quantifier": "all programs, all options, all histories of a process", "why_tests_cant": "Depends on process-global state and history; every test starts from a fresh or accidental state.", "anchors": ["packages/swc-plugin-coverage/src/lib.rs: process, initialize_instrumentation_log", "packages/swc-coverage-instrument/src/coverage_template/create_coverage_fn_decl.rs: COVERAGE_FN_IDENT"]}
{"id": "C45", "title": "From source to report: loaded counts are execution counts of the source", "statement": "Instrument a program, let the result run in a realm any number of times (also beside other files), write its coverage data with JSON.stringify and load the text with istanbul-oxide: the report has the tables of the instrumenter, the ranges of the source constructs, and the count of a statement, function body, branch arm or truthy operand is the number of times the construct was executed (entered, evaluated with a solid value), summed over all executions. Conversely every set of executions of the source program can be reported in this way.", "quantifier": "all programs, all executions, all lives of a realm in which these executions happen", "why_tests_cant": "Ranges over all programs and executions and spans every stage at once; tests compare single fixtures at single stages.", "anchors": ["packages/swc-coverage-instrument/src/visitors/coverage_visitor.rs: CoverageVisitor", "packages/swc-coverage-instrument/src/coverage_template/create_coverage_fn_decl.rs: create_coverage_fn_decl", "packages/istanbul-oxide/src/file_coverage.rs: FileCoverage"]}
{"id": "C46", "title": "The options take effect as they are spelled", "statement": "The options of the plugin are read from a JSON object by the names of its members, in any order, with the documented defaults for members that are missing and no influence of other members; options that are serialised are read back unchanged. A file that is not excluded is instrumented with the truthiness reporting, ignored class methods and input source map of its options; its report carries its file name and source map and has truthiness counts if and only if reportLogic is set, and its data is kept under the coverage variable of the options.", "quantifier": "all option objects, all programs, all file names, all processes", "why_tests_cant": "Options combine freely with each other and with all programs; tests use a handful of settings.", "anchors": ["packages/swc-coverage-instrument/src/options/instrument_options.rs: InstrumentOptions", "packages/swc-plugin-coverage/src/lib.rs: process"]}
{"id": "C47", "title": "The debug comment carries the initial coverage data", "statement": "If and only if debugInitialCoverageComment is set and the file is not ignored, a block comment is attached; the emitted comment has the text that was attached, ends where the attached text ends, and the reader of the test-suite gets from the emitted code the initial coverage data of the file.", "quantifier": "all programs, all options, all file names and source maps, all surrounding text", "why_tests_cant": "It fails only for texts that contain the end of a comment or the marker, in names, paths or source maps.", "anchors": ["packages/swc-coverage-instrument/src/coverage_template/create_coverage_fn_decl.rs: create_coverage_fn_decl (attach_debug_comment)", "spec/util/verifier.ts: lastFileCoverage"]}
{"id": "C48", "title": "reportLogic adds truthiness counts and nothing else", "statement": "Setting reportLogic leaves the statements, functions, branches and arms of a file's report as they are, under the same keys and with the same ranges; the emitted code differs only in the truthiness wrapper that takes the place of an operand's plain counter.", "quantifier": "all programs, all comments, all other options", "why_tests_cant": "Tests compare the two settings on a few expressions; the differences arise where operands contain code of their own.", "anchors": ["packages/swc-coverage-instrument/src/macros/instrumentation_visitor.rs: visit_mut_bin_expr", "packages/swc-coverage-instrument/src/macros/instrumentation_counter_helper.rs: wrap_bin_expr_with_branch_counter", "packages/swc-coverage-instrument/src/source_coverage/mod.rs: maybe_new_branch_true"]}
{"id": "C49", "title": "Layout, names, constants and ordinary comments do not matter", "statement": "Two programs of the same form, which differ in the positions of their parts, in names, literals, non-logical operators, async and generator marks and in var and let, and whose parts carry the same hints, are instrumented alike: one succeeds if and only if the other does, the emitted programs have the same form with the same counters in the same places, and the reports have the same keys, kinds and counts, with ranges and names that correspond. In particular, a program that is laid out otherwise has the same output laid out otherwise, and comments that are none of the documented hints have no influence on output and report.", "quantifier": "all pairs of programs of the same form, all positions, names, texts and comments", "why_tests_cant": "It relates pairs of programs; tests look at one program at a time.", "anchors": ["packages/swc-coverage-instrument/src/macros/instrumentation_visitor.rs", "packages/swc-coverage-instrument/src/utils/hint_comments.rs: lookup_hint_comments, should_ignore_file", "packages/swc-coverage-instrument/src/visitors/coverage_visitor.rs"]}
{"id": "C50", "title": "Merged reports of several runs count all executions", "statement": "If a file is instrumented once, run in several processes, and the report of each run is loaded and put into a coverage map together with reports on other files, in any order, then the map's report for the file lists exactly the statements, functions and branches that the instrumenter listed, each once, and the count of each is the number of times that it was executed in all runs together: a statement's count is how often it was begun, a function's how often its body was entered, an arm's how often it was taken.", "quantifier": "all programs, any number of runs and executions, all orders and groupings of the merge, all other files", "why_tests_cant": "The merge is tested on hand-written reports; the relation between merged counts and executions of the source goes through the visitor, the emitted code, the run time, the loading and the merge, for any number of runs.", "anchors": ["packages/istanbul-oxide/src/file_coverage.rs: merge, merge_prop", "packages/istanbul-oxide/src/coverage_map.rs: from_iter, add_coverage_for_file, get_coverage_for_file", "packages/swc-coverage-instrument/src/macros/instrumentation_visitor.rs", "packages/swc-coverage-instrument/src/coverage_template/create_coverage_fn_decl.rs"]}
{"id": "C51", "title": "A summary counts what was executed in some run", "statement": "The summary of the merged report of several runs of a file has as totals the numbers of statements, functions, arms and lines with statements that the instrumenter listed, and as covered the numbers of those that were executed in at least one run. In particular all statements, functions or arms are reported as covered if and only if each was executed in some run.", "quantifier": "all programs, any number of runs and executions, all orders of the merge", "why_tests_cant": "Tests check summaries of hand-written reports; whether the summary is right about the source depends on every stage from the visitor to the merge.", "anchors": ["packages/istanbul-oxide/src/file_coverage.rs: to_summary, compute_simple_totals, compute_branch_totals, get_line_coverage", "packages/istanbul-oxide/src/file_coverage.rs: merge", "packages/swc-coverage-instrument/src/macros/instrumentation_visitor.rs"]}
{"id": "C52", "title": "The source map is asked only about code that has a position", "statement": "Instrumentation looks up no other positions in the source map than the ends of parts of the input program that have positions at both ends: two source maps that agree on these give the same output and the same report. So code without a position, such as code generated by earlier transforms, for which a lookup would abort, is reported with the zero range instead.", "quantifier": "all programs, all pairs of source maps", "why_tests_cant": "It is a statement about what is not looked up, in any visit function; tests have source maps that answer.", "anchors": ["packages/swc-coverage-instrument/src/utils/lookup_range.rs: get_range_from_span", "packages/swc-coverage-instrument/src/macros/instrumentation_visitor.rs"]}
{"id": "C53", "title": "Line reports are right about what was executed", "statement": "For the merged report of several runs of a file, the line report gives for each line on which a listed statement starts the largest number of executions of such a statement in all runs together; the lines called uncovered are exactly those with listed statements none of which was executed in any run; and the branch report by line gives for each line on which a branch starts the number of its arms and how many of them were taken in some run.", "quantifier": "all programs, any number of runs and executions, all orders of the merge", "why_tests_cant": "Tests check line reports of hand-written coverage data, without the program that the lines belong to.", "anchors": ["packages/istanbul-oxide/src/file_coverage.rs: get_line_coverage, get_uncovered_lines, get_branch_coverage_by_line", "packages/istanbul-oxide/src/file_coverage.rs: merge", "packages/swc-coverage-instrument/src/macros/instrumentation_visitor.rs"]}
{"id": "C54", "title": "Merged reports have the truthiness counts of all runs", "statement": "With report_logic, the coverage map that is built from the reports of several runs of a file gives for each operand of a logical expression the number of times that it was evaluated to a truthy, non-empty value in all runs together, attached to the branch of that logical expression, and its summary says how many operands gave such a value in some run.", "quantifier": "all programs, any number of runs and executions, all orders of the merge", "why_tests_cant": "The merge renumbers truthiness counts separately from branches; tests merge hand-written tables in which both numberings agree.", "anchors": ["packages/istanbul-oxide/src/file_coverage.rs: merge, key_from_loc", "packages/istanbul-oxide/src/file_coverage.rs: compute_branch_totals", "packages/swc-coverage-instrument/src/source_coverage/mod.rs: new_branch, add_branch_path", "packages/swc-coverage-instrument/src/macros/instrumentation_visitor.rs"]}
{"id": "C55", "title": "Coverage data can be read off the text of an instrumented program", "statement": "Reading the initial coverage of an instrumented program without running it returns the path, the hash, the name of the global variable and exactly the data that instrumentation collected, whatever precedes and follows the emitted code; for a program that is not instrumented nothing is returned.", "quantifier": "all programs, coverage data and source maps, all surrounding code", "why_tests_cant": "The reader itself is what the tests use to obtain expected values; an element it drops is missing on both sides of a comparison.", "anchors": ["spec/util/read-coverage.ts: readInitialCoverage, CoverageReadVisitor", "packages/swc-coverage-instrument/src/coverage_template/create_coverage_data_object.rs", "packages/swc-coverage-instrument/src/coverage_template/create_coverage_fn_decl.rs"]}
{"id": "C56", "title": "Reports and instrumented programs are not much larger than the program", "statement": "The number of entries of the report and the number of nodes of the emitted program are at most a constant times the number of nodes of the input program.", "quantifier": "all input programs, comments and options", "why_tests_cant": "Growth shows only on families of programs of unbounded size; a factor that doubles with the nesting depth looks harmless in examples with one level.", "anchors": ["packages/swc-coverage-instrument/src/macros/instrumentation_counter_helper.rs: cover_statement", "packages/swc-coverage-instrument/src/macros/instrumentation_visitor.rs: visit_mut_var_declarator, visit_mut_class_prop, visit_mut_tagged_tpl"]}
{"id": "C57", "title": "Ids and positions of a report fit in 32 bits", "statement": "For every program of less than 2^30 nodes, no id handed out during instrumentation and no number in the report is 2^32 or more, so the 32 bit counters of the implementation do not overflow.", "quantifier": "all input programs of less than 2^30 nodes, comments and options", "why_tests_cant": "An overflow needs a report with 2^32 entries.", "anchors": ["packages/swc-coverage-instrument/src/source_coverage/mod.rs: new_statement, new_function, new_branch", "packages/istanbul-oxide/src/types.rs"]}
{"id": "C58", "title": "The native transform and the plugin do the same", "statement": "Given the same program, comments, source map, file name and options, the native transform (spec/swc-coverage-custom-transform) and the plugin emit the same program with the same coverage data and names, and one fails if and only if the other panics.", "quantifier": "all programs, file names, option texts and process states", "why_tests_cant": "The test suite runs one or the other with a handful of options; agreement is about all option texts and file names.", "anchors": ["spec/swc-coverage-custom-transform/src/lib.rs: transform_sync", "spec/swc-coverage-custom-transform/src/util.rs: get_deserialized, try_with", "packages/swc-plugin-coverage/src/lib.rs: process"]}
{"id": "C59", "title": "Reports and options are read however their JSON is laid out", "statement": "A text is accepted by the JSON reader if and only if it is a text of the JSON grammar (RFC 8259) with arrays and objects nested at most 127 deep, and it is read as the one value it stands for. A report is loaded (and options are taken) from exactly the texts of an object that has the members of the fields, each once, in any order, with any white space and any escapes, optional ones possibly missing or null, and possibly other members; of two entries of a table with the same key the last one counts. What is written has no white space and escapes only quotes, backslashes and control characters.", "quantifier": "all texts, all values, all reports, all options", "why_tests_cant": "The tests read a few fixed texts; the grammar has infinitely many texts for each value and infinitely many texts that are to be refused.", "anchors": ["packages/istanbul-oxide/src/file_coverage.rs: FileCoverage", "packages/istanbul-oxide/src/types.rs: Function, Branch, BranchType", "packages/istanbul-oxide/src/source_map.rs: SourceMap", "packages/swc-plugin-coverage/src/lib.rs: process (serde_json::from_str)", "packages/swc-coverage-instrument/src/options/instrument_options.rs"]}
{"id": "C60", "title": "Debug builds merge exactly or panic", "statement": "In a debug build, where adding 32 bit counts panics on overflow, merging two reports or building a coverage map ends with exactly the result of exact arithmetic if no sum on the way has more than 32 bits, and panics with an overflow otherwise; all other panics are those of exact arithmetic. So whenever a debug build gives a map of the reports of some runs, its counts are the numbers of executions in all runs together, however many there were, and a release build gives the same map.", "quantifier": "all reports with 32 bit counts, all lists of reports, all runs", "why_tests_cant": "Tests merge small counts; nothing is said about sums near 2^32, and about which of the many additions of a merge may overflow.", "anchors": ["packages/istanbul-oxide/src/file_coverage.rs: merge, merge_properties, merge_properties_hits_vec", "packages/istanbul-oxide/src/coverage_map.rs: from_iter, add_coverage_for_file"]}
{"id": "C61", "title": "Namespaces count like other code", "statement": "The statements in a TypeScript namespace are counted like those outside: in the report of the file every statement is there, with the number of its executions. (The code does this only where a file has no namespace, for which the instrumentation is the one of the other properties, or nothing to be counted comes after it: the body of a namespace gets a coverage function of its own, with the data collected so far, and of two coverage functions of a file with different hashes the one called later takes the place of the other, whatever either has counted.)", "quantifier": "all programs, all reports of one file with different hashes, all histories of hits", "why_tests_cant": "No fixture has a namespace; a test would have to run the output and compare counts of statements before, in and after it.", "anchors": ["packages/swc-coverage-instrument/src/visitors/coverage_visitor.rs: visit_mut_module_items, get_coverage_templates", "packages/swc-coverage-instrument/src/coverage_template/create_coverage_fn_decl.rs"]}
{"id": "C62", "title": "Appended code changes nothing before it", "statement": "Appending items to a file leaves the instrumented items that come before as they are, and leaves their entries in the report as they are: the statements, functions and branches of the longer file begin with those of the shorter one, with the same ids, locations, names and counters; what is added has greater ids. If the longer file can be instrumented without a panic, so can the shorter one.", "quantifier": "all programs (modules with at least one item, and scripts), all appended items, all options, comments and source maps", "why_tests_cant": "It compares the outputs of two runs on related inputs for every program and every continuation; snapshots look at one output at a time.", "anchors": ["packages/swc-coverage-instrument/src/visitors/coverage_visitor.rs: visit_mut_module_items, visit_mut_script", "packages/swc-coverage-instrument/src/source_coverage/mod.rs: new_statement, new_function, new_branch, add_branch_path", "packages/swc-coverage-instrument/src/visitors/logical_expr_visitor.rs: branch ids are handed to the arms of the same expression only"]}
{"id": "C63", "title": "Code put before other code only moves the ids of what follows", "statement": "If items are put before the items of a file, the report of the longer file is the report of the items put before, followed by the report of the original file in which the ids of statements, functions and branches are moved up by the number of those before; locations, names, branch types, arms and counters stay (functions without a name are named after the new id). The instrumented items are those of the first part followed by those of the original file with the ids in the counters moved in the same way.", "quantifier": "all files that are not ignored as a whole, cut into two lists of items in any way, modules and scripts, all options, comments and source maps", "why_tests_cant": "It compares the outputs of three runs for every program and every cut; a snapshot shows one output. The violations need a particular kind of statement (an exposed logical expression) before a particular other kind (a declaration that is hoisted).", "anchors": ["packages/swc-coverage-instrument/src/visitors/coverage_visitor.rs: visit_mut_module_items, visit_mut_script", "packages/swc-coverage-instrument/src/macros/instrumentation_visitor.rs: visit_mut_bin_expr pushes a node that is not popped for logical expressions", "packages/swc-coverage-instrument/src/macros/instrumentation_counter_helper.rs: cover_statement looks at the node stack"]}
{"id": "C64", "title": "JavaScript sees the counts of the program through the wasm interface", "statement": "For the coverage object that an instrumented program leaves behind, with or without its schema marker and hash, the constructor of the wasm interface succeeds; s(), f(), b() and bT() are Maps from number ids to the counts that the program made (bT() is undefined without truthiness counts), in the order of the object; getLineCoverage() gives for exactly the lines on which a statement starts the largest count of such a statement; inputSourceMap() is the source map that the instrumenter was given; the magic constants are those that mark the data in emitted programs. The constructor throws exactly for values whose JSON text is not a report.", "quantifier": "all JavaScript values that are handed in (as what JSON.stringify writes for them), all reports, all programs, options and executions", "why_tests_cant": "The harness of the repository compares all its expectations with what this interface says, so a fault of the interface is a fault of the yardstick; expectations are written for literal reports, while the claim relates every object to every view of it. The violation needs a source map with a source without content.", "anchors": ["spec/swc-coverage-instrument-wasm/src/lib.rs: FileCoverageInterop, get_coverage_magic_constants", "spec/util/verifier.ts: verify, getFileCoverage", "packages/istanbul-oxide/src/source_map.rs: SourceMap"]}
{"id": "C65", "title": "Ignored code has no influence on what is reported about the rest", "statement": "Two files that differ only inside constructs with an 'istanbul ignore next' hint have the same report, and their instrumented programs differ only inside these constructs. So ignored code can be edited freely without any statement, function or branch of the rest appearing, vanishing or changing its id.", "quantifier": "all pairs of programs that are the same except inside hinted constructs, all options, comments and source maps", "why_tests_cant": "It compares two runs for every pair of programs; a snapshot shows one. The violations need ignored code at particular places (inside of an operand, inside of an initialiser) with particular contents, and what changes is the report on the code around it.", "anchors": ["packages/swc-coverage-instrument/src/macros/instrumentation_visitor.rs: the checks of IgnoreScope::Next", "packages/swc-coverage-instrument/src/macros/instrumentation_counter_helper.rs: wrap_bin_expr_with_branch_counter, cover_statement look for nodes inside of a tree", "packages/swc-coverage-instrument/src/visitors/finders.rs: BlockStmtFinder, LogicalExprLeafFinder", "packages/swc-coverage-instrument/src/macros/instrumentation_stmt_counter_helper.rs: insert_stmts_counter"]}
{"id": "C66", "title": "An ignored statement counts like one that is not there", "statement": "A file with statements that carry an 'istanbul ignore next' hint, as items of the file or in blocks and cases at any depth, has the same coverage data as the file without these statements: the same statements, functions and branches with the same ids and locations. The instrumented files differ in nothing but these statements, which are emitted as they were written (and in the place of the coverage function of a module, which comes after its first item).", "quantifier": "all pairs of programs that differ in ignored statements (and inside of ignored constructs), all options, comments and source maps", "why_tests_cant": "A statement can be deleted at any place of any program, and what is visited later depends on the state that earlier visits leave behind; tests look at a few hinted statements and at the entries of these, not at the entries of all the rest with and without them.", "anchors": ["packages/swc-coverage-instrument/src/macros/instrumentation_visitor.rs: the checks of IgnoreScope::Next", "packages/swc-coverage-instrument/src/macros/instrumentation_stmt_counter_helper.rs: insert_stmts_counter", "packages/swc-coverage-instrument/src/visitors/coverage_visitor.rs: visit_mut_module_items, visit_mut_script"]}
{"id": "C67", "title": "The ids of a report have no gaps", "statement": "The statements, the functions and the branches of the report of an instrumented file are numbered 0, 1, 2, ... without gaps and in this order, in the location tables and in the count tables alike. (The code that merges reports numbers entries anew and looks up truthiness counts of branches by the old number; it goes wrong, or aborts, if there are gaps.)", "quantifier": "all programs, all options, comments and source maps", "why_tests_cant": "Whether a branch that is registered ever gets an arm depends on hints and on the contents of operands at any depth, and on the mode in which nested expressions are visited; a branch without arms vanishes when the report is finished, and its number with it. Tests see reports of a few programs.", "anchors": ["packages/swc-coverage-instrument/src/source_coverage/mod.rs:170-187 freeze drops branches without locations", "packages/swc-coverage-instrument/src/macros/instrumentation_counter_helper.rs: wrap_bin_expr_with_branch_counter returns early on IgnoreScope::Next", "packages/swc-coverage-instrument/src/macros/instrumentation_visitor.rs: visit_mut_switch_stmt, visit_mut_assign_pat, visit_mut_bin_expr, visit_mut_cond_expr"]}
{"id": "C68", "title": "The counts of a report fit together", "statement": "At every moment while an instrumented program runs, and in the report that is read at that moment: of two statements of the same list the later one never has a higher count than the earlier one, and a statement of the body of a function, of an arm of an if statement or of a case never has a higher count than the function, the arm or the case. When the run is over, the first statement of such a body, arm or case has exactly the count of the function, the arm or the case.", "quantifier": "all programs, all executions (finished, aborted or cut off, whatever is thrown), all options, comments and source maps", "why_tests_cant": "Tests compare the counts of a few runs of a few programs. The relation between the counters holds for every run, at every moment of it, and depends on where counters are put relative to everything else that is injected into a list.", "anchors": ["packages/swc-coverage-instrument/src/macros/instrumentation_stmt_counter_helper.rs: insert_stmts_counter", "packages/swc-coverage-instrument/src/macros/instrumentation_counter_helper.rs: mark_prepend_stmt_counter, create_fn_instrumentation", "packages/swc-coverage-instrument/src/macros/instrumentation_visitor.rs: visit_mut_if_stmt, visit_mut_switch_stmt, visit_mut_arrow_expr", "packages/swc-coverage-instrument/src/visitors/switch_case_visitor.rs: visit_mut_switch_case"]}
{"id": "C69", "title": "Ids follow the order of the source", "statement": "Of two statements, two functions or two branches of a report the one with the smaller id does not start later in the source. It is violated for entries inside the test of an if statement, inside a pattern or computed key in front of an initialiser, and inside an initialiser that is a tagged template.", "quantifier": "all programs whose positions ascend, all options, comments and source maps", "why_tests_cant": "Tests compare the ids of a few programs with those of a previous run. That no construct and no combination of constructs is visited out of order, and which ones are, can only be said of all of them.", "anchors": ["packages/swc-coverage-instrument/src/macros/instrumentation_visitor.rs: visit_mut_if_stmt, visit_mut_var_declarator, visit_mut_class_prop, visit_mut_fn_decl, visit_mut_method_prop", "packages/swc-coverage-instrument/src/macros/instrumentation_counter_helper.rs: mark_prepend_stmt_counter, cover_statement, create_fn_instrumentation", "packages/swc-coverage-instrument/src/source_coverage/mod.rs: new_statement, new_function, new_branch"]}
{"id": "C70", "title": "The regions of a report are nested like the source", "statement": "In a program whose nodes lie in their parents, the arms of every branch of the report lie in the range of the branch, all ranges of the report lie in the range of the program, and, if the nodes of the program never cross, of any two ranges of the report one lies in the other or they have no more than an end in common. Ranges of nodes without position are left out.", "quantifier": "all programs whose nodes lie in their parents (and, for the last part, do not cross), all options, comments, source maps and monotone position tables", "why_tests_cant": "Reporters highlight ranges and rely on arms being parts of their branch. An arm that is added to the wrong branch, by a visitor that carries the id of an outer or inner construct along, shows up only in particular nestings of switch, if, conditional, logical and default-value constructs, of which there are infinitely many.", "anchors": ["packages/swc-coverage-instrument/src/source_coverage/mod.rs: new_branch, add_branch_path", "packages/swc-coverage-instrument/src/macros/instrumentation_visitor.rs: visit_mut_if_stmt, visit_mut_cond_expr, visit_mut_switch_stmt, visit_mut_bin_expr, visit_mut_assign_pat", "packages/swc-coverage-instrument/src/visitors/switch_case_visitor.rs: visit_mut_switch_case", "packages/swc-coverage-instrument/src/visitors/logical_expr_visitor.rs: visit_mut_bin_expr", "packages/swc-coverage-instrument/src/macros/instrumentation_counter_helper.rs: replace_expr_with_branch_counter, wrap_bin_expr_with_branch_counter"]}
{"id": "C71", "title": "A branch of the report has exactly the arms of its construct, in source order", "statement": "Every branch of the emitted report belongs to one construct of the source. Its arms are those of the construct that no hint excludes, no more and no fewer, in their order: the statement once for each counted arm of an if, the two values of a conditional expression, the cases of a switch, the operands of a default value or of a logical expression. Arms of the same branch therefore do not overlap (except for if).", "quantifier": "all programs, hints and options", "why_tests_cant": "Arms are added by mutable visitors while arbitrarily nested constructs register branches of their own; an arm added to the wrong branch, twice, or in another order shows up only for particular nestings, and no test compares all arms with the syntax tree.", "anchors": ["packages/swc-coverage-instrument/src/source_coverage/mod.rs: new_branch, add_branch_path", "packages/swc-coverage-instrument/src/macros/instrumentation_visitor.rs: visit_mut_if_stmt, visit_mut_cond_expr, visit_mut_switch_stmt, visit_mut_bin_expr, visit_mut_assign_pat", "packages/swc-coverage-instrument/src/visitors/switch_case_visitor.rs: visit_mut_switch_case", "packages/swc-coverage-instrument/src/visitors/logical_expr_visitor.rs: visit_mut_bin_expr", "packages/swc-coverage-instrument/src/macros/instrumentation_counter_helper.rs: replace_expr_with_branch_counter, wrap_bin_expr_with_branch_counter"]}
{"id": "C72", "title": "The statements, functions and branches of the report, with their numbers, are those of an outline of the source", "statement": "Which statements, functions and branches a report lists, under which numbers, with which names, ranges and arms, is determined by the syntax tree and the hints alone: there is a simple recursive outline of the tree (a construct's own entry, followed by those of its parts in a fixed order, leaving out what hints and names exclude) such that entry number k of the report is the k-th of the outline. Nothing is missing, listed twice, invented or out of order; a function without a name is called after its number; only branches all of whose arms are excluded are not listed.", "quantifier": "all programs, hints and options", "why_tests_cant": "Numbers come from mutable counters shared by several visitors that hand over to each other, save and restore scopes and skip parts; a construct that one visitor passes over or visits twice changes all later numbers, and only for particular nestings of constructs and hints.", "anchors": ["packages/swc-coverage-instrument/src/source_coverage/mod.rs: new_function, new_branch", "packages/swc-coverage-instrument/src/macros/instrumentation_visitor.rs: all visit_mut methods", "packages/swc-coverage-instrument/src/macros/instrumentation_counter_helper.rs: create_fn_instrumentation, cover_statement", "packages/swc-coverage-instrument/src/macros/instrumentation_visitor.rs: visit_mut_class_method, visit_mut_fn_decl", "packages/swc-coverage-instrument/src/visitors/coverage_visitor.rs: visit_mut_module_items, visit_mut_script", "packages/swc-coverage-instrument/src/visitors/switch_case_visitor.rs: visit_mut_switch_case", "packages/swc-coverage-instrument/src/visitors/logical_expr_visitor.rs: visit_mut_bin_expr"]}
{"id": "C73", "title": "Excluding more never reports more", "statement": "If hints to ignore what comes next are added to a program, or names to ignoreClassMethods, the new report lists nothing that the old one did not: each of its statements, functions and branches is one of the old report, with the same ranges, type and name (unless it is called after its number), in the same order, and a branch has some of the arms it had. Hence no total of a summary grows. (The code violates this for statements: ignoring a logical expression can add the initialiser of a later variable.)", "quantifier": "all programs, all pairs of contexts of which the second excludes more", "why_tests_cant": "A test compares one program with and without a hint; that a hint has no effect elsewhere but to remove is a statement about every place for a hint in every program.", "anchors": ["packages/swc-coverage-instrument/src/utils/hint_comments.rs: should_ignore, lookup_hint_comments", "packages/swc-coverage-instrument/src/macros/create_instrumentation_visitor.rs: on_enter_with_span", "packages/swc-coverage-instrument/src/macros/instrumentation_visitor.rs: visit_mut_bin_expr", "packages/swc-coverage-instrument/src/macros/instrumentation_counter_helper.rs: cover_statement"]}
{"id": "C74", "title": "Reordering the items of a program only renumbers its report", "statement": "If the top-level items of a file, each at its place in the source, are handed to the instrumenter in another order, the report lists the same statements, functions and branches with the same ranges, types, arms and names, under other numbers: there is a renumbering that takes each table of one report to that of the other (functions without a name are called after their numbers). (The code violates this for statements: whether the initialiser const f = () => 1 is listed depends on which items come before.)", "quantifier": "all programs, all permutations of their items, all contexts", "why_tests_cant": "A test compares two orders of one program; that no item has an effect on how another one is reported is a statement about all permutations of all programs.", "anchors": ["packages/swc-coverage-instrument/src/visitors/coverage_visitor.rs: visit_mut_module_items, visit_mut_program", "packages/swc-coverage-instrument/src/macros/instrumentation_stmt_counter_helper.rs: insert_stmts_counter", "packages/swc-coverage-instrument/src/source_coverage/mod.rs: new_statement, new_function, new_branch", "packages/swc-coverage-instrument/src/macros/instrumentation_counter_helper.rs: cover_statement"]}
{"id": "C75", "title": "Braces around a body or a statement make no difference", "statement": "If braces are put around any of the arms of if statements, the bodies of loops and of with and the statements of blocks and cases, with no hint at the braces, the report of the program has the same statements, functions and branches with the same ranges, types, arms and names, under the same numbers. (The code violates this: in a script the initialiser of if (a) var f = () => 1; is a statement of the report, but not that of if (a) { var f = () => 1; }.)", "quantifier": "all programs, all choices of bodies and statements and of places for the braces, all contexts", "why_tests_cant": "Fixtures have one style of writing a body each; that a body with and without braces is visited alike at every depth and inside of every construct is a statement about all programs.", "anchors": ["packages/swc-coverage-instrument/src/macros/instrumentation_visitor.rs: visit_mut_if_stmt, visit_mut_with_stmt", "packages/swc-coverage-instrument/src/macros/visit_mut_for_like.rs: visit_mut_for_like", "packages/swc-coverage-instrument/src/macros/instrumentation_stmt_counter_helper.rs: insert_stmts_counter", "packages/swc-coverage-instrument/src/macros/instrumentation_counter_helper.rs: mark_prepend_stmt_counter"]}
{"id": "C76", "title": "Statements that nothing is counted in leave no trace", "statement": "If imports, exports of names, type declarations, empty statements and debugger statements are left out of a program, of its blocks and of its cases, everything else staying at its place, the report has the same statements, functions and branches with the same ranges, types, arms and names, under the same numbers.", "quantifier": "all programs, all choices of such statements, all contexts", "why_tests_cant": "Fixtures have such statements in a few places only; that one of them never takes a number, ends a search or changes what is seen around it is a statement about all programs.", "anchors": ["packages/swc-coverage-instrument/src/macros/instrumentation_visitor.rs: instrumentation_visitor", "packages/swc-coverage-instrument/src/macros/instrumentation_stmt_counter_helper.rs: insert_stmts_counter", "packages/swc-coverage-instrument/src/visitors/coverage_visitor.rs: visit_mut_module_items, visit_mut_debugger_stmt"]}
{"id": "C77", "title": "A wrapper function around a script only adds itself to the report", "statement": "If the statements of a script are put into a function expression that is called at once, as bundlers and module loaders do, everything else staying at its place, the report has the same branches under the same numbers, and the same statements and functions with their numbers increased by one (functions without a name are called after their numbers); statement 0 and function 0 are the wrapper. (The code violates this for hints before statements that have no hook of their own, such as TypeScript enumerations: they are ignored at the top of a script, but not in a function; and the initialiser of const f = () => 1 is a statement of the report at the top of a script, but not in a function.)", "quantifier": "all scripts, all parameters and arguments that are names, all places of the wrapper, all contexts", "why_tests_cant": "The top of a script and the body of a function are visited by different code; that they are treated alike for every statement at every depth is a statement about all programs.", "anchors": ["packages/swc-coverage-instrument/src/visitors/coverage_visitor.rs: visit_mut_script", "packages/swc-coverage-instrument/src/macros/instrumentation_stmt_counter_helper.rs: insert_stmts_counter", "packages/swc-coverage-instrument/src/macros/instrumentation_visitor.rs: visit_mut_fn_expr, visit_mut_block_stmt", "packages/swc-coverage-instrument/src/macros/instrumentation_counter_helper.rs: create_fn_instrumentation"]}
{"id": "C78", "title": "A file is reported alike as a script and as a module", "statement": "Whether a file without imports and exports is parsed as a script or as a module, its report has the same statements, functions and branches with the same ranges, types, arms and names, under the same numbers. (The code violates this: a string as a statement is counted in a script, but not in a module, and the initialiser of if (a) var f = () => 1; is a statement of the report of a script, but not of that of a module. Hints before statements without a hook of their own are ignored at the top of a script only.)", "quantifier": "all files without imports and exports, all contexts", "why_tests_cant": "Scripts and modules enter the visitor by different functions that treat their items differently; fixtures are parsed in one way each.", "anchors": ["packages/swc-coverage-instrument/src/visitors/coverage_visitor.rs: visit_mut_program, visit_mut_module_items, visit_mut_script", "packages/swc-coverage-instrument/src/macros/instrumentation_stmt_counter_helper.rs: insert_stmts_counter"]}
{"id": "C79", "title": "An empty else or finally makes no difference", "statement": "If an if statement gets an empty else, or a try statement an empty finally, anywhere in a program, the report has the same statements, functions and branches with the same ranges, types, arms and names under the same numbers, whatever hints there are.", "quantifier": "all programs, all choices of if and try statements and of places for the empty blocks, all contexts", "why_tests_cant": "A block is visited by its own hook, which looks for hints and puts counters into it, and a missing else is turned into a block by the visitor; that neither leaves a trace has to hold at every depth and in every combination.", "anchors": ["packages/swc-coverage-instrument/src/macros/instrumentation_visitor.rs: visit_mut_if_stmt, visit_mut_try_stmt, visit_mut_block_stmt"]}
{"id": "C80", "title": "What an uncounted expression consists of makes no difference", "statement": "If expressions with nothing to count in them (no functions, classes, conditional or logical expressions, tagged templates or default values) are exchanged for other such expressions at the same places, or operators for other operators that are not logical, anywhere in a program, the report has the same statements, functions and branches with the same ranges, types, arms and names under the same numbers. (The code violates this for strings: a string as an item of a module is not counted as a statement, other expressions are.)", "quantifier": "all programs, all exchanges of expressions at any depth, all contexts", "why_tests_cant": "Fixtures contain a few expression forms; the default traversal has to leave all of them, in all positions and combinations, without influence on counters and numbering.", "anchors": ["packages/swc-coverage-instrument/src/macros/instrumentation_visitor.rs: visit_mut_bin_expr, visit_mut_expr_stmt, visit_mut_var_declarator", "packages/swc-coverage-instrument/src/visitors/finders.rs: HoistingFinder, BlockStmtFinder", "packages/swc-coverage-instrument/src/visitors/coverage_visitor.rs: visit_mut_module_items"]}
{"id": "C81", "title": "Words like var, let, const, async and the kind of a loop make no difference", "statement": "If in a program variables are declared with another word out of var, let and const, loops are turned into loops of another kind with the same parts, such as for-in into for-of, or functions into async functions or generators, the report has the same statements, functions and branches with the same ranges, types, arms and names under the same numbers. Only export const is treated on its own: like in istanbul it is a statement, in addition to its initialiser.", "quantifier": "all programs, all such changes at any depth that leave exported declarations const or not const, all contexts", "why_tests_cant": "There is a hook of its own for each kind of loop and of function; that they agree, inside every other construct, cannot be seen from fixtures with one kind each.", "anchors": ["packages/swc-coverage-instrument/src/macros/instrumentation_visitor.rs: visit_mut_for_in_stmt, visit_mut_while_stmt, visit_mut_var_decl, visit_mut_arrow_expr", "packages/swc-coverage-instrument/src/visitors/coverage_visitor.rs: visit_mut_module_items"]}
{"id": "C82", "title": "Of an uncounted expression only the counted constructs in it matter", "statement": "If names, calls, member accesses, arrays, objects, assignments, sequences, parentheses, operators that are not logical, and patterns and parameters are exchanged for others, and put differently around the same functions, classes, conditional and logical expressions in the same order, with the whole expression at the same place, the report has the same statements, functions and branches with the same ranges, types, arms and names under the same numbers. Exceptions are an expression that is just a string, which may be a directive, and a hint before such an expression, which excludes what is in it only if it is an operation.", "quantifier": "all programs, all such changes of expressions at any depth without a hint before the whole expression, all contexts", "why_tests_cant": "A fixture shows one arrangement; that no arrangement of uncounted expressions has an influence on the entries around and inside them is a statement on pairs of programs of unbounded depth.", "anchors": ["packages/swc-coverage-instrument/src/macros/instrumentation_visitor.rs: visit_mut_bin_expr, visit_mut_cond_expr, visit_mut_arrow_expr", "packages/swc-coverage-instrument/src/visitors/coverage_visitor.rs"]}
{"id": "C83", "title": "A program rephrased by any number of harmless changes has the same report", "statement": "If a program is turned into another by any sequence of the changes of C75, C76, C79, C80, C81 and C82 (braces, statements in which nothing is counted, empty else and finally blocks, operators and plain expressions, other words, other expressions around the same counted constructs), each made or undone, the two reports have the same statements, functions and branches with the same ranges, types, arms and names under the same numbers. The programs in between need not be instrumentable.", "quantifier": "all pairs of programs connected by a finite sequence of such changes, of any length and in any order, all contexts", "why_tests_cant": "A fixture shows one rewriting; that no chain of rewritings, however long and mixed, ends in another report is a statement on an equivalence of programs.", "anchors": ["packages/swc-coverage-instrument/src/visitors/coverage_visitor.rs", "packages/swc-coverage-instrument/src/macros/instrumentation_visitor.rs"]}
