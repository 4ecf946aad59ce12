{"id": "C01", "title": "`cargo clippy -- ARGS` delivers ARGS to the driver unchanged", "statement": "The list of lint flags a user writes after `--` (plus an explicit or implied `--no-deps`) is handed to clippy-driver through one environment variable. Decoding that variable in the driver gives back exactly the same flags, in the same order, with empty strings and `--no-deps` removed and `--no-deps` recorded as a switch, for every list of flags none of which contains the separator marker.", "quantifier": "every finite list of command-line words", "why_tests_cant": "the encoding joins arbitrary words with an in-band marker; a test shows a few words survive, not that no combination of words is split, merged or reordered", "anchors": ["src/main.rs::ClippyCmd::new", "src/main.rs::ClippyCmd::into_std_cmd", "src/driver.rs::main"]}
{"id": "C02", "title": "Words before `--` go to cargo, words after go to clippy", "statement": "cargo receives the sub-command (`fix` iff `--fix` occurs before the first `--`, otherwise `check`) followed by exactly the words before the first `--` except `--fix` and `--no-deps`, in order; every word after the first `--` reaches clippy; with `--fix`, clippy always receives `--no-deps`.", "quantifier": "every finite list of command-line words", "why_tests_cant": "argument vectors are unbounded and interactions (`--fix` after `--`, repeated flags) are combinatorial", "anchors": ["src/main.rs::ClippyCmd::new", "src/main.rs::ClippyCmd::into_std_cmd"]}
{"id": "C03", "title": "Lints run exactly when the driver's documented conditions hold", "statement": "clippy lints are registered iff the crate is not capped with `--cap-lints allow` (unless some `--force-warn clippy::…` is given), the package is primary or `--no-deps` was not requested, and the invocation is not an information query; a flag counts both in the `--flag=value` and the `--flag value` spelling.", "quantifier": "every argument vector and environment", "why_tests_cant": "the flag scanner consumes two words at a time in one spelling, so correctness depends on the position of every other word", "anchors": ["src/driver.rs::arg_value", "src/driver.rs::main"]}
{"id": "C04", "title": "Configuration file lookup finds the nearest file", "statement": "The configuration file used is the one in the closest ancestor directory of the start directory that has one, `.clippy.toml` wins over `clippy.toml` in the same directory (and the clash is reported), a missing file in every ancestor means 'no file', and an unexpected I/O error stops the search.", "quantifier": "every directory chain and every filesystem content", "why_tests_cant": "file trees are unbounded; tests only build a few layouts", "anchors": ["clippy_config/src/conf.rs::lookup_conf_file"]}
{"id": "C05", "title": "Every configuration key ends up with the user's value or the default, and mistakes are reported", "statement": "After loading a clippy.toml, each field equals the value the user gave under its current or its deprecated name, else the default; any key that is unknown, repeated, or repeats a deprecated alias yields an error; the order of distinct keys does not matter.", "quantifier": "every sequence of key/value entries", "why_tests_cant": "the deserialiser is one stateful loop over an arbitrary sequence of keys", "anchors": ["clippy_config/src/conf.rs::define_Conf"]}
{"id": "C06", "title": "`\"..\"` in a list option extends the defaults instead of replacing them", "statement": "A list option without `..` is exactly the user's entries; with `..` it is the user's entries plus the default entries, and `..` itself is never an entry.", "quantifier": "every list of entries and every default list", "why_tests_cant": "lists are unbounded and `..` may occur at any position any number of times", "anchors": ["clippy_config/src/de.rs::deserialize_array"]}
{"id": "C07", "title": "The module item ordering option accepts exactly the complete groupings", "statement": "A `module-item-order-groupings` value is accepted iff every item kind occurs in exactly one group and `use` is alone in its group; when accepted, two item kinds compare by the position of their groups.", "quantifier": "every list of groups of item kinds", "why_tests_cant": "the space of groupings is super-exponential", "anchors": ["clippy_config/src/types.rs::SourceItemOrderingModuleItemGroupings"]}
{"id": "C08", "title": "The MSRV in force is always the innermost enclosing one", "statement": "While walking the syntax tree, the version used for MSRV checks is that of the innermost enclosing `#[clippy::msrv]` attribute, otherwise the configured version; leaving a node restores the version in force before it; if a feature is allowed at some MSRV it is allowed at every later MSRV.", "quantifier": "every syntax tree with attributes anywhere", "why_tests_cant": "push/pop balance is a property of every traversal of every tree", "anchors": ["clippy_utils/src/msrvs.rs::MsrvStack", "clippy_utils/src/msrvs.rs::Msrv::meets"]}
{"id": "C09", "title": "Reformatting a numeric literal never changes its value", "statement": "Parsing a numeric literal and printing it with clippy's digit grouping gives a literal of the same radix, the same digit sequence (up to underscores and, for zero-padded hex, leading zeros), the same exponent and the same suffix.", "quantifier": "every numeric literal text", "why_tests_cant": "literal texts are unbounded and grouping depends on length modulo 3/4", "anchors": ["clippy_utils/src/numeric_literal.rs::NumericLiteral"]}
{"id": "C10", "title": "Digit grouping is canonical", "statement": "In the reformatted literal all groups have the radix's group size except possibly the outermost one, and formatting an already formatted integer literal changes nothing.", "quantifier": "every numeric literal text", "why_tests_cant": "needs induction over digit-string length", "anchors": ["clippy_utils/src/numeric_literal.rs::NumericLiteral::group_digits", "clippy_lints/src/literal_representation.rs"]}
{"id": "C11", "title": "Removing raw-string hashes keeps the string", "statement": "When clippy says a raw string needs only `k` hashes (or no raw prefix), rewriting the literal with `k` hashes yields a literal that lexes to the same contents.", "quantifier": "every raw string content and hash count", "why_tests_cant": "the contents are arbitrary text; the check is a hand-written state machine", "anchors": ["clippy_lints/src/raw_strings.rs::check_raw_string"]}
{"id": "C12", "title": "Tab reports in doc comments cover exactly the tabs", "statement": "The reported chunks are the maximal runs of tab characters: disjoint, ordered, every tab is in exactly one chunk and no other character is in any.", "quantifier": "every line of text", "why_tests_cant": "hand-written scanner with explicit state over unbounded input", "anchors": ["clippy_lints/src/tabs_in_doc_comments.rs::get_chunks_of_tabs"]}
{"id": "C13", "title": "Re-indenting a snippet changes only leading blanks", "statement": "Re-indenting a multi-line snippet keeps the number of lines and the text of every line after its leading blanks, keeps the first line when told to ignore it, and the least indented non-empty line ends up at exactly the requested indentation.", "quantifier": "every text, indentation and flag", "why_tests_cant": "three passes over unbounded text", "anchors": ["clippy_utils/src/source.rs::reindent_multiline"]}
{"id": "C14", "title": "Snake case / camel case conversion is lossless on well-formed names", "statement": "Converting a well-formed snake_case identifier to CamelCase and back gives the original identifier, and the conversion to snake case only inserts underscores and changes letter case.", "quantifier": "every identifier", "why_tests_cant": "identifiers are unbounded", "anchors": ["clippy_utils/src/str_utils.rs::to_snake_case", "clippy_utils/src/str_utils.rs::to_camel_case"]}
{"id": "C15", "title": "Camel-case word splitting loses nothing", "statement": "The words of a camel-case name concatenate to the name, each cut position is the start of an upper-case letter, and the common prefix/suffix counts are the true maximal common prefix/suffix.", "quantifier": "every string", "why_tests_cant": "index arithmetic over unbounded strings", "anchors": ["clippy_utils/src/str_utils.rs::camel_case_split", "clippy_utils/src/str_utils.rs::count_match_start"]}
{"id": "C16", "title": "Suggestions are parenthesised so that they parse back to the intended expression", "statement": "Printing an operator applied to two sub-suggestions and parsing the result with Rust's operator precedence and associativity yields the operator applied to those two sub-expressions.", "quantifier": "every nesting of operator suggestions", "why_tests_cant": "expression nesting is unbounded", "anchors": ["clippy_utils/src/sugg.rs::make_assoc", "clippy_utils/src/sugg.rs::make_unop"]}
{"id": "C17", "title": "Parenthesis stripping only removes a matching outer pair", "statement": "Text is considered enclosed in parentheses iff its first character is `(` and the parenthesis matching it is the last character; adding parentheses to an operand never nests a second redundant pair and stripping them gives back the inner text.", "quantifier": "every string", "why_tests_cant": "depth counting over unbounded text", "anchors": ["clippy_utils/src/sugg.rs::has_enclosing_paren", "clippy_utils/src/sugg.rs::Sugg::maybe_paren"]}
{"id": "C18", "title": "Constant folding agrees with Rust's run-time arithmetic", "statement": "If clippy's constant evaluator gives a value to an integer/boolean expression, evaluating that expression in Rust does not panic and produces that value (for every integer type and width).", "quantifier": "every expression tree over integer and boolean operators, and every width", "why_tests_cant": "expression trees and operand values are unbounded", "anchors": ["clippy_utils/src/consts.rs::ConstEvalCtxt::binop", "clippy_utils/src/consts.rs::ConstEvalCtxt::constant_not", "clippy_utils/src/consts.rs::ConstEvalCtxt::constant_negate"]}
{"id": "C19", "title": "Comparing two constants agrees with comparing their values", "statement": "The ordering clippy computes for two integer constants of a type is the mathematical ordering of the values they denote in that type, for mixed signedness included, and is a total order.", "quantifier": "all pairs of constants of every integer type", "why_tests_cant": "2^256 pairs", "anchors": ["clippy_utils/src/consts.rs::Constant::partial_cmp", "clippy_utils/src/consts.rs::FullInt"]}
{"id": "C20", "title": "Minimum/maximum constants are recognised exactly", "statement": "A constant is classified as the minimum (maximum) of its integer type iff it denotes the smallest (largest) value of the type.", "quantifier": "every integer type and value", "why_tests_cant": "value space is 2^128 per type", "anchors": ["clippy_utils/src/consts.rs::Constant::is_numeric_min", "clippy_lints/src/operators/absurd_extreme_comparisons.rs::detect_extreme_expr"]}
{"id": "C21", "title": "`absurd_extreme_comparisons` verdicts are true", "statement": "When the lint says a comparison with an extreme value is always true / always false / equivalent to `==`, it is so for every value of the other operand.", "quantifier": "every comparison operator, every type and every operand value", "why_tests_cant": "quantifies over all run-time values", "anchors": ["clippy_lints/src/operators/absurd_extreme_comparisons.rs::detect_absurd_comparison", "clippy_utils/src/comparisons.rs::normalize_comparison"]}
{"id": "C22", "title": "`redundant_comparisons` / `impossible_comparisons` verdicts are true", "statement": "When the lint says one side of `a op c1 && a op c2` has no effect, dropping it never changes the result; when it says the condition can never be true, it is false for every value.", "quantifier": "every pair of comparison operators and constants and every value", "why_tests_cant": "quantifies over all run-time values", "anchors": ["clippy_lints/src/operators/const_comparisons.rs::check"]}
{"id": "C23", "title": "`double_comparisons` rewrites keep the meaning", "statement": "Replacing two comparisons of the same operands by the suggested single comparison gives the same boolean for all operands of the compared type.", "quantifier": "all operator combinations and all operands, including partially ordered types such as floats", "why_tests_cant": "quantifies over all run-time values", "anchors": ["clippy_lints/src/operators/double_comparison.rs::check"]}
{"id": "C24", "title": "`bad_bit_mask` / `ineffective_bit_mask` verdicts are true", "statement": "When the lint says a masked comparison is always true, always false, or unaffected by the mask, it is so for every value of the masked operand.", "quantifier": "all masks, constants, operators, widths and operand values", "why_tests_cant": "quantifies over all run-time values", "anchors": ["clippy_lints/src/operators/bit_mask.rs::check"]}
{"id": "C25", "title": "`identity_op` and `erasing_op` rewrites keep the meaning", "statement": "Whenever the lint says an operation has no effect (or always gives zero), the operation evaluates to its other operand (or to zero) for all operand values, without a panic being hidden.", "quantifier": "all operators, widths and values", "why_tests_cant": "quantifies over all run-time values", "anchors": ["clippy_lints/src/operators/identity_op.rs::check", "clippy_lints/src/operators/erasing_op.rs::check"]}
{"id": "C26", "title": "`int_plus_one` keeps the meaning when the arithmetic does not overflow", "statement": "Whenever `x >= y + 1`-like comparisons evaluate without overflow, the suggested strict comparison gives the same result.", "quantifier": "all shapes and operand values", "why_tests_cant": "quantifies over all run-time values", "anchors": ["clippy_lints/src/int_plus_one.rs::IntPlusOne::check_binop"]}
{"id": "C27", "title": "`manual_range_contains` rewrites keep the meaning", "statement": "Replacing a pair of bound checks by the suggested (negated) range `contains` gives the same boolean for every value, including unordered floats.", "quantifier": "all operators, bounds and values", "why_tests_cant": "quantifies over all run-time values", "anchors": ["clippy_lints/src/ranges.rs::check_possible_range_contains", "clippy_lints/src/ranges.rs::check_range_bounds"]}
{"id": "C28", "title": "Range lints describe ranges correctly", "statement": "`x..y+1` and `x..=y` (and `x..=y-1` and `x..y`) contain the same values whenever the arithmetic does not overflow, and a range reported as reversed/empty contains nothing.", "quantifier": "all bounds and values", "why_tests_cant": "quantifies over all run-time values", "anchors": ["clippy_lints/src/ranges.rs::check_range_switch", "clippy_lints/src/ranges.rs::check_reversed_empty_range"]}
{"id": "C29", "title": "`checked_conversions` rewrites keep the meaning", "statement": "Replacing the bound checks by `T::try_from(x).is_ok()` gives the same boolean for every x.", "quantifier": "all from/to integer types and all values", "why_tests_cant": "quantifies over all run-time values", "anchors": ["clippy_lints/src/checked_conversions.rs"]}
{"id": "C30", "title": "`manual_clamp` rewrites keep the meaning", "statement": "Whenever the lint fires on an ordered type, the pattern and `input.clamp(min, max)` produce the same value (and clamp does not panic).", "quantifier": "all patterns (if-else chains, min/max chains, two ifs, match) and all values", "why_tests_cant": "quantifies over all run-time values", "anchors": ["clippy_lints/src/manual_clamp.rs::is_clamp_meta_pattern", "clippy_lints/src/manual_clamp.rs::is_max_min_pattern"]}
{"id": "C31", "title": "`min_max` verdicts are true", "statement": "When the lint says a min/max combination has a constant result, the result does not depend on the input.", "quantifier": "all combinations, constants and inputs", "why_tests_cant": "quantifies over all run-time values", "anchors": ["clippy_lints/src/minmax.rs::check_expr"]}
{"id": "C32", "title": "Saturating add/sub rewrites keep the meaning", "statement": "Whenever `implicit_saturating_sub`/`implicit_saturating_add` fires, the conditional and the suggested saturating operation compute the same value for every input, and the conditional never overflows.", "quantifier": "all accepted shapes, types and values", "why_tests_cant": "quantifies over all run-time values", "anchors": ["clippy_lints/src/implicit_saturating_sub.rs", "clippy_lints/src/implicit_saturating_add.rs"]}
{"id": "C33", "title": "`manual_rotate` rewrites keep the meaning", "statement": "Whenever the lint fires, the shift combination and the suggested rotate compute the same value for every operand for which the original does not overflow.", "quantifier": "all widths, operands and shift amounts", "why_tests_cant": "quantifies over all run-time values", "anchors": ["clippy_lints/src/manual_rotate.rs::check_expr"]}
{"id": "C34", "title": "Integer idiom rewrites keep the meaning", "statement": "Whenever manual_div_ceil, manual_midpoint, manual_is_multiple_of, manual_rem_euclid, manual_abs_diff, manual_is_power_of_two, manual_ilog2 or verbose_bit_mask fires and the original expression does not panic, the suggested std method returns the same value.", "quantifier": "all widths and operand values", "why_tests_cant": "quantifies over all run-time values", "anchors": ["clippy_lints/src/operators/manual_div_ceil.rs", "clippy_lints/src/operators/manual_midpoint.rs", "clippy_lints/src/operators/manual_is_multiple_of.rs", "clippy_lints/src/manual_rem_euclid.rs", "clippy_lints/src/manual_abs_diff.rs", "clippy_lints/src/manual_is_power_of_two.rs", "clippy_lints/src/manual_ilog2.rs", "clippy_lints/src/operators/verbose_bit_mask.rs"]}
{"id": "C35", "title": "Boolean simplification keeps the meaning", "statement": "Translating a condition into clippy's boolean algebra, negating it, and printing it back yields a condition with the same truth value for every assignment of its atoms; two atoms are identified only if they are equal or exact negations on a totally ordered type.", "quantifier": "every nesting of !, &&, || and comparisons, every assignment", "why_tests_cant": "exponentially many assignments of unboundedly many shapes", "anchors": ["clippy_lints/src/booleans.rs::Hir2Qmm", "clippy_lints/src/booleans.rs::simple_negate", "clippy_lints/src/booleans.rs::SuggestContext"]}
{"id": "C36", "title": "`manual_range_patterns` rewrites match the same values", "statement": "When an or-pattern of numbers and ranges is replaced by a single range, the range matches exactly the values matched by the alternatives.", "quantifier": "every list of literal/range alternatives and every value", "why_tests_cant": "alternative lists are unbounded and may overlap arbitrarily", "anchors": ["clippy_lints/src/manual_range_patterns.rs::check_pat"]}
{"id": "C37", "title": "`match_overlapping_arm` only reports real overlaps", "statement": "A reported pair of ranges has a common value and neither range contains the other strictly inside; if all ranges are pairwise disjoint nothing is reported.", "quantifier": "every list of ranges", "why_tests_cant": "sweep-line algorithm over unbounded lists", "anchors": ["clippy_lints/src/matches/overlapping_arms.rs::overlapping"]}
{"id": "C38", "title": "Merging match arms does not change which arm runs", "statement": "When `match_same_arms` proposes to merge two arms with equal bodies, moving one arm next to the other and joining their patterns never changes the body that is executed for any scrutinee value.", "quantifier": "every list of arms and every scrutinee value", "why_tests_cant": "depends on pairwise overlap of all arms in between", "anchors": ["clippy_lints/src/matches/match_same_arms.rs"]}
{"id": "C39", "title": "Nested or-pattern rewriting matches the same values", "statement": "Unnesting or-patterns (`Some(0) | Some(1)` into `Some(0 | 1)`) gives a pattern that can be written down, matches exactly the same values and gives the variables the same values.", "quantifier": "every pattern tree and every value", "why_tests_cant": "pattern trees are unbounded; rewriting works in place by index", "anchors": ["clippy_lints/src/unnested_or_patterns.rs"]}
{"id": "C40", "title": "`never_loop` only reports loops whose body cannot run twice", "statement": "If the lint reports a loop, no execution of the loop body ever reaches the end of the body or a `continue` of that loop, so the body runs at most once.", "quantifier": "every loop body and every execution", "why_tests_cant": "executions are unbounded; nested labelled breaks interact", "anchors": ["clippy_lints/src/loops/never_loop.rs::never_loop_block", "clippy_lints/src/loops/never_loop.rs::never_loop_expr"]}
{"id": "C41", "title": "Replacing lazy by eager evaluation is only suggested for harmless expressions", "statement": "If an expression is classified as fine to evaluate eagerly, evaluating it has no side effect, cannot panic, cannot diverge and is cheap; the classification of a compound expression is never better than that of any part.", "quantifier": "every expression tree", "why_tests_cant": "unbounded expression nesting", "anchors": ["clippy_utils/src/eager_or_lazy.rs::expr_eagerness"]}
{"id": "C42", "title": "Updating a generated region leaves the rest of the file alone", "statement": "Replacing the text between two markers keeps everything outside byte-identical, puts exactly the generated text between the first start marker and the next end marker, reports 'changed' iff the file text changes, and running it twice changes nothing the second time.", "quantifier": "every file text, marker pair and generated text", "why_tests_cant": "files are arbitrary text", "anchors": ["clippy_dev/src/utils.rs::update_text_region"]}
{"id": "C43", "title": "`--check` mode never writes and fails iff an update would change something", "statement": "In check mode no file is modified and the run fails iff change mode would have modified a file; in change mode a file is written iff its new text is reported as changed.", "quantifier": "every file content, updater and mode", "why_tests_cant": "relates two runs over arbitrary file states", "anchors": ["clippy_dev/src/utils.rs::FileUpdater"]}
{"id": "C44", "title": "Renaming a lint edits exactly the places that name it", "statement": "`cargo dev rename_lint` replaces exactly the tokens that denote the lint (`clippy::name`, the lint static, the lint struct, the module path) and leaves every other byte unchanged.", "quantifier": "every token stream", "why_tests_cant": "files are arbitrary token streams", "anchors": ["clippy_dev/src/edit_lints.rs::rename_update_fn"]}
{"id": "C45", "title": "Uplifting a lint edits exactly the places that name it", "statement": "`cargo dev uplift` replaces every `clippy::old` path by the new name, removes the `mod old;` item when the module was deleted, and leaves every other byte unchanged.", "quantifier": "every token stream", "why_tests_cant": "files are arbitrary token streams", "anchors": ["clippy_dev/src/edit_lints.rs::uplift_update_fn"]}
{"id": "C46", "title": "No renamed lint points at a renamed or deprecated lint", "statement": "Starting from a lint table in which every rename target is an active clippy lint or a rustc lint, any sequence of successful deprecate/uplift/rename commands leaves the table in that state, apart from targets that get deprecated, and never loses a lint name.", "quantifier": "every history of commands", "why_tests_cant": "histories are unbounded", "anchors": ["clippy_dev/src/edit_lints.rs::update_rename_targets", "clippy_dev/src/edit_lints.rs::rename", "clippy_dev/src/edit_lints.rs::uplift", "clippy_dev/src/edit_lints.rs::deprecate"]}
{"id": "C47", "title": "Splitting work into batches runs every argument exactly once", "statement": "The concatenation of the batches produced for parallel commands is the original argument list, no batch is empty, and every batch respects the size limit apart from its last argument.", "quantifier": "every argument list, thread count and minimum batch size", "why_tests_cant": "schedules and lists are unbounded", "anchors": ["clippy_dev/src/utils.rs::split_args_for_threads"]}
{"id": "C48", "title": "Grouping a list by key keeps every element in order", "statement": "The groups concatenate to the list, no group is empty, elements in one group share the key and adjacent groups have different keys.", "quantifier": "every list and key function", "why_tests_cant": "lists are unbounded", "anchors": ["clippy_dev/src/utils.rs::slice_groups"]}
{"id": "C49", "title": "Lintcheck's diff classifies every warning exactly once", "statement": "For two sorted result files, every warning of the old run is exactly one of removed/changed/unchanged, every warning of the new run is exactly one of added/changed/unchanged, a diff of a file with itself is empty, and counts per lint add up.", "quantifier": "every pair of sorted warning lists", "why_tests_cant": "lists are unbounded and may contain duplicates", "anchors": ["lintcheck/src/json.rs::diff"]}
{"id": "C50", "title": "Sorting lint declarations in a file loses no declaration and no other text", "statement": "`cargo dev fmt` on a lint source file keeps every lint declaration, every pass declaration and every non-blank text between them, with declarations in sorted order.", "quantifier": "every file text and set of disjoint declaration ranges", "why_tests_cant": "files are arbitrary text", "anchors": ["clippy_dev/src/generate.rs::gen_sorted_lints_file"]}
{"id": "C51", "title": "Version bump edits only the version string", "statement": "Bumping the version in a manifest replaces exactly the value of `version` in `[package]` and leaves every other byte unchanged.", "quantifier": "every manifest text", "why_tests_cant": "manifests are arbitrary text", "anchors": ["clippy_dev/src/utils.rs::parse_cargo_package", "clippy_dev/src/release.rs::bump_version"]}
{"id": "C52", "title": "Reported name repetitions are real", "statement": "If clippy reports that all variants or fields share a prefix or postfix, the reported text is the longest run of whole words shared by all the names at that end, and every name really begins or ends with that text; a variant or field is reported as beginning or ending with its type's name exactly if its words do.", "quantifier": "every list of names", "why_tests_cant": "names are arbitrary Unicode identifiers and lists are unbounded", "anchors": ["clippy_lints/src/item_name_repetitions.rs::check_enum_common_affix", "clippy_lints/src/item_name_repetitions.rs::check_struct_common_affix", "clippy_lints/src/item_name_repetitions.rs::check_struct_name_repetition", "clippy_lints/src/item_name_repetitions.rs::check_enum_start"]}
{"id": "C53", "title": "Negated suggestions have the opposite value", "statement": "The suggestion obtained by negating (`!` or `-`) a suggestion is read by the compiler as an expression whose value is the negation of the original's value.", "quantifier": "every suggestion and every value of its operands", "why_tests_cant": "includes values such as NaN and arbitrary nesting", "anchors": ["clippy_utils/src/sugg.rs::impl Not for Sugg", "clippy_utils/src/sugg.rs::impl Neg for Sugg"]}
{"id": "C54", "title": "Every module is declared once and every lint is registered once", "statement": "`cargo dev update_lints` declares, in each crate with a lint, every top-level module that holds a lint exactly once, declares no other module, and registers every lint of the crate exactly once under the path of its module.", "quantifier": "every set of lints, crates and module paths", "why_tests_cant": "sets of paths are unbounded; the result depends on how the separator sorts", "anchors": ["clippy_dev/src/generate.rs::LintData::gen_decls", "clippy_dev/src/parse.rs::SourceFile::path_as_krate_mod"]}
{"id": "C55", "title": "Formatting the list of symbols keeps every symbol and is idempotent", "statement": "`cargo dev fmt` rewrites the list in `sym.rs` to the same symbols in sorted order, one per line, changes nothing else in the file, reports a change iff the text changes, and a second run changes nothing.", "quantifier": "every text of `sym.rs`", "why_tests_cant": "texts are unbounded; idempotence relates two runs", "anchors": ["clippy_dev/src/fmt.rs::fmt_syms"]}
{"id": "C56", "title": "Renaming or removing a lint moves or deletes exactly its test files", "statement": "`cargo dev rename_lint`, `uplift` and `deprecate` act on a test file or test directory exactly if the longest lint name with which its name starts is the lint; a renamed test keeps the rest of its name.", "quantifier": "every set of lint names and test entries", "why_tests_cant": "directories and names are unbounded", "anchors": ["clippy_dev/src/edit_lints.rs::rename_test_files", "clippy_dev/src/edit_lints.rs::delete_test_files", "clippy_dev/src/edit_lints.rs::create_ignored_prefixes"]}
{"id": "C57", "title": "The report of lintcheck's diff shows what it counts, and its links lead to their headings", "statement": "In the report of a comparison each section shows a beginning of its warnings and states how many it leaves out; without truncation nothing is left out; with truncation at least five warnings of each section are shown (or all) and the whole stays below the greater of 1000 and 15 per lint. All headings have distinct ids, each link of the summary leads to the heading of its lint, and each link of a lint's section leads to the heading of that section.", "quantifier": "every pair of sorted result files, any number of lints and warnings", "why_tests_cant": "the number of lints and warnings is unbounded; a dead link is silent", "anchors": ["lintcheck/src/json.rs::diff", "lintcheck/src/json.rs::print_lint_warnings", "lintcheck/src/json.rs::truncate", "lintcheck/src/json.rs::to_html_id", "lintcheck/src/json.rs::count_string"]}
{"id": "C58", "title": "The statistics in lintcheck's log are exact and are read back", "statement": "The log lists each lint with the number of its warnings once, by number and name, independent of hash map order; reading the log again gives the same numbers; comparing with the old numbers lists each lint whose number differs exactly once, with both numbers.", "quantifier": "every list of warnings, every log text around the table and every filter", "why_tests_cant": "names, counts and orders of hash maps are unbounded", "anchors": ["lintcheck/src/output.rs::gather_stats", "lintcheck/src/output.rs::read_stats_from_file", "lintcheck/src/output.rs::print_stats", "lintcheck/src/output.rs::summarize_and_print_changes"]}
{"id": "C59", "title": "A cast not reported as truncating keeps all bits", "statement": "If `cast_possible_truncation` is silent about a cast between integer types, then every value the operand can have fits into the bits of the target type; for an operand about which nothing is known the lint is emitted exactly if some value doesn't fit.", "quantifier": "every operand expression, every value of its variables, every pair of integer types, targets with 32-bit and 64-bit pointers", "why_tests_cant": "operands nest without bound and have 2^128 values", "anchors": ["clippy_lints/src/casts/cast_possible_truncation.rs::apply_reductions", "clippy_lints/src/casts/cast_possible_truncation.rs::check"]}
{"id": "C60", "title": "A cast not reported as losing the sign has no negative operand", "statement": "If `cast_sign_loss` is silent about a cast of a signed integer to an unsigned type, then no value of the operand is negative (overflow panics).", "quantifier": "every operand expression and every value of its variables", "why_tests_cant": "operands nest without bound; products, powers and calls interact", "anchors": ["clippy_lints/src/casts/cast_sign_loss.rs::expr_sign", "clippy_lints/src/casts/cast_sign_loss.rs::expr_muldiv_sign", "clippy_lints/src/casts/cast_sign_loss.rs::expr_add_sign"]}
{"id": "C61", "title": "The lints about casts together report exactly the casts which can change the value", "statement": "For a cast of a variable between integer types: if truncation, wrap and sign-loss lints are all silent then the cast keeps every value; if one is emitted then on some target some value changes. `cast_precision_loss` is emitted exactly if some integer isn't represented exactly in `f32` or `f64`. `cast_lossless` is emitted only for casts which keep every value.", "quantifier": "every pair of numeric types, every value, every pointer width", "why_tests_cant": "2^128 values per type; targets the tests don't run on", "anchors": ["clippy_lints/src/casts/cast_possible_wrap.rs::check", "clippy_lints/src/casts/cast_precision_loss.rs::check", "clippy_lints/src/casts/cast_lossless.rs::should_lint"]}
{"id": "C62", "title": "An enum cast is reported as truncating exactly if some discriminant doesn't fit", "statement": "`cast_enum_truncation` and `cast_possible_truncation` for an enum use the least number of bits into which the discriminant of the variant, or of all variants, fits.", "quantifier": "every list of variants with explicit and implicit discriminants", "why_tests_cant": "enums are unbounded and discriminants have 2^128 values", "anchors": ["clippy_lints/src/casts/utils.rs::enum_ty_to_nbits", "clippy_lints/src/casts/utils.rs::enum_value_nbits", "clippy_utils/src/ty/mod.rs::get_discriminant_value"]}
{"id": "C63", "title": "Equal pieces of syntax have the same hash", "statement": "If two expressions, patterns, types or paths are found equal, the hashes of the two are the same, so that a table indexed by the hash finds the one with the other.", "quantifier": "every pair of syntax trees of any depth, with any names, types and constants", "why_tests_cant": "trees are unbounded; a test sees the pairs somebody thought of", "anchors": ["clippy_utils/src/hir_utils.rs::SpanlessEq", "clippy_utils/src/hir_utils.rs::SpanlessHash"]}
{"id": "C64", "title": "The search for repeated conditions reports exactly the equal ones", "statement": "The groups reported for a list of expressions contain only expressions of the list which were found equal to the first of the group, and any two equal expressions of the list are in the same group.", "quantifier": "every list of expressions, equality and hash", "why_tests_cant": "lists are unbounded and hashes may collide in any way", "anchors": ["clippy_utils/src/lib.rs::search_same"]}
{"id": "C65", "title": "Expressions which are found equal have the same value", "statement": "Lints which treat two expressions as the same (`eq_op`, `if_same_then_else`, `ifs_same_cond`, …) rely on equal expressions having the same value in every state, whatever their own variables are called and whatever the operands' values are.", "quantifier": "every pair of expressions, every meaning of literals, names and operators, every value of the variables", "why_tests_cant": "expressions, values and meanings of operators are unbounded", "anchors": ["clippy_utils/src/hir_utils.rs::SpanlessEq", "clippy_utils/src/hir_utils.rs::eq_expr_value", "clippy_utils/src/hir_utils.rs::swap_binop", "clippy_utils/src/hir_utils.rs::reduce_exprkind"]}
{"id": "C66", "title": "Verdicts about calls of unwrap below a check are true", "statement": "In every execution of a function, a call of `unwrap`, `expect` or `unwrap_err` reported by `unnecessary_unwrap` never panics and one reported by `panicking_unwrap` always panics; the suggested `if let` takes the same branch as the check it replaces.", "quantifier": "every function body, every execution of it (including those which don't end), every value of the variables", "why_tests_cant": "bodies and executions are unbounded", "anchors": ["clippy_lints/src/unwrap.rs::collect_unwrap_info", "clippy_lints/src/unwrap.rs::UnwrappableVariablesVisitor", "clippy_lints/src/unwrap.rs::MutationVisitor", "clippy_lints/src/unwrap.rs::extract_local", "clippy_utils/src/usage.rs::is_potentially_local_place"]}
{"id": "C67", "title": "Copies between slices suggested for a loop do what the loop does", "statement": "For a loop which `manual_memcpy` reports, the suggested calls of `copy_from_slice` leave the same elements in all slices as the loop, whatever the range, offsets, counters and lengths are, and don't panic if the loop doesn't.", "quantifier": "every `for` loop over a range with any number of statements, every content of the slices, every value of start, end, offsets and counters", "why_tests_cant": "loops, lengths and values are unbounded; UI tests only compare the text", "anchors": ["clippy_lints/src/loops/manual_memcpy.rs::check", "clippy_lints/src/loops/manual_memcpy.rs::build_manual_memcpy_suggestion", "clippy_lints/src/loops/manual_memcpy.rs::get_details_from_idx", "clippy_lints/src/loops/manual_memcpy.rs::get_assignments", "clippy_lints/src/loops/utils.rs::IncrementVisitor"]}
{"id": "C68", "title": "A variable reported as a loop counter counts the rounds", "statement": "If `explicit_counter_loop` reports a variable of a `for` loop, then in each execution the variable is the reported initial value plus the number of the round whenever it is read in the loop, and it isn't read after the loop; the suggested `enumerate`, `take` or `zip` produces just these numbers and panics only if the loop does.", "quantifier": "every block with a `for` loop, every execution of it (including those which don't end), any number of rounds", "why_tests_cant": "bodies, executions and rounds are unbounded; UI tests only compare the text", "anchors": ["clippy_lints/src/loops/explicit_counter_loop.rs::check", "clippy_lints/src/loops/utils.rs::IncrementVisitor", "clippy_lints/src/loops/utils.rs::InitializeVisitor"]}
{"id": "C69", "title": "A suggested swap does what the statements do", "statement": "The `mem::swap` or `slice::swap` suggested by `manual_swap` for three statements leaves the same values everywhere, panics if and only if they do, and later uses of the temporary variable see the same value; the places given to `mem::swap` can be borrowed at the same time. Two statements reported by `almost_swapped` don't swap: the second one has no effect.", "quantifier": "every block with such statements, every content of variables, arrays and structures, every index", "why_tests_cant": "values, indices and later code are unbounded; UI tests only compare the text", "anchors": ["clippy_lints/src/swap.rs::check_manual_swap", "clippy_lints/src/swap.rs::check_xor_swap", "clippy_lints/src/swap.rs::check_suspicious_swap", "clippy_lints/src/swap.rs::generate_swap_warning", "clippy_lints/src/swap.rs::IndexBinding", "clippy_utils/src/lib.rs::can_mut_borrow_both"]}
{"id": "C70", "title": "An assertion suggested for indices covers them", "statement": "If the assertion suggested by `missing_asserts_for_indexing` holds, the slice is long enough for every index in the body; if the slice is too short for it, it is too short for some index; adding or replacing the assertion doesn't change for which lengths the code panics; if nothing is reported, the assertion which is there covers all indices or the first index is the highest.", "quantifier": "every body with any number of assertions and indices of a slice, every length of the slice, every execution", "why_tests_cant": "bodies and lengths are unbounded; UI tests only compare the text", "anchors": ["clippy_lints/src/missing_asserts_for_indexing.rs::report_indexes", "clippy_lints/src/missing_asserts_for_indexing.rs::check_index", "clippy_lints/src/missing_asserts_for_indexing.rs::check_assert", "clippy_lints/src/missing_asserts_for_indexing.rs::upper_index_expr", "clippy_lints/src/missing_asserts_for_indexing.rs::len_comparison"]}
{"id": "C71", "title": "A loop reported as never looping never loops", "statement": "When `never_loop` (an error by default) reports a `loop`, `while` or `for`, no execution of the program enters the body of that loop a second time: from every state the body neither comes to its end nor continues the loop, so that the loop does what a block left by `break` does, and a `for` takes at most one element; the `if let` offered for a `for`, when it may be applied by a machine, does exactly what the `for` does.", "quantifier": "all loops with any nesting of blocks, labelled blocks, conditions, matches, let-else, inner loops and jumps in their bodies, all meanings of the operations in them, all states, all numbers of turns", "why_tests_cant": "The report is a statement about every path through an arbitrarily nested body and every state; tests check the reports for some bodies and never run them.", "anchors": ["clippy_lints/src/loops/never_loop.rs::check", "clippy_lints/src/loops/never_loop.rs::never_loop_expr", "clippy_lints/src/loops/never_loop.rs::never_loop_block", "clippy_lints/src/loops/never_loop.rs::combine_seq", "clippy_lints/src/loops/never_loop.rs::combine_branches", "clippy_lints/src/loops/never_loop.rs::absorb_break", "clippy_lints/src/loops/never_loop.rs::mark_block_as_reachable", "clippy_lints/src/loops/never_loop.rs::contains_any_break_or_continue", "clippy_lints/src/loops/never_loop.rs::for_to_if_let_sugg"]}
{"id": "C72", "title": "Needless `continue`: leaving it out or following the shown code keeps the loop's meaning", "statement": "For every loop (`loop`, `while`, `while let`, `for`, labelled or not) whose jumps resolve by Rust's scoping rules: leaving out any subset of the `continue`s reported as redundant at the end of the block leaves the result, the effects and the way the loop ends unchanged. The code shown for an `if` with a `continue` in one branch (the following statements merged into the other branch, or the `else` dropped) also means the same, provided the branch declares no name that the moved statements mention and these declare no items. The text of a block loses exactly its closing brace and the whitespace before it.", "quantifier": "all loops, all nestings of blocks, `if`, `match`, labels; all primitive operations, environments, numbers of turns and ways to end; all choices of reported `continue`s", "why_tests_cant": "The meaning of a loop depends on unboundedly many turns and on every nesting of labels; a test compares texts of a few loops and never runs them.", "anchors": ["clippy_lints/src/needless_continue.rs:check_and_warn", "clippy_lints/src/needless_continue.rs:check_last_stmt_in_expr", "clippy_lints/src/needless_continue.rs:suggestion_snippet_for_continue_inside_else", "clippy_lints/src/needless_continue.rs:erode_from_back"]}
{"id": "C73", "title": "Redundant `else`: moving the last block of a chain out keeps the program's meaning", "statement": "For every block and every statement that is an `if … else if … else` chain the lint reports: a branch that counts as never left at its end has no value in any execution, and the block with the contents of the last `else` moved out (with the semicolons the lint adds) has the same result, effects and exits, provided the moved block declares no item that the enclosing block mentions or declares and nothing that the following statements mention. In particular a change marked as applicable by machine keeps the meaning whenever the moved block declares no items, and so does any change where nothing follows the chain.", "quantifier": "all blocks, positions, chains of any length, environments and primitive operations; typing only through the promise that an expression of type `!` has no value; code written directly and code from macros", "why_tests_cant": "Whether a branch can be left at its end depends on nested `match`, `if` and blocks of any depth, and capture depends on all names around; tests compare the texts of a few functions.", "anchors": ["clippy_lints/src/redundant_else.rs:check", "clippy_lints/src/redundant_else.rs:is_never_root", "clippy_lints/src/redundant_else.rs:is_never_mac", "clippy_lints/src/redundant_else.rs:expr_needs_semi"]}
{"id": "C74", "title": "Collapsing nested `if`s keeps the program's meaning", "statement": "For every `if a { if b { … } }` that is reported, `if a && b { … }` has the same result, effects and exits, with `let` conditions binding as before; whatever the two conditions are written as, the text with the lint's parentheses is read as one condition that runs the parts in the old order and reaches the block in the same cases. For every reported `else { if b … }`, `else if b …` is the same up to the value, and with its value unless a semicolon ends an inner `if … else …`. What is taken off around a parenthesised inner `if` is whitespace and as many opening as closing parentheses, and exactly the word `if` is replaced when no whitespace separates it from the parenthesis.", "quantifier": "all expressions, conditions (any nesting of `&&`, `||`, parentheses), texts, environments and primitive operations", "why_tests_cant": "Operator precedence over texts of any shape and equality of all executions cannot be settled by comparing a few rewritten functions.", "anchors": ["clippy_lints/src/collapsible_if.rs:check_collapsible_if_if", "clippy_lints/src/collapsible_if.rs:check_collapsible_else_if", "clippy_lints/src/collapsible_if.rs:parens_around", "clippy_lints/src/collapsible_if.rs:peel_parens_str"]}
{"id": "C75", "title": "Removing a needless `return` keeps the function", "statement": "For every `return` that is reported at the end of a function or closure, replacing it as suggested (its operand, nothing, `{}` or `()`, with the semicolons that go) takes away exactly that `return` and leaves a function with the same effects, the same exits and the same values. The operand is put in parentheses just where it would otherwise be cut in two by the rule that a statement ends after a block.", "quantifier": "all bodies (any nesting of blocks, labelled blocks, `if`, `match`, `let` and items), environments, primitive operations and loop bounds", "why_tests_cant": "Equality of all executions, for bodies of any shape and any operation, is beyond a list of rewritten functions.", "anchors": ["clippy_lints/src/returns/needless_return.rs:check_fn", "clippy_lints/src/returns/needless_return.rs:check_block_return", "clippy_lints/src/returns/needless_return.rs:check_final_expr", "clippy_utils/src/lib.rs:binary_expr_needs_parentheses"]}
{"id": "C76", "title": "Taking an expression out of a closure, or putting it in, keeps the behaviour of the call", "statement": "An expression that is taken out of a closure (`unwrap_or_else(|| e)` becomes `unwrap_or(e)`, and likewise for `and_then`, `or_else`, `ok_or_else`, `get_or_insert_with` and `then`) can be evaluated whether or not it is needed: it always has a value, has no effect, does not panic and is not left by `break`, `return` or `.await`; so the method does the same with the value as with the closure. An expression that is put into a closure by `or_fun_call` is not left by `break`, `continue`, `return` or `.await`.", "quantifier": "all expressions of any nesting, receivers, methods, environments, states, constant evaluators that are right and libraries whose accessors are pure", "why_tests_cant": "That an expression cannot panic or have an effect is a statement about all states and all operands.", "anchors": ["clippy_utils/src/eager_or_lazy.rs:expr_eagerness", "clippy_utils/src/eager_or_lazy.rs:fn_eagerness", "clippy_utils/src/visitors.rs:is_const_evaluatable", "clippy_lints/src/methods/unnecessary_lazy_eval.rs:check", "clippy_lints/src/methods/or_fun_call.rs:check_or_fn_call"]}
{"id": "C77", "title": "Where `arithmetic_side_effects` is silent, arithmetic does not panic", "statement": "If `arithmetic_side_effects` reports nothing in a body, then no arithmetic in it overflows, divides by zero or panics in another way when the program runs, except for operators the user has listed in the configuration. A report hides nothing outside of the expression it is for: the reports of a sequence of statements are those of the single statements.", "quantifier": "all bodies of any nesting, types of operands, configurations, machines, states of the variables and constant evaluators that are right", "why_tests_cant": "That an operation cannot overflow is a statement about all values of its operands.", "anchors": ["clippy_lints/src/operators/arithmetic_side_effects.rs:manage_bin_ops", "clippy_lints/src/operators/arithmetic_side_effects.rs:manage_method_call", "clippy_lints/src/operators/arithmetic_side_effects.rs:manage_unary_ops", "clippy_lints/src/operators/arithmetic_side_effects.rs:is_safe_due_to_smaller_source_type", "clippy_lints/src/operators/arithmetic_side_effects.rs:literal_integer"]}
{"id": "C78", "title": "A parameter reported as only used in recursion does not matter", "statement": "A parameter that `only_used_in_recursion` (or `self_only_used_in_recursion`) reports can have any value: calls that differ in reported parameters only end in the same way, with the same value and the same effects, however deep the recursion is. The reported parameters are exactly the largest set of named parameters that are passed on in recursive calls, to each other, and used for nothing else the lint looks at.", "quantifier": "all functions with any number of parameters, bodies of any nesting, arguments, depths of recursion and meanings of the operators and calls in them", "why_tests_cant": "That a parameter does not matter is a statement about all pairs of runs; which ones are reported depends on a search through all chains of uses.", "anchors": ["clippy_lints/src/only_used_in_recursion.rs:check_expr", "clippy_lints/src/only_used_in_recursion.rs:try_disable_lint_for_param", "clippy_lints/src/only_used_in_recursion.rs:flag_for_linting", "clippy_utils/src/lib.rs:get_expr_use_or_unification_node"]}
{"id": "C79", "title": "An iteration reported as infinite never ends", "statement": "A call which `infinite_iter` reports never returns a value, whatever the closures in it do and whatever the items are: the iterator is used up by the call and has no end. Where neither this lint nor `maybe_infinite_iter` reports a call that uses its iterator up, and the parts the lints know nothing about are iterators that end, the call comes to an end.", "quantifier": "all expressions built from any number of iterator adapters, all closures with their states, all iterators as machines with any state, all methods that use up an iterator", "why_tests_cant": "That something never ends cannot be observed in a run; the verdicts combine without a bound on the length of a chain of adapters.", "anchors": ["clippy_lints/src/infinite_iter.rs:is_infinite", "clippy_lints/src/infinite_iter.rs:complete_infinite_iter", "clippy_lints/src/infinite_iter.rs:HEURISTICS", "clippy_lints/src/infinite_iter.rs:COMPLETING_METHODS"]}
{"id": "C80", "title": "Verdicts about indices are true", "statement": "Indexing an array that `out_of_bounds_indexing` reports panics whenever it is evaluated. Where neither this lint nor `indexing_slicing` reports the indexing of an array or slice, it does not panic; where `indexing_slicing` reports, there are values of the variables for which it panics.", "quantifier": "all sizes of arrays and lengths of slices, all indices and ranges with constant, unknown or missing bounds, open or closed, all configurations", "why_tests_cant": "Sizes and bounds are unbounded integers; that an expression never panics is a statement about all values of the variables.", "anchors": ["clippy_lints/src/indexing_slicing.rs:check_expr", "clippy_lints/src/indexing_slicing.rs:to_const_range"]}
{"id": "C81", "title": "Turning a match on an option into `map` or `filter` keeps its meaning", "statement": "Where `manual_map` or `manual_filter` replaces a `match`, an `if let` or a call of `and_then` by `map` or `filter`, with `as_ref` or `as_mut` where the lint adds them, the new code evaluates the same expressions in the same order and has the same result for every value of the option: the variables in the closure are bound to what the pattern bound them to. An expression is moved into a closure only if it is never left by `return`, or by `break` or `continue` of a loop around it.", "quantifier": "all patterns of any nesting with references, `ref`, bindings and alternatives, all types and numbers of references, all bodies, conditions and expressions, all meanings of operations, calls and memory", "why_tests_cant": "Binding modes, references and control flow combine without bound; tests fix a few patterns and look at the text of the suggestion.", "anchors": ["clippy_lints/src/matches/manual_utils.rs:check_with", "clippy_lints/src/matches/manual_utils.rs:try_parse_pattern", "clippy_lints/src/matches/manual_map.rs:get_some_expr", "clippy_lints/src/matches/manual_filter.rs:get_cond_expr", "clippy_lints/src/matches/manual_filter.rs:check_and_then_method", "clippy_utils/src/lib.rs:can_move_expr_to_closure"]}
{"id": "C82", "title": "Turning a match into `unwrap_or`, `ok` or `err` keeps its value", "statement": "Where `manual_unwrap_or`, `manual_unwrap_or_default` or `manual_ok_err` replaces a `match` or an `if let` by a call of `unwrap_or`, `unwrap_or_default`, `ok` or `err` (after `as_ref` or `as_mut` where references are matched), the call evaluates the same expressions and has the same result for every value.", "quantifier": "all patterns of any nesting, both orders of the arms, all numbers of references, all bodies and all meanings of operations, calls and memory; what the compiler says about defaults and constants is assumed", "why_tests_cant": "That two pieces of code agree is a statement about all values and states; tests look at the text of a few suggestions.", "anchors": ["clippy_lints/src/matches/manual_unwrap_or.rs:handle", "clippy_lints/src/matches/manual_unwrap_or.rs:get_some_and_none_bodies", "clippy_lints/src/matches/manual_ok_err.rs:check_match", "clippy_lints/src/matches/manual_ok_err.rs:is_variant_or_wildcard"]}
{"id": "C83", "title": "A match reported as needless gives back what it matches on", "statement": "Where `needless_match` replaces a `match` or a chain of `if let` by the expression that is matched on, the replaced code has the value of that expression, whatever arm is taken, and does nothing else than evaluating it once.", "quantifier": "all values, all patterns of any nesting, any number of arms and guards, chains of any length, all meanings of constants, guards and matched expressions", "why_tests_cant": "A match with any number of arms has to agree with the matched expression for all values, including values behind references, zeros and iterators.", "anchors": ["clippy_lints/src/matches/needless_match.rs:check_match", "clippy_lints/src/matches/needless_match.rs:check_if_let_inner", "clippy_lints/src/matches/needless_match.rs:pat_same_as_expr", "clippy_lints/src/matches/needless_match.rs:expr_ty_matches_p_ty"]}
{"id": "C84", "title": "`is_some()`, `is_ok()`, … and `matches!` have the value of the match they replace", "statement": "Where `redundant_pattern_matching` replaces a `match`, `matches!`, `if let` or `while let` by `is_some()`, `is_none()`, `is_ok()`, `is_err()`, `is_ready()`, `is_pending()`, `is_ipv4()` or `is_ipv6()`, with `&& guard` where there is a guard, or `match_like_matches_macro` replaces a `match` or `if let` with the values `true` and `false` by `matches!`, the new condition evaluates the same expressions and has the same value.", "quantifier": "all values, all patterns of any nesting, both orders of the arms, any number of arms, guards with any effects, all meanings of constants", "why_tests_cant": "Agreement of two conditions is a statement about all values and all guards; tests look at the text of a few suggestions.", "anchors": ["clippy_lints/src/matches/redundant_pattern_match.rs:check_match", "clippy_lints/src/matches/redundant_pattern_match.rs:found_good_method", "clippy_lints/src/matches/redundant_pattern_match.rs:find_method_and_type", "clippy_lints/src/matches/match_like_matches.rs:check_match", "clippy_lints/src/matches/match_like_matches.rs:check_if_let"]}
{"id": "C85", "title": "Replacing an early return by `?` keeps what the function does", "statement": "Where the linter proposes the `?` operator for `if x.is_none() { return None; }`, `if x.is_err() { return x; }`, `if let Some(v) = x { … } else { return None }`, `if let Err(e) = x { return Err(e); }`, a two-armed `match` that returns `None` or the error, or `let Some(p) = x else { return None };`, the new code returns from the function in the same cases with the same value, otherwise goes on with the same value and the same variables, and leaves the same state behind.", "quantifier": "all conditions, patterns, branches, scrutinees, values, states and conversions of errors", "why_tests_cant": "Tests compare the printed suggestion for listed snippets and compile it; whether the function still returns in the same cases and writes to the same place depends on the branches, on references and on every value.", "anchors": ["clippy_lints/src/question_mark.rs:check_is_none_or_err_and_early_return", "clippy_lints/src/question_mark.rs:check_if_let_some_or_err_and_early_return", "clippy_lints/src/question_mark.rs:check_if_try_match", "clippy_lints/src/question_mark.rs:check_let_some_else_return_none", "clippy_lints/src/question_mark.rs:expr_return_none_or_err", "clippy_utils/src/lib.rs:pat_and_expr_can_be_question_mark"]}
{"id": "C86", "title": "Replacing `if let` or `match` that leaves by `let … else` declares the same variables", "statement": "Where the linter proposes `let p = x else { … };` for `let P = if let p = x { … } else { … };` or for a two-armed `match` of which one arm leaves, the new statement leaves in the same cases with the same block, and otherwise declares the variables of `P` with the same values.", "quantifier": "all patterns on both sides, with nested alternatives, prefixes and subpatterns, all branches, arms and values", "why_tests_cant": "Tests compare the printed statement for listed patterns; the pattern is rebuilt recursively with variables replaced by patterns, and whether every variable is found and gets the same value depends on the nesting, the prefixes and the matched value.", "anchors": ["clippy_lints/src/manual_let_else.rs:check_manual_let_else", "clippy_lints/src/manual_let_else.rs:replace_in_pattern", "clippy_lints/src/manual_let_else.rs:expr_simple_identity_map", "clippy_lints/src/manual_let_else.rs:pat_allowed_for_else", "clippy_lints/src/manual_let_else.rs:is_enum_variant"]}
{"id": "C87", "title": "An expression taken for one that never ends with a value has none", "statement": "If the shared analysis behind `manual_let_else`, `infinite_loop` and `unused_unit` answers that an expression never ends with a value (its type is `!`, or would be with a semicolon), then no execution of that expression, however long, ends with a value: it jumps out, panics or runs forever.", "quantifier": "all expressions with nested blocks, labels, loops, matches, guards, `let … else` and jumps, all values and states, and executions of any length", "why_tests_cant": "Tests check that the lints fire on listed snippets; whether no execution gets through depends on the whole nesting of jumps and their targets, and on executions of any length.", "anchors": ["clippy_utils/src/lib.rs:is_never_expr", "clippy_lints/src/manual_let_else.rs:check_manual_let_else", "clippy_lints/src/unused_unit.rs"]}
{"id": "C88", "title": "A loop reported as infinite is never left", "statement": "If `infinite_loop` reports a `loop` and asks for the return type `!`, then no execution of that loop, however long, leaves it: not by `break` to it or past it, not by `continue` of an outer loop, not by `return`, whatever nesting of loops, labels and blocks is inside.", "quantifier": "all loop bodies with nested labelled and unlabelled loops and blocks, matches, guards and jumps, all states, and executions of any length", "why_tests_cant": "Tests list bodies that are or are not reported; which loop a jump reaches depends on nesting and labels of any depth, and an infinite execution cannot be observed by a test.", "anchors": ["clippy_lints/src/loops/infinite_loop.rs:check", "clippy_lints/src/loops/infinite_loop.rs:LoopVisitor"]}
{"id": "C89", "title": "A constant value called local depends on no other definition, macro or configuration", "statement": "Many lints (identity_op, erasing_op, min_max, manual_rotate, iter_nth_zero, …) act only on values that are determined by the expression alone. If the evaluator calls a value local, then no other program that contains the same expression, with other values of named constants, other results of macros, and other code removed by `#[cfg]`, gets another value for it. And an expression which is written in one place from literals, operators and constants of the standard library is always local.", "quantifier": "all expressions of any size, all pairs of programs that agree on them, all values of constants and all results of macros and configurations", "why_tests_cant": "A test compiles one configuration with one set of definitions; the claim compares all of them.", "anchors": ["clippy_utils/src/consts.rs:ConstEvalCtxt::eval_local", "clippy_utils/src/consts.rs:ConstEvalCtxt::expr", "clippy_utils/src/consts.rs:ConstEvalCtxt::block", "clippy_utils/src/consts.rs:ConstEvalCtxt::fetch_path"]}
{"id": "C90", "title": "An expression whose type is said to need no context has only one type", "statement": "Several lints ask whether the type of an expression can be determined from the expression alone, because their suggestions (method calls on the expression, dropped casts, removed wrappers) do not compile, or change types, if inference needs the context. If the analysis says so, then all ways of inferring types give the expression the same type: however the type arguments that nobody wrote and the types of numbers without suffix are chosen, the result is the same.", "quantifier": "all expressions (operators, fields, indices, arrays, tuples, calls, methods, casts, conditionals, variables, parameters, paths with any segments and type arguments, struct literals), all definitions with type parameters, all choices of inference", "why_tests_cant": "The tests contain a handful of paths and literals; the claim is about every choice of inference for every combination of generic functions, methods, type arguments and operators.", "anchors": ["clippy_utils/src/ty/type_certainty/mod.rs: expr_type_is_certain", "clippy_utils/src/ty/type_certainty/certainty.rs: Certainty", "clippy_lints/src/operators/manual_is_multiple_of.rs"]}
{"id": "C91", "title": "Turning a match guard into a pattern keeps which arm runs", "statement": "redundant_guards suggests to put the test of a guard (matches!, if let, ==, is_empty, starts_with, ends_with on a variable of the pattern) into the pattern itself. The match with the changed arm does the same as before: for every value the same arm runs, and its body sees the same values of its variables, whatever the arms before and after it are.", "quantifier": "all patterns (nested constructors, structs, slices, references, alternatives, bindings), all guards, all values, all surrounding arms and all programs around the match", "why_tests_cant": "The tests compare the text of suggestions for a few patterns; that the pattern selects exactly the values the guard selected must hold for every value and every nesting of patterns.", "anchors": ["clippy_lints/src/matches/redundant_guards.rs: check, get_pat_binding, check_method_calls, emit_redundant_guards, expr_can_be_pat"]}
{"id": "C92", "title": "Collapsing a nested match, if let or if into the outer match keeps the result", "statement": "collapsible_match proposes to fold an inner match or if let on a variable of the arm into the arm's pattern, and an inner if into the arm's guard, when the inner else is the same as the outer wildcard arm. After the change, every value leads to the same result, and in the case of the guard (which is applied automatically) the same conditions are evaluated in the same order.", "quantifier": "all lists of arms with any patterns and guards, all positions of the collapsed arm, all inner patterns and conditions, all values", "why_tests_cant": "Whether a failing guard or pattern falls through to an arm with the same body depends on every other arm and every value; the tests contain a few lists of arms and never run them.", "anchors": ["clippy_lints/src/matches/collapsible_match.rs: check_match, check_if_let, check_arm, arm_is_wild_like, find_pat_binding_and_is_innermost_parent_pat_struct"]}
{"id": "C93", "title": "Moving a declaration to the statement that initialises the variable does not change the block", "statement": "When the lint about late initialisations suggests to remove `let x;` and to write `let x = ..` at the assignment, or `let x = if/match ..` (or a tuple of variables) where all branches assign it, the new block has the same value, is left in the same cases, does the same things in the same order, including drops, and leaves the other variables in the same state.", "quantifier": "all blocks of declarations, assignments and other code, all positions of the declarations, all branches with any statements before the assignments, all code that may leave the block, all machines and states", "why_tests_cant": "The claim is about all orders of evaluation and drops and all points where a block may be left; the tests compare texts for some examples.", "anchors": ["clippy_lints/src/needless_late_init.rs:first_usage", "clippy_lints/src/needless_late_init.rs:LocalAssignGroup::new", "clippy_lints/src/needless_late_init.rs:check_local", "clippy_lints/src/needless_late_init.rs:check_block_post"]}
{"id": "C94", "title": "Replacing a declaration and a conditional assignment by one declaration does not change the block", "statement": "When the lint about `let x = d; if c { ..; x = v; } else { .. }` suggests `let x = if c { ..; v } else { ..; d };`, the block with the new declaration has the same value, is left in the same cases, does the same things in the same order, and leaves the other variables in the same state.", "quantifier": "all initialisers, conditions, branches with any statements before the assignment, all statements before and after, all code that may leave the block, all machines and states", "why_tests_cant": "The claim is about all orders of evaluation; the suggestion has placeholders, so tests cannot even run the result.", "anchors": ["clippy_lints/src/let_if_seq.rs:check_block_inner", "clippy_lints/src/let_if_seq.rs:check_assign"]}
{"id": "C95", "title": "Using the entry of a map instead of a check and insertions does not change the program", "statement": "When the lint about `contains_key` followed by `insert` suggests `map.entry(key).or_insert(v)`, `.or_insert_with(..)`, `if let Vacant(e) = map.entry(key) { .. }`, `if let Occupied(mut e) = ..` or a `match` on the entry, the suggested program ends in the same state (the same map, the same effects), is left in the same cases, and, if there is an `else`, has the same value; with an `else`, it does not use a key that cannot be copied after `entry(key)` has moved it.", "quantifier": "all branches built of insertions, conditionals, matches, loops, blocks, declarations and any other code, with any nesting, all systems and states", "why_tests_cant": "The searcher keeps flags (tail position, map used, closure allowed) through arbitrarily nested branches and moves insertions out of them; tests try a few nestings.", "anchors": ["clippy_lints/src/entry.rs:check_expr", "clippy_lints/src/entry.rs:InsertSearcher", "clippy_lints/src/entry.rs:InsertSearchResults::snippet", "clippy_lints/src/entry.rs:InsertSearchResults::snippet_closure"]}
{"id": "C96", "title": "Code shared by all branches can be moved out of the if", "statement": "When branches_sharing_code says that all branches of an if chain begin and end with the same statements, moving those at the start in front of the if and those at the end behind it gives a program that does the same: the statements are textually the same in all branches, they refer to the same variables after the move, and the conditions choose the same branch.", "quantifier": "all if chains with any number of branches, all statements and variable scopes (shadowing included), all meanings of the code and all starting states", "why_tests_cant": "Which statements may move depends on the interplay of shadowing, of correspondences between variables of different branches that are added and forgotten during two scans in opposite directions, and of what each statement may modify; tests only show a few combinations.", "anchors": ["clippy_lints/src/ifs/branches_sharing_code.rs: check, scan_block_for_eq, eq_stmts, eq_binding_names, modifies_any_local, adjust_by_closest_callsite", "clippy_utils/src/hir_utils.rs: HirEqInterExpr::eq_stmt, eq_path"]}
{"id": "C97", "title": "Replacing `splitn` by `split` or `split_once` keeps the value", "statement": "When needless_splitn or manual_split_once suggests another way to split a string, the suggested code has the same value, the same early exits and panics and asks the pattern the same questions, for splitn and rsplitn, used in one expression or in two declarations; needless_splitn reports a limit exactly if it can never matter; what suspicious_splitn says about the iterator is true.", "quantifier": "all strings, all patterns (closures with state included), all limits and indices, all continuations of the expression and of the block", "why_tests_cant": "Whether the limit matters depends on the number of matches and on the direction of the search; the pieces have to end up in the right order for both directions, with unwrap, ? or without; tests only show some of the combinations.", "anchors": ["clippy_lints/src/methods/str_splitn.rs: check, lint_needless, check_manual_split_once, check_manual_split_once_indirect, indirect_usage, parse_iter_usage", "clippy_lints/src/methods/suspicious_splitn.rs: check"]}
{"id": "C98", "title": "Eliding lifetimes keeps the signature", "statement": "When needless_lifetimes or elidable_lifetime_names suggests to elide lifetimes of a function, the function that is suggested has, by the elision rules of the language, the same signature up to the names of the elided parameters, and mentions none of them any more; the edits of the list of parameters do not overlap and leave the list of the other parameters.", "quantifier": "all signatures: any nesting of references, generic arguments, trait objects, function pointers and Fn bounds, any receiver, any mixture of named, anonymous and static lifetimes, any subset of parameters", "why_tests_cant": "What an omitted lifetime stands for depends on the whole signature: on how many lifetimes the inputs have, on the receiver, on scopes inside the types; which comma goes with which parameter depends on all parameters after it; tests list a few dozen signatures.", "anchors": ["clippy_lints/src/lifetimes.rs: check_fn_inner, could_use_elision, named_lifetime_occurrences, RefVisitor, has_where_lifetimes, report_elidable_lifetimes, elision_suggestions"]}
{"id": "C99", "title": "Writing variables into a format string keeps what is printed", "statement": "When uninlined_format_args suggests to write variables into the format string and to drop the arguments, the suggested call is accepted and prints what the original prints: every placeholder, width and precision gets the same value, whether it referred to its argument by order, number or name.", "quantifier": "all format strings (any mixture of implicit, numbered and named references, widths, precisions, `.*`), all argument lists, all values of variables and expressions, both settings of allow-mixed-uninlined-format-args", "why_tests_cant": "Dropping an argument shifts the numbers of all others, and which argument `{}` means depends on all placeholders before it; tests cannot cover all interleavings of references and arguments that stay.", "anchors": ["clippy_lints/src/format_args.rs: check_uninlined_args, check_one_arg, format_arg_positions", "clippy_utils/src/macros.rs: format_arg_removal_span"]}
{"id": "C100", "title": "A while-let loop over an iterator can be written as a for loop", "statement": "When the lint about `while let Some(x) = it.next()` suggests a `for` loop, the body of the loop does not access the iterator, which the `for` loop keeps borrowed, the new loop does the same as the old one, and if the iterator is moved into the loop nothing that may run later accesses it.", "quantifier": "all loop bodies and functions of the modelled language (places with fields, indices and dereferences, assignments, lets, loops, closures, breaks), all states and numbers of rounds", "why_tests_cant": "The tests are some twenty loops; the claim is about every body and every way control can come back to the iterator.", "anchors": ["clippy_lints/src/loops/while_let_on_iterator.rs:check", "clippy_lints/src/loops/while_let_on_iterator.rs:try_parse_iter_expr", "clippy_lints/src/loops/while_let_on_iterator.rs:is_expr_same_child_or_parent_field", "clippy_lints/src/loops/while_let_on_iterator.rs:uses_iter", "clippy_lints/src/loops/while_let_on_iterator.rs:needs_mutable_borrow", "clippy_utils/src/lib.rs:get_enclosing_loop_or_multi_call_closure"]}
{"id": "C101", "title": "A loop over a range that only indexes one sequence can be written with an iterator", "statement": "If needless_range_loop suggests `for <item> in seq.iter()...` or `for (i, <item>) in seq.iter_mut().enumerate()...` for `for i in start..stop { body }`, then with `<item>` written for `seq[i]` the body no longer mentions the variable that `seq` is a part of, uses `i` only if it is in the new pattern, changes elements only if `iter_mut` is used, and the new loop goes over the same indices in the same order with the same effect.", "quantifier": "all bodies with nested fields, indices, assignments, borrows, conditions, breaks and inner loops, all ends of ranges, all states and numbers of rounds", "why_tests_cant": "Whether the elements that `skip`, `take` and `enumerate` select are those of the range depends on the way the ends are written and on the lengths at run time, and whether the container is free of other uses depends on the whole body; the UI tests compare a few dozen messages and never run either loop.", "anchors": ["clippy_lints/src/loops/needless_range_loop.rs: check, is_len_call, is_end_eq_array_len, VarVisitor"]}
{"id": "C102", "title": "Replacing fold by any, all, sum, product or map_or keeps the value", "statement": "If unnecessary_fold suggests `any`, `all`, `sum`, `product` or `map_or` for a call of `fold`, the new call has the value of the fold for every iterator, panics only if the fold does, and has the same effects, except that `any` and `all` stop the iterator early.", "quantifier": "all closures with nested calls, assignments and declarations, all iterators whose `next` has effects, all options, all values including overflow", "why_tests_cant": "Short circuits, overflow, names that are captured after the accumulator is replaced by text, and effects of the iterator depend on the whole closure and on all items; the UI tests compare the text of a few suggestions.", "anchors": ["clippy_lints/src/methods/unnecessary_fold.rs: check, check_standard_fold, check_fold_with_op, check_fold_with_method, get_triggered_expr_span, check_option_fold"]}
{"id": "C103", "title": "Stripping a tested prefix or suffix with strip_prefix or strip_suffix keeps the behaviour", "statement": "If the lint manual_strip suggests `if let Some(x) = s.strip_prefix(p) { … }` for `if s.starts_with(p) { … &s[p.len()..] … }` (or the same for a suffix), the new code gives the same value, makes the same calls with the same arguments and leaves all variables as the old code did, whether the prefix is there or not. The lint does not fire if the string variable is changed in the block, and if it stays silent for another reason, there is no such slice.", "quantifier": "all blocks (slices, declarations, shadowing, assignments, calls), all strings, patterns and states, and every name for the new variable", "why_tests_cant": "The new variable is visible in the whole block while the declaration it replaces was not, so the claim depends on every use of every name before, in and after its scope; and the value of a slice depends on all assignments before it. Tests cover a few blocks.", "anchors": ["clippy_lints/src/manual_strip.rs: check_expr", "clippy_lints/src/manual_strip.rs: find_stripping", "clippy_lints/src/manual_strip.rs: eq_pattern_length", "clippy_utils/src/usage.rs: mutated_variables"]}
{"id": "C104", "title": "A loop reported for a condition that does not change is never ended by its condition", "statement": "If the lint while_immutable_condition reports `while cond { body }`, the condition has no effects and has the same value before every round; so the loop behaves like `if cond { loop { body } }`, as the help text suggests. If it is reported without the note about break and return and the condition is true at the start, the loop does not end (except by a panic).", "quantifier": "all conditions and bodies (assignments, mutable borrows, calls, static variables, nested loops, labelled break and continue, return), all states, all behaviours of the called functions, and any number of rounds", "why_tests_cant": "The claim is about all rounds of a loop, of which there are infinitely many when the report is right; a test can only run finitely many and only some bodies.", "anchors": ["clippy_lints/src/loops/while_immutable_condition.rs: check, VarCollectorVisitor, HasBreakOrReturnVisitor", "clippy_utils/src/usage.rs: mutated_variables"]}
{"id": "C105", "title": "A wrapper that is reported as unnecessary is always the same variant and can be removed", "statement": "If unnecessary_wraps reports a function for returning `Option`/`Result` without need, every call of the function that returns gives `Some(..)`/`Ok(..)`, and with the suggested edits the function makes the same calls and returns what was wrapped. If bind_instead_of_map reports `x.and_then(|y| body)` (or `or_else`), `x.map(|y| body')` (`map_err`) with the suggested body does the same.", "quantifier": "all function and closure bodies of the modelled language (calls, if, match with guards, let, loops, blocks, labels, early returns, `?`, macros), all states, all worlds that answer the calls", "why_tests_cant": "What a body returns is spread over all its branches and early returns; tests have some dozens of bodies, the claim is about every nesting of them.", "anchors": ["clippy_utils/src/visitors.rs:find_all_ret_expressions", "clippy_lints/src/unnecessary_wraps.rs:UnnecessaryWraps::check_fn", "clippy_lints/src/methods/bind_instead_of_map.rs:BindInsteadOfMap::check"]}
{"id": "C106", "title": "Writing literals into the format string keeps what is printed", "statement": "If print_literal or write_literal suggests to write literal arguments into the format string, the suggested call compiles and prints the same text: the characters of the literal are printed as they were, whatever escapes, braces and quotes it contains and whether the strings are raw or not, and every other placeholder, width and precision refers to the same argument as before.", "quantifier": "all format strings (any mixture of references by order, number and name, widths, precisions, `.*`), all argument lists, all string, raw string, character and bool literals, all values of the other arguments", "why_tests_cant": "The text of a literal passes through two lexers and the format parser, and removing arguments shifts all numbers; tests cover some escapes and some orders of arguments.", "anchors": ["clippy_lints/src/write/literal.rs:check", "clippy_lints/src/write/literal.rs:relocalize_format_args_indexes", "clippy_lints/src/write/literal.rs:extract_str_literal", "clippy_lints/src/write/literal.rs:conservative_unescape", "clippy_lints/src/write/literal.rs:escape_braces"]}
{"id": "C107", "title": "Recursive lintcheck checks every dependency once and keeps all warnings, in every schedule", "statement": "`lintcheck --recursive` runs Clippy on every package for which cargo calls the compiler, exactly once per package and version and never on ignored ones, and its results are exactly the warnings Clippy gave about these packages. This holds for every order in which the wrapper processes, the accepting thread, the threads of the connections and the main thread take their steps; no order gets stuck, runs forever or loses a connection, and if a run of Clippy or of the compiler fails there are no results. The links of the warnings lead to the file and line on docs.rs.", "quantifier": "all lists of invocations of the compiler, all outputs of Clippy, all sets of ignored packages, all interleavings of the processes and threads, wrappers killed at any step", "why_tests_cant": "A test runs one schedule on one machine; races between accepting, answering, closing the channel and collecting show up only under particular interleavings, and a lost warning leaves no trace.", "anchors": ["lintcheck/src/recursive.rs:process_stream", "lintcheck/src/recursive.rs:LintcheckServer::spawn", "lintcheck/src/recursive.rs:LintcheckServer::warnings", "lintcheck/src/driver.rs:run_clippy", "lintcheck/src/driver.rs:drive", "lintcheck/src/output.rs:ClippyWarning::new", "lintcheck/src/main.rs:lintcheck"]}
{"id": "C108", "title": "lintcheck checks the sources its list asks for, after any history of interrupted runs", "statement": "When a run of lintcheck gets to checking, the directory of each crate of its list holds exactly the files of the named version, commit or local directory, except files that would select another toolchain. This holds after any sequence of earlier runs with other lists, each of which may have been interrupted at any point. An entry of the list is accepted if and only if it names exactly one kind of source, and a download is given up only after five failures to connect or an answer with an error.", "quantifier": "all histories of runs with any lists of crates, an interruption after any step on the disk, all contents of archives, repositories and local directories, all sequences of results of downloads", "why_tests_cant": "A test starts with an empty or a complete cache; what an interruption leaves behind, and what later runs with other lists make of it, depends on the crash point and the history.", "anchors": ["lintcheck/src/input.rs:read_crates", "lintcheck/src/input.rs:CrateWithSource::download_and_prepare", "lintcheck/src/input.rs:CrateWithSource::download_and_extract", "lintcheck/src/main.rs:lintcheck"]}
{"id": "C109", "title": "The uses of a local that lints rely on are those of every execution", "statement": "When a lint is told that a variable is used exactly once, no execution of the function uses its value more than once, and some execution does. The uses of variables after a position that are collected are exactly the uses at positions which some execution reaches after it, as often as they are there; nothing is collected exactly if the position itself can be executed again. A block is said to be in a cycle if and only if an execution can come back to it, and the assignments of a variable are exactly the positions which give it a new value.", "quantifier": "all bodies in the compiler's intermediate representation, all control-flow graphs with any loops and unwinding, all positions, all variables, all executions of any length", "why_tests_cant": "Tests compare reports on a few functions; that no path through any control-flow graph uses a variable twice quantifies over infinitely many executions, and missed uses show up as suggestions that do not compile or change behaviour.", "anchors": ["clippy_utils/src/mir/mod.rs:visit_local_usage", "clippy_utils/src/mir/mod.rs:block_in_cycle", "clippy_utils/src/mir/mod.rs:used_exactly_once", "clippy_utils/src/mir/mod.rs:local_assignments"]}
{"id": "C110", "title": "A variable said to be borrowed by nothing else is referred to by nothing else", "statement": "When a lint is told that a variable has only the given borrowers at a position, then in no execution does any other variable that has storage there hold a reference to it, directly or through other references, including references stored by calls in variables that were passed by mutable reference. The possible borrowers are exactly the variables reached by chains of borrowing, copying, moving and passing to calls.", "quantifier": "all function bodies in the compiler's intermediate representation, all orders of execution, all variables, all sets of variables with storage", "why_tests_cant": "Tests look at reports for a few functions; which references can be live in an arbitrary body after an arbitrary sequence of calls needs an argument about all executions, and a missed borrower shows up as a suggestion that does not compile.", "anchors": ["clippy_utils/src/mir/possible_borrower.rs:PossibleBorrowerMap", "clippy_utils/src/mir/possible_borrower.rs:bounded_borrowers", "clippy_utils/src/mir/possible_origin.rs:PossibleOriginVisitor", "clippy_utils/src/mir/transitive_relation.rs:TransitiveRelation"]}
{"id": "C111", "title": "Removing a clone that is reported as redundant does not change what the program sees", "statement": "When a call that clones a value is reported as redundant, leaving it out, so that the clone is the value itself, changes nothing: whatever is executed afterwards, every use of a variable finds the value that it would have found with the clone. The value is that of a variable or of a part of it which can be moved out, nothing else borrows it, the call is not in a loop, and clones of values that are not used any more are found.", "quantifier": "all function bodies in the compiler's intermediate representation, all control-flow graphs, all executions after the clone, all meanings of instructions", "why_tests_cant": "Tests compare reports on a few functions; that two programs behave alike is a statement about all executions and all values, and the suggestion is marked as applicable by machine.", "anchors": ["clippy_lints/src/redundant_clone.rs:check_fn", "clippy_lints/src/redundant_clone.rs:visit_clone_usage", "clippy_lints/src/redundant_clone.rs:find_stmt_assigns_to", "clippy_lints/src/redundant_clone.rs:base_local_and_movability"]}
{"id": "C112", "title": "A loop reported for pushing the same item appends that item once per iteration", "statement": "When a loop `for _ in … { … }` is reported because it pushes the same item into a vector, every complete iteration appends exactly one element to that vector, and it is the same value in all iterations, so that n iterations append n copies of it, whatever else the body does. The report is made exactly if the statements that are always run have one push, on a variable that they don't use otherwise, of a literal, a constant or an immutable variable initialised by one.", "quantifier": "all loop bodies, all numbers of iterations, all behaviours of the other operations, all contents of the vector", "why_tests_cant": "The other operations of a body can do anything to the variables they are given; tests only show bodies whose reports somebody thought of, not that one push per iteration follows from what is looked at.", "anchors": ["clippy_lints/src/loops/same_item_push.rs:check", "clippy_lints/src/loops/same_item_push.rs:SameItemPushVisitor", "clippy_lints/src/loops/same_item_push.rs:get_vec_push"]}
{"id": "C113", "title": "Expressions without a report of mixed reads and writes do not depend on the order of evaluation", "statement": "If no read of a variable is reported as unsequenced relative to a write, an expression has the same value and leaves the same variables whatever the order in which the operands of its operations are evaluated. The reports are exactly the pairs of a read and a write of one variable in different operands of one operation.", "quantifier": "all expressions, all orders of evaluation of the operands of all operations in them, all values of variables and meanings of operations", "why_tests_cant": "The number of orders grows with the factorial of the number of operands at every level, and the compiler only ever uses one of them, so that no test can run the others.", "anchors": ["clippy_lints/src/mixed_read_write_in_expression.rs:check_for_unsequenced_reads", "clippy_lints/src/mixed_read_write_in_expression.rs:ReadVisitor", "clippy_lints/src/mixed_read_write_in_expression.rs:check_stmt"]}
{"id": "C114", "title": "A suggested larger unit for a duration makes the same duration", "statement": "When a call such as Duration::from_secs(3600) is reported, the suggested constructor and value make the same duration, with a larger unit that is available for the configured Rust version and features; it is the largest one that is exact and reachable through available units. Whatever has such a unit is found.", "quantifier": "all 64-bit values, all units, all Rust versions and both settings of the unstable feature", "why_tests_cant": "The values range over 2^64 numbers and the loop stops at the first unit that does not divide; tests try a few round numbers.", "anchors": ["clippy_lints/src/duration_suboptimal_units.rs:promote", "clippy_lints/src/duration_suboptimal_units.rs:UNITS", "clippy_lints/src/duration_suboptimal_units.rs:check_expr"]}
{"id": "C115", "title": "A suggested is_ascii_* method holds for the same characters as the range test", "statement": "When matches!(c, pattern) or range.contains(&c) is reported as a manual ASCII check, the suggested method is true of exactly the characters and bytes of which the test is true, however the alternatives are ordered and nested.", "quantifier": "all patterns of ranges and alternatives in any order, all characters and bytes, all values of constants in patterns", "why_tests_cant": "The patterns nest without bound and each has to be compared with the method on every character.", "anchors": ["clippy_lints/src/manual_is_ascii_check.rs:check_pat", "clippy_lints/src/manual_is_ascii_check.rs:check_is_ascii", "clippy_lints/src/manual_is_ascii_check.rs:check_expr"]}
{"id": "C116", "title": "A statement reported as having no effect can be left out, and a reduced statement does the same", "statement": "If an expression statement is reported as having no effect, executing it changes nothing. If it is reported as an unnecessary operation, the suggested statements have the same effects, in the same order, as the statement.", "quantifier": "all expression statements of any depth, all meanings of the called functions, of operators and of destructors, all states", "why_tests_cant": "Effects hide in calls behind operators, in destructors and in what closures take along, at any depth of the expression, and depend on what the called code does.", "anchors": ["clippy_lints/src/no_effect.rs:has_no_effect", "clippy_lints/src/no_effect.rs:reduce_expression", "clippy_lints/src/no_effect.rs:check_no_effect", "clippy_lints/src/no_effect.rs:check_unnecessary_operation"]}
{"id": "C117", "title": "Octal-looking escapes are found exactly, and the suggested escapes mean what they say", "statement": "In a string literal the reports of octal_escapes are exactly the null escapes that are followed by octal digits, with the right position in the source. The suggested hexadecimal escape stands for the number that the octal digits denote and leaves the rest of the string as it is; the suggested null escape leaves the whole string as it is.", "quantifier": "all texts of string, byte string and C string literals that the compiler accepts, of any length and with any other escapes", "why_tests_cant": "Which backslashes begin an escape depends on everything before them, and literals have no bound on their length.", "anchors": ["clippy_lints/src/octal_escapes.rs:check_expr"]}
{"id": "C118", "title": "Reducing a condition with boolean literals keeps what the function does", "statement": "Replacing an if whose branches are boolean literals, return them or assign them by the condition or its negation does the same; so does replacing an early return of a boolean literal and the opposite literal after it by the condition, with or without a constructor around it. An if reported as always having one value has it.", "quantifier": "all conditions, including those with side effects and those that return or panic, all blocks around the branches, all statements before, all places in the function", "why_tests_cant": "The reduction is applied wherever a block has this shape; tests only have it at the end of functions.", "anchors": ["clippy_lints/src/needless_bool.rs:check_expr", "clippy_lints/src/needless_bool.rs:check_block", "clippy_lints/src/needless_bool.rs:fetch_bool_and_wrapper", "clippy_lints/src/needless_bool.rs:fetch_assign"]}
{"id": "C119", "title": "Saturating arithmetic has the value of the checked one with its default", "statement": "When the linter replaces `a.checked_op(b).unwrap_or(d)` or `a.checked_sub(b).unwrap_or_default()` by `a.saturating_op(b)`, both have the same value for all values of `a` and `b`, for integers of every width and sign. Wherever the default is written as the bound towards which the operation overflows (for signed types with `b` a literal), it is replaced.", "quantifier": "all integer types, operations, values of both operands, and ways to write the default", "why_tests_cant": "the bounds of ten types and all values of the operands matter; tests name a few literals", "anchors": ["clippy_lints/src/methods/manual_saturating_arithmetic.rs::check_unwrap_or", "clippy_lints/src/methods/manual_saturating_arithmetic.rs::check_sub_unwrap_or_default", "clippy_lints/src/methods/manual_saturating_arithmetic.rs::is_min_or_max", "clippy_lints/src/methods/manual_saturating_arithmetic.rs::lit_sign"]}
{"id": "C120", "title": "Questions about variants keep value and effects", "statement": "When the linter replaces comparisons like `r.map(f) == Some(true)`, `r.map(f).unwrap_or_default()`, `r.filter(f).is_some()`, `r.ok().is_some_and(f)` or `r.is_none() || r.is_some_and(f)` by `is_some_and`, `is_ok_and` and `is_none_or`, the new expression has the same value, runs the same functions on the same values and has the same effects. What is suggested is not reported again.", "quantifier": "all such expressions, receivers and functions with effects, and states of the program", "why_tests_cant": "functions and receivers may do anything, closures may return early; tests use a few pure ones", "anchors": ["clippy_lints/src/methods/manual_is_variant_and.rs::check_map", "clippy_lints/src/methods/manual_is_variant_and.rs::emit_lint", "clippy_lints/src/methods/manual_is_variant_and.rs::MapFunc::sugg", "clippy_lints/src/methods/manual_is_variant_and.rs::check_or", "clippy_lints/src/methods/manual_is_variant_and.rs::check_is_some_is_none", "clippy_lints/src/methods/manual_is_variant_and.rs::check_map_unwrap_or_default", "clippy_lints/src/methods/manual_is_variant_and.rs::check_ok_is_some_and"]}
{"id": "C121", "title": "Replacing chains of methods on options, or matches by chains, keeps what the program does", "statement": "The suggestions `if c { a } else { b }` for `c.then(..).unwrap_or(..)`, `map_or(a, f)` for `map(f).unwrap_or(a)`, `a.zip(b)` for nested `and_then` and `map`, and `map_or` or `map_or_else` for a match or `if let` with an `else` have the same value as the code they replace, with the same effects in the same order, and leave the function exactly where that did.", "quantifier": "all such chains and matches, code with effects and early returns, and states of the program", "why_tests_cant": "effects, their order and returns are not visible in the pure examples that tests use", "anchors": ["clippy_lints/src/methods/obfuscated_if_else.rs::check", "clippy_lints/src/methods/map_unwrap_or.rs::check", "clippy_lints/src/methods/manual_option_zip.rs::check", "clippy_lints/src/methods/manual_option_zip.rs::zip_operands", "clippy_lints/src/option_if_let_else.rs::try_get_option_occurrence", "clippy_lints/src/option_if_let_else.rs::try_convert_match"]}
{"id": "C122", "title": "Loops and conditions that pop or fill have the same effect in their shorter form", "statement": "A loop that tests a vector for elements and takes one in its first statement, a condition on the last or first element of a collection that guards taking it, and a loop that assigns one value to all elements of a slice do the same, in the same order and for the same elements, as the `while let`, `pop_if` or `fill` that is suggested for them.", "quantifier": "all first statements and patterns, all receivers and arguments, all bodies and ways of leaving them, all collections, conditions and tails, all slices, values and indices, any number of rounds", "why_tests_cant": "Tests pop in a `let` without `else`, guard with a plain variable and index with the variable of the loop; whether an argument before the pop, a pattern below a variable, a tail after the inner condition or another index is lost depends on combinations they do not have.", "anchors": ["clippy_lints/src/loops/manual_while_let_some.rs: check, check_local, check_call_arguments, report_lint", "clippy_lints/src/manual_pop_if.rs: ManualPopIfKind, check_is_some_and_pattern, check_if_let_pattern, check_let_chain_pattern, check_map_unwrap_or_pattern, check_expr", "clippy_lints/src/loops/manual_slice_fill.rs: check, sugg"]}
{"id": "C123", "title": "Shorter operations on texts and characters keep the text or the answer", "statement": "Replacements that are merged, reported as needless or searched for in arrays of characters give the same text; questions about the first or last character, about ASCII or about the characters of a literal have the same answer; and a character literal made of a string literal, or a string literal made of a character literal, stands for the same character.", "quantifier": "all texts, all characters, all chains of replacements with methods between them, all closures made of negations, blocks and renamings, all escapes and styles of literals", "why_tests_cant": "Tests merge two or three replacements by a text that has none of the characters, and convert plain literals; whether a replaced character occurs in the new text, a method stands between the calls or a literal spans lines are combinations of inputs they do not have.", "anchors": ["clippy_lints/src/methods/collapsible_str_replace.rs: check, collect_replace_calls, check_consecutive_replace_calls", "clippy_lints/src/methods/no_effect_replace.rs: check, lit_string_value", "clippy_lints/src/methods/needless_character_iteration.rs: check, handle_expr", "clippy_lints/src/methods/chars_cmp.rs: check", "clippy_lints/src/methods/chars_cmp_with_unwrap.rs: check", "clippy_lints/src/methods/manual_str_repeat.rs: check", "clippy_lints/src/methods/string_lit_chars_any.rs: check", "clippy_utils/src/source.rs: str_literal_to_char_literal"]}
{"id": "C124", "title": "Replacing an immediate closure call, an unwrapped literal or a min/max with an extreme keeps what the expression does", "statement": "When clippy suggests the body for closures that are called where they are written, the content (or a panic, a default, the alternative) for `unwrap`-like methods on a literal `Some`, `None`, `Ok` or `Err`, or one operand for `min`/`max` with a literal or an extreme of the type, the suggested expression has the same value, the same effects and the same way to end as the original one, and is still read as one operand in the text around it.", "quantifier": "all expressions with closures, calls, variants, early returns and effectful calls, all programs around them, all integer types, and all texts in which the expression stands", "why_tests_cant": "Tests have closures that consume exactly their calls, pure arguments and suggestions that stand alone; the conditions are about every nesting of calls and closures, every argument with effects and every operator around the expression.", "anchors": ["clippy_lints/src/redundant_closure_call.rs: find_innermost_closure, get_parent_call_exprs, check_expr", "clippy_lints/src/methods/unnecessary_literal_unwrap.rs: check", "clippy_lints/src/methods/unnecessary_min_or_max.rs: check, lint, detect_extrema"]}
{"id": "C125", "title": "Replacing filter_map, find_map and searches by simpler iterator methods keeps what the iteration does", "statement": "When clippy says that a `filter_map` or `find_map` can be `map`, `filter` or nothing at all, splits `filter_map(|x| c.then(|| b))` into `filter` and `map`, or replaces `find(..).is_some()`, `position(..)` and `rposition(..)` by `any`, then every consumer of the iterator sees the same items, with the same effects in the same order and the same panics.", "quantifier": "all closure bodies made of options, conditions, matches, blocks, labels, returns, assignments and effectful expressions, all programs around them, all sequences of items and all consumers, those that stop early included", "why_tests_cant": "Tests have closures with a few shapes of bodies and look at the message; that no item is dropped or changed must hold for every body, every early return, every sequence of items and every consumer.", "anchors": ["clippy_lints/src/methods/unnecessary_filter_map.rs: check, check_expression", "clippy_lints/src/methods/filter_map_bool_then.rs: check, can_filter_and_then_move_to_closure", "clippy_lints/src/methods/search_is_some.rs: check", "clippy_utils/src/lib.rs: contains_return"]}
{"id": "C126", "title": "Rewrites that move temporaries and values keep the order in which they are dropped", "statement": "When clippy moves the `;` into or out of a block, returns an expression instead of a variable that was bound to it, or writes a loop as `while let`, every `Drop` implementation with an effect runs at the same point as before; a type that clippy takes for one without such effects runs no code of the program when it is dropped, and every temporary that outlives an expression is looked at.", "quantifier": "all type definitions (recursive ones included), all expressions with temporaries, all statements around them, both ways in which the editions drop the temporaries of a block's tail, all programs and numbers of rounds", "why_tests_cant": "Tests compare the text of suggestions; which drops run in which order depends on every nesting of temporaries, variables and types, and on the edition.", "anchors": ["clippy_utils/src/ty/mod.rs: needs_ordered_drop", "clippy_utils/src/visitors.rs: for_each_unconsumed_temporary, any_temporaries_need_ordered_drop", "clippy_lints/src/semicolon_block.rs: semicolon_inside_block, semicolon_outside_block, check_stmt", "clippy_lints/src/returns/let_and_return.rs: check_block, last_statement_borrows", "clippy_lints/src/loops/while_let_loop.rs: could_be_while_let"]}
{"id": "C127", "title": "Sorting by a key gives the order of the comparison that it replaces", "statement": "When clippy replaces `sort_by(|a, b| …cmp…)` by `sort()`, `sort_by_key(|a| …)` or a key with `Reverse`, every question whether one element is less than another has the same answer and the same effects as before, and the order of equal elements is kept exactly if it was kept before; comparisons whose sides are the same expression of the two elements are found.", "quantifier": "all patterns of the parameters, all expressions on both sides of the comparison (with effects), all meanings of functions, methods, operators and comparisons, all sorting algorithms", "why_tests_cant": "Tests compare the text of suggestions for a few closures; whether two sides are the same function of their elements depends on every nesting of patterns, calls, casts, borrows and paths.", "anchors": ["clippy_lints/src/methods/unnecessary_sort_by.rs: mirrored_exprs, mapping_of_mirrored_pats, detect_lint, expr_is_field_access, check"]}
{"id": "C128", "title": "Subtractions of times behave as before when clippy rewrites them, and what it says about constant durations is true", "statement": "When two durations that are written as constants are subtracted, clippy keeps silent only if the subtraction works and says that it will underflow only if it panics. Where it suggests a checked subtraction that is unwrapped, values, panics and effects are the same; where it suggests to ask an instant for the elapsed time, the result is the same as the difference to the present instant; a division of a part of a second is replaced only by the method that gives the same number. Clippy does not panic on any program.", "quantifier": "all functions that make durations, all constant arguments, all operands, worlds and clocks, all durations and divisors", "why_tests_cant": "Tests use a handful of small constants; overflow, panicking constructors, other types with the same function names and expressions that take time are not tried.", "anchors": ["clippy_lints/src/time_subtraction.rs: UncheckedTimeSubtraction, const_eval_duration, is_chained_time_subtraction, print_manual_instant_elapsed_sugg", "clippy_lints/src/operators/duration_subsec.rs: check"]}
{"id": "C129", "title": "Merging a filter and a map into one adaptor keeps the items, effects and panics", "statement": "Where clippy replaces a filter for values that are present (or that are of one variant) and a map that takes the value out by one adaptor (filter_map, find_map or flatten), the resulting iterator yields the same items in the same order, has the same effects and panics in the same cases, whatever its consumer does; if evaluating an expression once instead of twice could make a difference, the suggestion is marked as possibly incorrect.", "quantifier": "all closures and functions passed to filter and map, all patterns and guards, all sequences of items, all consumers and worlds", "why_tests_cant": "Tests run the suggestion on a few closures of the expected form; patterns inside variants, guards, functions with the same name and arguments with effects are not covered.", "anchors": ["clippy_lints/src/methods/filter_map.rs: check, is_method, OffendingFilterExpr::hir, OffendingFilterExpr::check_map_call, is_find_or_filter"]}
{"id": "C130", "title": "What clippy says about comparisons after casts and remainders is true, and bit arithmetic is replaced by methods with the same value", "statement": "If clippy says that a comparison of a cast value with a constant is always true or always false, it is so for every value of the type before the cast, and it says so for every such comparison after a widening cast. The number of bits minus the leading zeros is replaced by a method that gives the same number, a number and its negation combined bit by bit are replaced by a method that gives the same number and panics in the same cases, and a remainder is said to be zero only if it is.", "quantifier": "all integer types and widths, all values, constants and comparison operators, both orders of operands, all machines on which clippy or the program may run", "why_tests_cant": "There are far too many values and pairs of types to test; only some casts are in the test suite, and none from a signed to a wider unsigned type.", "anchors": ["clippy_lints/src/operators/invalid_upcast_comparisons.rs: check, numeric_cast_precast_bounds, upcast_comparison_bounds_err", "clippy_lints/src/bit_width.rs: ManualBitWidth", "clippy_lints/src/operators/manual_isolate_lowest_one.rs: check", "clippy_lints/src/operators/modulo_one.rs: check"]}
{"id": "C131", "title": "Vectors that are made and then filled with zeros", "statement": "When a vector is made with `Vec::new()` or `Vec::with_capacity(n)` and filled with zeros by `resize` or `extend` right away, the code may be replaced by `vec![0; n]`. The report is given exactly when the next statement fills that vector to the length that was asked for, nothing between is removed, and the vector has the same elements afterwards.", "quantifier": "all blocks, places of the allocation, lengths with and without effects, and states", "why_tests_cant": "what lies between the two statements, what the length expression does and how much the allocator gives cannot be enumerated", "anchors": ["clippy_lints/src/slow_vector_initialization.rs:VectorInitializationVisitor", "clippy_lints/src/slow_vector_initialization.rs:SlowVectorInit::emit_lint"]}
{"id": "C132", "title": "Assignments and assignments with an operator", "statement": "`a = a op b` may be replaced by `a op= b`, and `a = b op a` too when the operands of a built-in operator may be swapped. At most one replacement is offered, only when the place occurs once, and running it has the same result and effects. For `a op= a op b` both readings are offered and the second is what the code does. Assigning a place to itself, which is reported, does nothing.", "quantifier": "all places, operands with effects, operators and states of memory", "why_tests_cant": "what operands do to the place or its index, and the implementations of operators, cannot be enumerated", "anchors": ["clippy_lints/src/operators/assign_op_pattern.rs:check", "clippy_lints/src/operators/misrefactored_assign_op.rs:check", "clippy_lints/src/operators/self_assignment.rs:check"]}
{"id": "C133", "title": "Boolean operators and comparisons are replaced in their context", "statement": "Comparisons of a boolean with `true` or `false`, order comparisons of two booleans, and bitwise operators on booleans are replaced in the text (`x == false` by `!x`, `x < y` by `!x & y`, `a & !b` by `a && !b`). The text in which the replacement stands means what it meant before, for all values and in every context.", "quantifier": "all boolean expressions with parentheses, all contexts of operators around the replaced part, and all values including NaN", "why_tests_cant": "how a replacement is read depends on unboundedly many contexts and on the precedence of what is around it", "anchors": ["clippy_lints/src/bool_comparison.rs:check_comparison", "clippy_lints/src/operators/needless_bitwise_bool.rs:check", "clippy_utils/src/sugg.rs:Not for Sugg"]}
{"id": "C134", "title": "Replacing comparisons with zero lengths and empty sequences by is_empty keeps their value", "statement": "When `x.len()` is compared with 0 or 1, or a sequence with `\"\"` or `[]`, and the linter suggests `x.is_empty()` or `!x.is_empty()`, then the suggestion has the value of the comparison for all sequences whose `is_empty` agrees with their length; and every comparison of a length with a number that says exactly whether the length is zero is reported.", "quantifier": "All comparison operators, all operands (lengths, methods, variables, numbers, strings, arrays) on both sides, and all sequences, compared in dictionary order.", "why_tests_cant": "Which operator, which side and which constant go with `!` is a table; tests contain lengths with every operator but sequences only with `==` and `!=`, so that the meaning of `<` on sequences is never looked at.", "anchors": ["clippy_lints/src/len_zero.rs check_expr", "clippy_lints/src/len_zero.rs check_cmp", "clippy_lints/src/len_zero.rs check_len", "clippy_lints/src/len_zero.rs check_empty_expr"]}
{"id": "C135", "title": "Replacing for_each by a for loop keeps what is done for every item", "statement": "When the linter suggests `for x in it { body }` for `it.for_each(|x| { body })`, with `continue` in place of `return`, then the loop leaves the same state and output as the call for every list of items, does not return from the function around it, and is suggested only if no `return` stands in a loop of the body; `return`s of closures inside the body are left alone.", "quantifier": "All bodies built from assignments, output, sequences, conditions, loops, `break`, `continue`, `return` with or without an expression and inner closures, all items, states and meanings of functions and conditions, for closures with and without `move`.", "why_tests_cant": "Whether a `return` can become a `continue` depends on all loops around it and on what it evaluates first; the tests have a handful of bodies and compare text, and apply suggestions whatever their applicability.", "anchors": ["clippy_lints/src/needless_for_each.rs check_expr", "clippy_lints/src/needless_for_each.rs RetCollector"]}
{"id": "C136", "title": "Names are called too similar exactly when they are, in every scope, without a crash", "statement": "For every function the linter reports a binding as too similar exactly if a name that is visible there starts with a character that looks the same and differs from it in one character (not set apart by an underscore, digits counting as equal) or has one character more or less (not just at the end), is not one of the listed exceptions, and not both have three characters; names of inner blocks do not count after the block; names of digits and underscores, and more names of one character than allowed, are reported; and no name, however short or long, makes the linter crash. Which of two names comes first makes no difference for their similarity.", "quantifier": "All nestings of blocks and bindings, all names (any characters, any length), all classifications of characters as digits and upper case, all thresholds and all lists of exceptions.", "why_tests_cant": "The comparison takes characters from both ends of iterators with several `expect`s, and the scopes are kept by truncating vectors; tests have a few dozen pairs of names.", "anchors": ["clippy_lints/src/non_expressive_names.rs check_ident", "clippy_lints/src/non_expressive_names.rs equal_length_strs_not_similar", "clippy_lints/src/non_expressive_names.rs levenstein_not_1", "clippy_lints/src/non_expressive_names.rs SimilarNamesLocalVisitor"]}
{"id": "C137", "title": "Words of documentation are put in backticks at the right place, whole, and only if they look like code", "statement": "For every documentation text and every configuration the words that are reported are parts of the text at the reported position, between white space and apostrophes, from which punctuation and single colons around them are taken off; no letter or digit of a word is left outside of the backticks, `()` and the closing parentheses a word lacks are taken in; and a word is reported exactly if it is not a known identifier, not in code or a quote, does not contain both underscores and hyphens, and has an underscore, `::`, a final `()` or is in upper camel case, where plurals of acronyms are not.", "quantifier": "All texts (any characters of any byte length), all classifications of characters, all lists of known identifiers.", "why_tests_cant": "Positions are computed from byte lengths before and after trimming, with slices taken from the original word again; tests have a few dozen lines of documentation.", "anchors": ["clippy_lints/src/doc/markdown.rs check", "clippy_lints/src/doc/markdown.rs check_word"]}
{"id": "C138", "title": "A safety comment is found exactly if there is one right above, at the right position, without a crash", "statement": "For every source text above an unsafe block, and whether or not attributes may stand between, the search reports a safety comment exactly if the last lines (empty lines and accepted attributes aside) are line comments one of which says `SAFETY:` in any case and outside of code in documentation, or the last line has a comment that begins with it, or a block comment that begins a line says it and nothing but white space follows; the position reported is that of `SAFETY:` in the text; and no text makes the search panic.", "quantifier": "All texts of any number of lines (any characters of any byte length), both settings, all classifications of characters as white space.", "why_tests_cant": "The search goes backwards through the lines with byte positions of trimmed and upper-case copies, and has several slices and unwraps; tests have a few dozen snippets.", "anchors": ["clippy_lints/src/undocumented_unsafe_blocks.rs text_has_safety_comment", "clippy_lints/src/undocumented_unsafe_blocks.rs is_attribute"]}
{"id": "C139", "title": "Making implicit returns explicit keeps the function and leaves none", "statement": "For every function body, applying all suggestions to add `return` (in front of final expressions, in the branches of `if` and `match`, instead of `break` with a value in final loops, in front of macro calls and loops with breaks from macros) leaves what a caller sees unchanged; there is at most one suggestion for a macro call; afterwards every value other than unit is returned explicitly; and the linter has nothing more to suggest.", "quantifier": "All bodies (any nesting of blocks, branches, loops, labelled blocks, breaks, returns and macro calls), all meanings of the leaves, all states and any number of rounds of loops.", "why_tests_cant": "Breaks are looked for in whole loop bodies and macro calls get a location that is passed up through branches; tests have about twenty functions.", "anchors": ["clippy_lints/src/implicit_return.rs lint_implicit_returns", "clippy_lints/src/implicit_return.rs lint_break", "clippy_lints/src/implicit_return.rs LintLocation"]}
{"id": "C140", "title": "Acronyms in type names: which are reported and what they become", "statement": "For every item and every setting, the names reported are exactly those of types, traits, enums and variants (not from macros, not exported when exported names are to be left alone) that consist of at least three capital letters or, in the aggressive mode, start with a capital letter (after underscores) and contain three capital letters in a row or two at the end. The suggested name differs from the old one, has the same letters apart from case, changes exactly the letters with a capital letter before and a capital letter or the end after them, contains no acronym any more and is never reported again in either mode.", "quantifier": "All items, all names (any Unicode text) and both settings.", "why_tests_cant": "The scan looks at one letter before and one after each position and counts runs; tests list about twenty names, none with a digit or underscore after an acronym.", "anchors": ["clippy_lints/src/upper_case_acronyms.rs contains_acronym", "clippy_lints/src/upper_case_acronyms.rs check_ident", "clippy_lints/src/upper_case_acronyms.rs UpperCaseAcronyms::check_item"]}
{"id": "C141", "title": "Match arms in a case the matched string never has", "statement": "For every match on the result of `to_lowercase`, `to_uppercase`, `to_ascii_lowercase` or `to_ascii_uppercase`, the arm that is reported is the first string arm whose text the method never returns; it is never taken; nothing is reported when no such method is called on a string. The suggested text is what the method makes of the old one, so the arm can be taken then; every other value takes the same arm as before; applying suggestions again reports later arms only; and the suggested literal reads as that text when it has no quotes or backslashes.", "quantifier": "All matches (any arms, any expressions around the method that pass the string on), all strings and all Unicode tables in which case forms do not change again.", "why_tests_cant": "Whether a text can be returned depends on every character and on tables of Unicode with forms of several characters and a final sigma; tests have about ten matches with ASCII and a few Greek or Cherokee letters.", "anchors": ["clippy_lints/src/matches/match_str_case_mismatch.rs check", "clippy_lints/src/matches/match_str_case_mismatch.rs verify_case", "clippy_lints/src/matches/match_str_case_mismatch.rs MatchExprVisitor", "clippy_lints/src/matches/match_str_case_mismatch.rs lint"]}
{"id": "C142", "title": "Chains of comparisons that are reported can be written as a match on one comparison", "statement": "An `if` chain is reported exactly when it has at least two conditions and three blocks, every condition compares the same two operands by `<`, `>` or `==` (in either order), no condition repeats the one before it, and the operands are totally ordered; the linter does not panic. For every chain reported, whatever the values of its operands, the block executed depends on the result of the suggested `cmp` only, provided evaluating the operands has no side effects.", "quantifier": "All chains of any length, all operands and all orders in which exchanging operands gives the opposite result.", "why_tests_cant": "Only neighbouring conditions are compared with each other, so that all are about the same operands has to follow step by step; tests have chains of two or three conditions.", "anchors": ["clippy_lints/src/comparison_chain.rs ComparisonChain::check_expr", "clippy_lints/src/comparison_chain.rs kind_is_cmp", "clippy_utils/src/lib.rs if_sequence"]}
{"id": "C143", "title": "Remainders that are not reported do not depend on the sign convention", "statement": "For every remainder of integers that is not reported (whatever is known about its operands, alone or compared with zero), the program sees the same whether remainders take the sign of the dividend, as in Rust, or of the divisor, as in other languages. Nothing is reported for unsigned integers and the linter does not panic. A report about constants names their values, whose signs differ; then the two conventions give different remainders unless the division is exact.", "quantifier": "All remainders of all integer types, all values of the operands that agree with what constant evaluation found, both settings.", "why_tests_cant": "Signs come from bit patterns that are sign-extended for the type, and the comparison with zero can be on either side; tests have a few constants and types.", "anchors": ["clippy_lints/src/operators/modulo_arithmetic.rs check", "clippy_lints/src/operators/modulo_arithmetic.rs used_in_comparison_with_zero", "clippy_lints/src/operators/modulo_arithmetic.rs analyze_operand", "clippy_lints/src/operators/modulo_arithmetic.rs check_const_operands"]}
{"id": "C144", "title": "Suggestions for lazy lines in quotes and lists of documentation settle the line", "statement": "A line of documentation that continues a paragraph is not reported exactly when it has a marker for every quote around it and, in lists outside quotes, exactly the spaces of the items. After applying a suggestion the line is not reported again. If the line starts with the usual markers of the outer containers (or with nothing), the suggestion completes them so that the line continues all containers. The linter panics only if the text of an item starts more than 18 characters after its marker.", "quantifier": "All stacks of quotes and list items, all texts between the line break and the rest of the paragraph.", "why_tests_cant": "Quotes and items nest without bound and part of the markers may be there; tests have a few nestings.", "anchors": ["clippy_lints/src/doc/lazy_continuation.rs check", "clippy_lints/src/doc/lazy_continuation.rs map_container_to_text", "clippy_lints/src/doc/mod.rs Container"]}
{"id": "C145", "title": "Paragraphs of documentation without punctuation are found, and only those", "statement": "Every paragraph outside lists, footnotes, headings and the like whose last text, code or link does not end with a punctuation mark, and that is not followed by code or a list, is reported, in the order of the document. Every report is the end of a paragraph outside lists and the like that lacks a mark. If there are no paragraphs inside lists and footnotes the reports are exactly these paragraphs, each once. Inserting a full stop at the place of a fixable report ends the paragraph with a mark.", "quantifier": "All documents (nested blocks and inline content), all texts.", "why_tests_cant": "State is carried from event to event through nested blocks; a test document shows one nesting.", "anchors": ["clippy_lints/src/doc/doc_paragraphs_missing_punctuation.rs is_missing_punctuation", "clippy_lints/src/doc/doc_paragraphs_missing_punctuation.rs trim_trailing_symbols"]}
{"id": "C146", "title": "Placeholders in ordinary strings are recognised with their place and name", "statement": "For a placeholder in a string that is not a format string, the report covers exactly the braces. A placeholder without a format is taken for one exactly if it is an identifier, whose name is then compared with the variables; one with only a format needs no variable; escapes of characters are skipped. For placeholders with a name and a format the name that is compared is never the name, and the linter may panic if the name is not ASCII.", "quantifier": "All texts before and after the placeholder, all names and formats, all positions of the parser inside the name.", "why_tests_cant": "The place of the colon is relative to the brace but used as a place in the text, so the result depends on how far the brace is from the start; tests have names of one letter.", "anchors": ["clippy_lints/src/literal_string_with_formatting_args.rs check_expr", "clippy_lints/src/literal_string_with_formatting_args.rs emit_lint"]}
{"id": "C147", "title": "Without a report about priorities the order of lints in Cargo.toml does not matter", "statement": "A group of lints in a table of Cargo.toml is reported exactly when a lint of the table has the same priority and another level; the report names both. If nothing is reported, the level of every lint is the same in whatever order Cargo hands over settings of equal priority, unless two groups contradict each other. After applying a suggestion the group keeps its level, has a lower priority than every lint of the table and is not reported again, unless a lint has the lowest possible priority.", "quantifier": "All tables, all sets of groups and their members, all orders that respect the priorities.", "why_tests_cant": "Cargo may choose any order among equal priorities; a test sees one.", "anchors": ["clippy_lints/src/cargo/lint_groups_priority.rs check_table", "clippy_lints/src/cargo/lint_groups_priority.rs LintConfig::parse"]}
{"id": "C148", "title": "Arrays of byte literals become a byte string with the same bytes", "statement": "For an array of byte literals that is reported, the byte string that is suggested is read by the compiler as exactly the bytes of the literals, whatever escapes they use and with both kinds of quotes; it is dereferenced exactly if the array is neither borrowed nor used as a slice; and an array is reported exactly if it is not empty, has no remarks inside and all its elements are byte literals written in place.", "quantifier": "all arrays of byte literals, all ways of writing each literal, all places", "why_tests_cant": "Each element may be written in many ways, and what an escape means depends on the text that surrounds it; tests try a few arrays.", "anchors": ["clippy_lints/src/byte_char_slices.rs check_expr", "clippy_lints/src/byte_char_slices.rs is_byte_char_slices"]}
{"id": "C149", "title": "Byte strings that end with NUL become C strings with the same bytes", "statement": "A byte string literal that makes a C string by hand is rewritten exactly if its last byte is NUL, and the C string literal that is suggested is a literal of the language that has exactly the bytes before that NUL, however NUL and the other bytes are written.", "quantifier": "all byte string literals, all ways of writing their bytes", "why_tests_cant": "Texts such as an escaped backslash before a zero look like NUL; tests try a few endings.", "anchors": ["clippy_lints/src/methods/manual_c_str_literals.rs rewrite_as_cstr", "clippy_lints/src/methods/manual_c_str_literals.rs is_nul_terminated"]}
{"id": "C150", "title": "Blocks beyond the allowed nesting are reported, each once and at the outermost", "statement": "With a threshold that is not zero, a block, trait, implementation or inline module is reported exactly if more levels than allowed lie around it in its file, counting itself, and nothing around it is already reported, and no macro made it or something around it. So whatever is too deep lies in exactly one reported block, siblings never change a verdict, and modules in other files start again from zero; with the threshold zero nothing is reported.", "quantifier": "all crates, all thresholds", "why_tests_cant": "The level is one counter that is raised and lowered during a walk over trees of any shape; a missed reset only shows far from where it happens.", "anchors": ["clippy_lints/src/excessive_nesting.rs NestingVisitor::visit_block", "clippy_lints/src/excessive_nesting.rs NestingVisitor::visit_item", "clippy_lints/src/excessive_nesting.rs check_indent"]}
{"id": "C151", "title": "Web links of documentation that are broken across lines are reported, and only those", "statement": "A link of documentation whose destination on the web is not closed on its line is reported; a link that is closed on its line never is, nor is other text; the range that is reported reaches from the opening bracket to the end of the line; and links to other places are left alone.", "quantifier": "all documentation, all positions of links", "why_tests_cant": "Which of many brackets, parentheses and line ends comes first decides; tests try a few links.", "anchors": ["clippy_lints/src/doc/broken_link.rs warn_if_broken_link", "clippy_lints/src/doc/broken_link.rs report_broken_link"]}
{"id": "C152", "title": "References to footnotes that do not exist are reported, and only those", "statement": "In a range of text outside of code, what is reported are exactly the references of the form bracket, caret, digits, bracket that are not escaped and not the start of a definition; the report reaches from the opening to the closing bracket, and the definition that is suggested is added to the comment the reference comes from.", "quantifier": "all documentation, all ranges of text, all divisions into comments", "why_tests_cant": "Whether a bracket is escaped depends on all backslashes before it, and where a position comes from on all comments before it; tests try a few texts.", "anchors": ["clippy_lints/src/doc/doc_suspicious_footnotes.rs check", "clippy_lints/src/doc/doc_suspicious_footnotes.rs all_numbers_upto_brace"]}
{"id": "C153", "title": "Options for opening files that are reported as nonsense make opening fail", "statement": "When a chain of calls that sets options is reported as truncating what is only read, or as both appending and truncating, opening the file fails whatever the values that are known only at run time; when it is reported because it may create the file, an existing file keeps its old content; what certainly is such nonsense is reported; and a call is reported as repeated exactly when some option is set twice.", "quantifier": "all chains of calls, all values of arguments known only at run time", "why_tests_cant": "The order of calls, repeated calls and arguments known only at run time combine in many ways; tests try a few chains.", "anchors": ["clippy_lints/src/methods/open_options.rs check_open_options", "clippy_lints/src/methods/open_options.rs get_open_options"]}
{"id": "C154", "title": "Constructors put in the order of the definition make the same value", "statement": "A constructor of a structure is reported exactly if its fields are not in the order of the definition and all are short for variables or the configuration asks for the others too. The suggestion has the same fields with their texts, in the order of the definition and with the old separators, and is not reported again; when it is marked as applicable by machine, it makes the same value and changes nothing else.", "quantifier": "all structures, all constructors, all texts of fields and separators, all states", "why_tests_cant": "Fields may be given in any order and may be missing; tests try a few orders.", "anchors": ["clippy_lints/src/inconsistent_struct_constructor.rs check_expr", "clippy_lints/src/inconsistent_struct_constructor.rs is_consistent_order", "clippy_lints/src/inconsistent_struct_constructor.rs suggestion"]}
{"id": "C155", "title": "Inline modules are told to move to the files where the language looks for them", "statement": "An inline module is reported exactly if it is not made by a macro, not for tests and not inside of an inline module for tests. The folder named in the report is the one in which the compiler looks for the file of the module, if no module around it that has a file lies inside of an inline module. The walk leaves its stacks as it found them.", "quantifier": "all trees of modules, inline or in files of either style, of any depth", "why_tests_cant": "The folder depends on all modules around; tests have a few trees.", "anchors": ["clippy_lints/src/module_style.rs check_item", "clippy_lints/src/module_style.rs check_item_post", "clippy_lints/src/module_style.rs check_inline_module"]}
{"id": "C156", "title": "A file loaded as several modules is reported once, with all its items", "statement": "A file is reported exactly if at least two of the module items that load it do not allow or expect the lint. The report has just these items, in the order of the source, and no file is reported twice; reports come in the order of the files. An expectation of the lint counts as fulfilled exactly if its item loads a file that is loaded more than once.", "quantifier": "all lists of module items, all files, all levels of the lint", "why_tests_cant": "Items for several files may come in any order and with any levels; tests have a few crates.", "anchors": ["clippy_lints/src/duplicate_mod.rs check_item", "clippy_lints/src/duplicate_mod.rs check_crate_post"]}
