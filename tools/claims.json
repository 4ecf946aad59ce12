{
"C01": ["partial", ["Cli.decode_encode_partial", "Cli.decode_encode_violated", "Cli.user_flags_reach_compiler"], "Round trip proved for flags without the marker or its overlapping tail; a concrete violating flag is exhibited."],
"C02": ["proved", ["Cli.cargo_words", "Cli.clippy_words", "Cli.fix_implies_no_deps", "Cli.before_after"], ""],
"C03": ["proved", ["Cli.argValue_iff", "Cli.lints_run_iff"], ""],
"C04": ["proved", ["Config.loadConf_found_iff", "Config.loadConf_none_iff", "Config.loadConf_clash", "Config.startDir_spec", "Config.mergeMsrv_spec"], ""],
"C05": ["partial", ["Config.field_value_partial", "Config.diagnostics_partial", "Config.conf_field_value_partial", "Config.deprecated_key_ignored", "Config.confSchema_unique", "Config.confSchema_sound", "Config.confSchema_one_alias"], "Proved for fields declared with a type; one deprecated key is silently ignored (deprecated_key_ignored)."],
"C06": ["proved", ["Config.deserializeArray_spec"], ""],
"C07": ["proved", ["Config.checkGroups_ok_iff", "Config.checkGroups_order", "Config.defaultGroups_ok"], ""],
"C08": ["proved", ["Msrv.early_in_force", "Msrv.restored", "Msrv.late_in_force", "Msrv.inForce_unique", "Msrv.meets_iff", "Msrv.meets_mono", "Msrv.stability_iff", "Msrv.stability_mono"], ""],
"C09": ["proved", ["NumLit.format_value", "NumLit.source_value", "NumLit.signed_hex_broken"], "For literals of Rust's grammar, with a minus sign only in front of decimal ones; signed_hex_broken shows that restriction is needed."],
"C10": ["proved", ["NumLit.canonical_groups", "NumLit.format_idempotent"], ""],
"C100": ["partial", ["WhileIter.related_iff", "WhileIter.body_apart_partial", "WhileIter.loop_same", "WhileIter.loop_same_partial", "WhileIter.moved_partial", "WhileIter.index_changes", "WhileIter.deref_missed", "WhileIter.else_missed", "WhileIter.closure_missed"], "Missing: indices in the iterator's place that the body changes, implicit deref calls, let-else after the loop, loops in FnOnce closures (each with a counterexample); patterns, statics and references as values of their own are not modelled."],
"C101": ["partial", ["RangeLoop.apart_partial", "RangeLoop.bounds_apart", "RangeLoop.index_unused", "RangeLoop.mutable_partial", "RangeLoop.numbers_same", "RangeLoop.loop_same_partial", "RangeLoop.row_len", "RangeLoop.uses_index", "RangeLoop.operand_changes", "RangeLoop.stops_early", "RangeLoop.index_changes", "RangeLoop.ref_mut_missed", "RangeLoop.operand_borrow"], "Borrow, index, mutability, bounds and numbers for all bodies; the same effect under hypotheses on the sequence and the length, each with a witness that it is needed."],
"C102": ["partial", ["Fold.total_same_partial", "Fold.search_same_partial", "Fold.mapOr_init", "Fold.option_same_partial", "Fold.sum_refs", "Fold.ref_lost", "Fold.acc_left", "Fold.left_effects", "Fold.captured", "Fold.init_changes", "Fold.shorthand", "Fold.acc_ref"], "Same value and effects for all closures and iterators, under hypotheses on names and references that each have a witness."],
"C103": ["partial", ["Strip.strip_same_partial", "Strip.not_mutated", "Strip.silent", "Strip.inclusive", "Strip.pattern_assigned", "Strip.shadowed", "Strip.captured", "Strip.upvar_assigned"], "The rewrite is proved to keep value, calls and variables for every block, string and state, under hypotheses the lint does not test: no inclusive range, the pattern's variable is not assigned to, the new name is not that of an outer variable used elsewhere in the block, and no captured variable is assigned to. Each has a witness. Silence is characterised (not_mutated, silent)."],
"C104": ["partial", ["WhileCond.same_condition_partial", "WhileCond.if_loop_partial", "WhileCond.never_ends_partial", "WhileCond.fixed_silent", "WhileCond.pointer_changed", "WhileCond.alias_changed", "WhileCond.operator_changed", "WhileCond.outer_continued"], "Proved for all bodies, states, functions and numbers of rounds, for conditions that follow no pointers and use no operators of traits (and, for the second claim, bodies that do not continue an outer loop): the lint does not test for these, see the witnesses."],
"C105": ["partial", ["Wraps.wraps_same_partial", "Wraps.binds_same_partial", "Wraps.wraps_fewer", "Wraps.noop", "Wraps.label_none", "Wraps.guard_none", "Wraps.unit_effect"], "Bodies without labelled blocks or returning guards at the end; units wrapped as literals."],
"C106": ["partial", ["LitFmt.literal_same_partial", "LitFmt.verdict_text", "LitFmt.width_shifted", "LitFmt.lint_counted", "LitFmt.brace_escape", "LitFmt.blank_lost", "LitFmt.string_ends"], "All calls except the five kinds for which the lint is wrong; see the witnesses."],
"C107": ["partial", ["Server.results_partial", "Server.checked_once", "Server.all_ran", "Server.accepts_all", "Server.schedules_end", "Server.reaches_results", "Server.link_partial", "Server.uncap_partial", "Server.spanless_lost", "Server.not_text_lost", "Server.schedule_decides"], "results_partial needs all of Clippy's output to be text and all its diagnostics to have a rendered form and a place; otherwise warnings are lost (spanless_lost, not_text_lost). link_partial excludes braces in names, uncap_partial ill-formed command lines. Everything else holds for every schedule."],
"C108": ["partial", ["Sources.prepared_partial", "Sources.run_ends", "Sources.read_entry", "Sources.read_only_partial", "Sources.download", "Sources.torn", "Sources.same_repo", "Sources.other_url", "Sources.same_dir", "Sources.path_and_version"], "Missing: interruptions while an archive is unpacked and unrelated sources sharing a directory (violated: torn, same_repo, other_url, same_dir), entries with a local directory and another source (violated: path_and_version)."],
"C109": ["partial", ["Mir.in_cycle", "Mir.given_up", "Mir.usage_exact", "Mir.used_once_partial", "Mir.used_at_all", "Mir.used_once_found", "Mir.assignments_partial", "Mir.first_missed", "Mir.index_missed", "Mir.update_missed", "Mir.inout_missed"], "Missing: uses at the very first position, as an index, or by a statement that assigns the local, and inout operands of inline assembly (violated: first_missed, index_missed, update_missed, inout_missed)."],
"C11": ["partial", ["TextLints.raw_hashes_partial", "TextLints.raw_hashes_violated", "TextLints.raw_hashes_violated_separated", "TextLints.plain_literal", "TextLints.plain_literal_complete"], "Hash removal is wrong for contents such as \"\"# (violation proved); proved for all other contents. The plain-literal half is proved in full."],
"C110": ["partial", ["Borrow.closure", "Borrow.borrower_found_partial", "Borrow.only_borrowers_partial", "Borrow.at_most_partial", "Borrow.bounded_iff", "Borrow.only_iff", "Borrow.borrowers_exact", "Borrow.nonempty", "Borrow.through_deref", "Borrow.through_call", "Borrow.in_struct"], "Exact description of the map and closure proved; soundness over all executions for bodies whose mutable references are made by borrowing, passed on by moving and passed to calls as they are, without assignments through references. Three kinds of missed borrowers shown by witnesses."],
"C111": ["partial", ["Clones.same_values_partial", "Clones.branches_partial", "Clones.report_direct_partial", "Clones.find_iff", "Clones.stuck_iff", "Clones.locals_direct", "Clones.not_again", "Clones.unused_found", "Clones.store_missed", "Clones.cell_missed", "Clones.branch_missed", "Clones.deref_missed"], "Equality of all values found after the clone proved for direct clones whose uses come one after the other, or whose changes do; the clone may be changed only by moves and mutable borrows. Calls behind deref, assignments to parts of the clone, interior mutability and changes in other branches are shown to be missed."],
"C112": ["partial", ["Pushes.same_item_partial", "Pushes.report_iff", "Pushes.report_local", "Pushes.tail_missed", "Pushes.let_missed", "Pushes.closure_missed", "Pushes.continue_missed", "Pushes.cell_missed"], "One equal element per iteration proved for bodies that aren't left early and don't have the vector in lets, closures or last expressions of blocks, and items without interior mutability; all of these are shown to be missed. When a report is made is characterised exactly."],
"C113": ["partial", ["Order.order_partial", "Order.report_iff", "Order.reported_differs", "Order.twice_missed", "Order.addr_missed", "Order.closure_missed", "Order.else_reported"], "Independence of the order of evaluation proved for expressions without reports in which no two operands write one variable and there are no references and closures; all three are shown to be missed. The reported pairs are characterised exactly, with the superfluous ones for let-else."],
"C114": ["proved", ["Units.promote_same", "Units.promote_largest", "Units.promote_found", "Units.report_iff", "Units.suggestion_same", "Units.no_panic"], "All values, units, versions and both feature settings."],
"C115": ["partial", ["Ascii.same_partial", "Ascii.guarded", "Ascii.guard_missed", "Ascii.found"], "Missing: a guard in matches! is dropped by the suggestion (guard_missed)."],
"C116": ["partial", ["NoEffect.no_effect_partial", "NoEffect.reduced_partial", "NoEffect.assert_same", "NoEffect.found", "NoEffect.user_op_silent", "NoEffect.deref_missed", "NoEffect.index_missed", "NoEffect.closure_missed", "NoEffect.tuple_drop", "NoEffect.borrow_drop", "NoEffect.nested_overload"], "Missing: user code behind operators below the root, destructors of parts, closures that own values with destructors (see Findings)."],
"C117": ["partial", ["Octal.report_iff", "Octal.hex_right", "Octal.null_partial", "Octal.null_wrong"], "Missing: the null suggestion for one digit, which is wrong (null_wrong)."],
"C118": ["partial", ["BoolIf.bools_same", "BoolIf.always_same", "BoolIf.assigns_same", "BoolIf.guard_partial", "BoolIf.inner_block", "BoolIf.chain_silent", "BoolIf.chain_other"], "Missing: blocks with an early return that aren't at the end of the function (inner_block)."],
"C119": ["partial", ["Satur.vals", "Satur.saturating_partial", "Satur.default_same", "Satur.found", "Satur.neg_max_wrong", "Satur.other_type_wrong"], "all widths, signs, operands and forms of defaults; two exceptions are proved to be wrong (negated largest value, max_value() of another type)"],
"C12": ["proved", ["TextLints.chunks_cover_tabs", "TextLints.separated_unique"], ""],
"C120": ["partial", ["VarAnd.variant_partial", "VarAnd.err_wrong", "VarAnd.return_wrong", "VarAnd.twice_wrong", "VarAnd.found", "VarAnd.idempotent"], "all expressions of the five checks in any world; three exceptions (Err on the other side, early returns in inverted closures, receivers with effects) are proved to be wrong"],
"C121": ["partial", ["Chains.if_partial", "Chains.return_wrong", "Chains.if_found", "Chains.map_or_partial", "Chains.order_wrong", "Chains.zip_partial", "Chains.swapped_wrong", "Chains.zip_only", "Chains.match_partial", "Chains.omitted_wrong", "Chains.wild_wrong"], "all chains and matches of four lints in any world; five exceptions are proved to be wrong"],
"C122": ["partial", ["Bulk.while_partial", "Bulk.while_found", "Bulk.argument_wrong", "Bulk.else_wrong", "Bulk.element_wrong", "Bulk.receiver_wrong", "Bulk.same_end", "Bulk.pop_if_partial", "Bulk.pop_if_found", "Bulk.tail_wrong", "Bulk.sub_wrong", "Bulk.closure_wrong", "Bulk.fill_partial", "Bulk.fill_found", "Bulk.other_index_wrong"], "Proved for loops with quiet receivers, without else, with calm arguments before the pop and no use of the name element; for conditional pops without subpatterns, tails and leaving conditions; for fills indexed by the loop variable. The other cases are refuted by witnesses. Types are not modelled."],
"C123": ["partial", ["Chars.collapse_iff", "Chars.collapse_partial", "Chars.collapse_found", "Chars.later_wrong", "Chars.method_lost", "Chars.no_effect_partial", "Chars.no_effect_found", "Chars.next_wrong", "Chars.ascii_same", "Chars.ascii_found", "Chars.receiver_wrong", "Chars.compare_same", "Chars.compare_unwrap_partial", "Chars.empty_value", "Chars.literal_partial", "Chars.literal_found", "Chars.line_break_wrong", "Chars.continued_wrong", "Chars.repeat_same", "Chars.any_partial", "Chars.any_only", "Chars.empty_wrong"], "All texts, chains, closures and literals of eight functions. Merged replacements are right exactly under collapse_iff; the remaining exceptions (methods between the calls, negated receivers, literals over lines, empty literals, arguments with effects, unwrap of empty texts) are proved to be exceptions."],
"C124": ["partial", ["Redex.closure_partial", "Redex.closure_only", "Redex.block_parenthesized", "Redex.parameter_kept", "Redex.calls_left_over", "Redex.return_left_over", "Redex.argument_lost", "Redex.none_partial", "Redex.panic_same", "Redex.content_partial", "Redex.error_taken", "Redex.error_taken_also", "Redex.return_escapes", "Redex.effect_lost", "Redex.extreme_partial", "Redex.extreme_found", "Redex.operand_lost", "Redex.operand_read", "Redex.parenthesized_read", "Redex.alone_read", "Redex.bare_misread"], "Proved for closures that are all called without arguments, methods whose argument does nothing or is kept, and texts where the suggestion is one operand or stands alone; the other cases are refuted with witnesses."],
"C125": ["partial", ["Sift.map_partial", "Sift.filter_partial", "Sift.unneeded_partial", "Sift.find_map_needed", "Sift.then_partial", "Sift.then_found", "Sift.search_same", "Sift.rposition_partial", "Sift.label_lost", "Sift.return_lost", "Sift.constant_lost", "Sift.assignment_lost", "Sift.order_changed", "Sift.choice_found"], "For every program, sequence of items and consumer: a closure reported for map never drops an item, one reported for filter keeps its argument, an unneeded one does nothing, then-closures split into filter and map, find/position are any. Missing: labelled blocks, a return within a return, paths other than the parameter, conditions that assign the parameter, rposition with effects; each has a proved counterexample."],
"C126": ["partial", ["Drops.ordered_sound", "Drops.ordered_only", "Drops.ordered_ends", "Drops.right_answers", "Drops.visited_partial", "Drops.temporaries_inert_partial", "Drops.inside_partial", "Drops.inside_found", "Drops.inside_2024", "Drops.inside_2021_alone", "Drops.outside_partial", "Drops.let_return_2024", "Drops.let_return_2021_partial", "Drops.while_let_partial", "Drops.repeat_unseen", "Drops.constant_unseen", "Drops.self_unseen", "Drops.inside_2021", "Drops.inside_2024_value", "Drops.outside_label", "Drops.let_return_2021", "Drops.while_let_constant", "Drops.last_let_else", "Drops.borrowing_kept"], "Proved: needs_ordered_drop is sound and exact and ends for finitely many types; temporaries are visited except in repeat expressions, constants and Self; semicolon moves and let_and_return keep all effects when nothing with an ordered drop is moved (let_and_return in edition 2024 without condition); while let keeps every round. The other cases are refuted with witnesses."],
"C127": ["partial", ["SortBy.sort_same", "SortBy.sorted_partial", "SortBy.reversed_marked", "SortBy.stability", "SortBy.mirrored_found", "SortBy.cast_lost", "SortBy.borrow_lost", "SortBy.generics_lost", "SortBy.prefix_lost", "SortBy.length_lost", "SortBy.subpattern_lost", "SortBy.reversed_effects", "SortBy.refs_counted"], "sort() in full; keys for patterns without @ and sides with the same skeleton (generic arguments, cast types, inner borrows, lengths); counterexamples for each missing part"],
"C128": ["partial", ["Times.eval_right", "Times.crash_only", "Times.constants_known", "Times.said_partial", "Times.unchecked_same", "Times.suggested_iff", "Times.no_sugg_for_chain", "Times.sugg_otherwise", "Times.elapsed_partial", "Times.elapsed_only", "Times.subsec_same", "Times.subsec_all", "Times.clippy_panics", "Times.clippy_panics_new", "Times.days_wrapped", "Times.other_type", "Times.elapsed_later", "Times.hours_overflow"], "Said about constants: for constructors of Duration and a clippy with overflow checks; elapsed: operands that take no time. Findings: clippy_panics, clippy_panics_new, days_wrapped, other_type, elapsed_later."],
"C129": ["partial", ["Merge.flatten_partial", "Merge.some_partial", "Merge.ok_partial", "Merge.pattern_partial", "Merge.effects_marked", "Merge.calls_marked", "Merge.merged_found", "Merge.pattern_found", "Merge.variant_kept", "Merge.name_only", "Merge.type_only", "Merge.default_lost", "Merge.error_cloned", "Merge.subpattern_lost", "Merge.guard_lost", "Merge.map_guard_lost", "Merge.effects_once"], "Same items, effects and panics for functions of the standard library, receivers that are options or results, quiet arguments and patterns without conditions. Findings: name_only, type_only, default_lost, error_cloned, subpattern_lost, guard_lost, map_guard_lost."],
"C13": ["partial", ["TextLints.reindent_partial", "TextLints.reindent_loses_blank_lines", "TextLints.reindent_changes_cr"], "Proved for texts without carriage returns that do not end in a blank line; the excluded texts violate the property."],
"C130": ["partial", ["Widths.said_partial", "Widths.widens_keeps", "Widths.widens_tame", "Widths.always_found", "Widths.same_size_quiet", "Widths.width_same", "Widths.width_unique", "Widths.width_marked", "Widths.lowest_same", "Widths.lowest_unique", "Widths.isolate_partial", "Widths.isolate_found", "Widths.modulo_said", "Widths.sign_extended", "Widths.truncated", "Widths.host_width", "Widths.neg_min", "Widths.signed_one_missed"], "Claims are true for casts that stay within the bounds of the old type; isolate_lowest_one up to a panic. Findings: sign_extended, truncated, host_width, neg_min, signed_one_missed."],
"C131": ["partial", ["Fill.reported_iff", "Fill.other_between", "Fill.nested_after", "Fill.filled_same_partial", "Fill.plain_quiet", "Fill.other_capacity", "Fill.own_capacity", "Fill.call_once", "Fill.old_length", "Fill.cut_last", "Fill.cut_arm"], "filled_same_partial needs quiet lengths that do not look at the vector and are not capacities; otherwise false (findings). Text replaced when the block ends in a block expression: cut_last."],
"C132": ["partial", ["Assign.reported", "Assign.all_reported", "Assign.swaps_commute", "Assign.assigning", "Assign.one_suggestion", "Assign.left_same_partial", "Assign.right_same", "Assign.checked_same_partial", "Assign.trait_same_partial", "Assign.long_same_partial", "Assign.short_means", "Assign.misrefactored_iff", "Assign.self_nothing", "Assign.order_changed", "Assign.index_moved", "Assign.trait_differs", "Assign.foreign_swapped"], "left_same_partial/checked_same_partial need operands that change nothing when the place was the left operand (otherwise false: order_changed, index_moved); other types need a trait that agrees (trait_differs)."],
"C133": ["partial", ["BoolText.meaning_text", "BoolText.compared_partial", "BoolText.context_partial", "BoolText.compared_iff", "BoolText.lazy_partial", "BoolText.lazy_enclosed", "BoolText.lazy_quiet", "BoolText.parens_lost", "BoolText.negation_lost", "BoolText.nan_negated", "BoolText.lazy_under_or", "BoolText.lazy_under_eq", "BoolText.lazy_under_and"], "context_partial/compared_partial exclude negated float comparisons and operands with && or || in parentheses (findings show the claim fails there); lazy_partial needs a context in which the lazy operator needs no parentheses."],
"C134": ["partial", ["Empty.length_same", "Empty.equal_same", "Empty.suggested_partial", "Empty.method_same", "Empty.let_same", "Empty.found_partial", "Empty.found_swapped_partial", "Empty.equal_found", "Empty.no_recursion", "Empty.method_exists", "Empty.literal_found", "Empty.order_wrong", "Empty.order_wrong_value", "Empty.at_most_zero_missed", "Empty.method_missed"], "Wrong for order comparisons with empty sequences (proved); len() <= 0 is not reported"],
"C135": ["partial", ["ForEach.visit_sees", "ForEach.reported", "ForEach.suggested_partial", "ForEach.move_partial", "ForEach.loops_left_alone", "ForEach.effect_lost", "ForEach.move_wrong", "ForEach.typed_machine"], "Wrong for move closures that assign and for returns with effects (proved)"],
"C136": ["proved", ["Names.equal_iff", "Names.lev_iff", "Names.goesOn_iff", "Names.similar_symm", "Names.function_reports", "Names.walk_unique", "Names.visible_distinct", "Names.reports_justified", "Names.prefix_exempt", "Names.prefix_exempt_example", "Names.order_matters", "Names.chain_missed", "Names.digits_alike"], "Order of patterns and expressions in a function is given; Unicode classes are parameters"],
"C137": ["partial", ["DocWords.words_of_text", "DocWords.report_in_text", "DocWords.whole_word_partial", "DocWords.punctuation_off", "DocWords.colons", "DocWords.parentheses", "DocWords.no_parentheses", "DocWords.word_iff", "DocWords.all_reported", "DocWords.skipped_iff", "DocWords.acronyms", "DocWords.shifted", "DocWords.shifted_not_whole"], "not covered: words from which a single colon is cut off at the end while a parenthesis is open, for which the backticks are at the wrong place (witness)"],
"C138": ["proved", ["Safety.found_iff", "Safety.never_panics", "Safety.position", "Safety.documented_unique", "Safety.line_above", "Safety.none_above", "Safety.string_taken", "Safety.other_statement", "Safety.block_above_attribute", "Safety.nested_hides"], "the text handed to the search is given as lines; spans, macros and parents of blocks are not modelled"],
"C139": ["partial", ["Returns.same", "Returns.macro_once", "Returns.nothing_implicit_partial", "Returns.fix_fix", "Returns.labelled_missed", "Returns.return_break"], "same behaviour is proved for all bodies; that no implicit return is left is not covered for labelled blocks in final position, where it is false (witness)"],
"C14": ["proved", ["StrUtils.toCamel_words", "StrUtils.toSnake_words", "StrUtils.case_round_trip", "StrUtils.toCamel_upper", "StrUtils.toSnake_letters", "StrUtils.toSnake_underscores"], ""],
"C140": ["proved", ["Acronyms.reported_iff", "Acronyms.item_iff", "Acronyms.item_repl", "Acronyms.same_letters", "Acronyms.changed_iff", "Acronyms.other_name", "Acronyms.no_acronym", "Acronyms.settled", "Acronyms.before_digit"], "Names are lists of characters; whether the new name is free is not modelled."],
"C141": ["proved", ["StrCase.reported_iff", "StrCase.not_strings", "StrCase.never_taken", "StrCase.fixed", "StrCase.later", "StrCase.reads", "StrCase.check_iff", "StrCase.false_alarm", "StrCase.not_escaped"], "For matches directly on the method's result (through references and the like) and texts without quotes and backslashes, as stated; false otherwise (false_alarm, not_escaped). Assumes that case forms of Unicode do not change again."],
"C142": ["proved", ["CmpChain.reported_iff", "CmpChain.no_panic", "CmpChain.as_match", "CmpChain.dead_block", "CmpChain.side_effects"], "Equality of expressions is equality of numbers; operands without side effects, as stated."],
"C143": ["partial", ["Modulo.silent_same_partial", "Modulo.unsigned_silent", "Modulo.report_consts", "Modulo.report_differs", "Modulo.ref_missed", "Modulo.no_remainder"], "silent_same_partial: the first operand must not be a reference (false for references, ref_missed). Floats are not covered."],
"C144": ["proved", ["LazyDoc.silent_iff", "LazyDoc.no_place", "LazyDoc.settled", "LazyDoc.completes", "LazyDoc.strip_usual", "LazyDoc.no_panic", "LazyDoc.space_taken", "LazyDoc.escape_lost", "LazyDoc.lazy_missed", "LazyDoc.wide_panics"], "Parser events and the columns of items are inputs; see Findings for escapes and the panic."],
"C145": ["partial", ["DocEnd.complete", "DocEnd.sound", "DocEnd.exact_partial", "DocEnd.fixed", "DocEnd.ends_exists", "DocEnd.loose_list", "DocEnd.reported_twice"], "Equality needs documents without paragraphs in lists and footnotes; false otherwise (loose_list)."],
"C146": ["partial", ["FmtLit.place", "FmtLit.no_format", "FmtLit.only_format", "FmtLit.escape_skipped", "FmtLit.mem_emit", "FmtLit.no_panic_ascii", "FmtLit.name_ignored", "FmtLit.never_the_name", "FmtLit.name_cut", "FmtLit.name_not_checked", "FmtLit.slice_panics"], "Names with a format are never recognised (never_the_name), a bug of the code; the rest is proved."],
"C147": ["partial", ["Prio.report_true", "Prio.reported", "Prio.order_irrelevant_partial", "Prio.applied_lower_partial", "Prio.applied_settles_partial", "Prio.lowest_priority", "Prio.groups_not_compared", "Prio.not_a_member"], "Contradicting groups and the lowest priority are excluded; see Findings."],
"C148": ["proved", ["ByteStr.same_bytes", "ByteStr.dereferenced", "ByteStr.reported_iff", "ByteStr.read_piece"], "Array of byte literals to byte string; parents of the expression are given by the site."],
"C149": ["partial", ["CStrLit.rewrite_eq", "CStrLit.rewritten_iff", "CStrLit.same_bytes_partial", "CStrLit.last_nul", "CStrLit.only_nul", "CStrLit.inner_nul"], "Same bytes if there is no other NUL; with one inside the suggestion is not a literal (proved: inner_nul). String literals and continuation lines are left out of the reading, but for any text only a NUL at its end is removed (only_nul)."],
"C15": ["proved", ["StrUtils.indices_spec", "StrUtils.split_spec", "StrUtils.countMatchStart_spec", "StrUtils.countMatchEnd_spec"], ""],
"C150": ["proved", ["Nesting.reported_iff", "Nesting.linted_iff", "Nesting.level_kept", "Nesting.covered", "Nesting.one_on_path", "Nesting.zero_off"], "The walk with its counter reports exactly the outermost nodes that are too deep."],
"C151": ["partial", ["DocLink.warn_iff", "DocLink.urls_reported", "DocLink.only_broken_partial", "DocLink.whole_silent", "DocLink.range_partial", "DocLink.unmapped_silent", "DocLink.not_only_urls", "DocLink.second_paren", "DocLink.range_short"], "Broken web links are reported and whole links are not; that only web links are reported, and that the range reaches the end of the line, is false (proved: not_only_urls, second_paren, range_short)."],
"C152": ["partial", ["Footnote.report_iff", "Footnote.only_refs", "Footnote.refs_partial", "Footnote.check_mem", "Footnote.fragment_partial", "Footnote.start_overflow", "Footnote.escaped_backslash", "Footnote.other_fragment"], "Only references are reported; missing are those at the start of the text, after an escaped backslash and with 64 digits or more, and the fragment is right only if comments give as many bytes as they are long (proved: start_overflow, escaped_backslash, other_fragment)."],
"C153": ["partial", ["OpenOpts.check_iff", "OpenOpts.get_first", "OpenOpts.truncate_read_partial", "OpenOpts.append_truncate_partial", "OpenOpts.create_partial", "OpenOpts.truncate_read_reported", "OpenOpts.append_truncate_reported", "OpenOpts.create_reported", "OpenOpts.once_no_dups", "OpenOpts.twice_dups", "OpenOpts.later_call", "OpenOpts.new_file"], "For chains that set no option twice and ask for no new file; otherwise it is false (proved: later_call, new_file)."],
"C154": ["proved", ["StructOrd.reported_iff", "StructOrd.settles", "StructOrd.new_text", "StructOrd.same_value", "StructOrd.look_idx", "StructOrd.order_matters"], "Order test, sort, text and value; fields that are short read a variable and change nothing."],
"C155": ["partial", ["ModFile.reported_iff", "ModFile.right_folder_partial", "ModFile.reported_folder_partial", "ModFile.right_folder_only", "ModFile.visit_good", "ModFile.inline_before_file"], "The folder is right only when no module with a file lies inside of an inline one; otherwise proved wrong. Modules with a path attribute are not modelled."],
"C156": ["proved", ["DupMod.reported_iff", "DupMod.reports_ordered", "DupMod.expects_iff", "DupMod.map_good"], "Files are compared as numbers; canonical paths are not modelled."],
"C16": ["partial", ["Sugg.denotes_parses", "Sugg.makeAssoc_partial", "Sugg.asTy_denotes", "Sugg.makeUnop_denotes", "Sugg.maybeParenthesize_denotes", "Sugg.maybeParenthesize_receiver", "Sugg.leaves", "Sugg.chained_comparison", "Sugg.cast_less", "Sugg.assign_range", "Sugg.mul_div", "Sugg.add_reassociated", "Sugg.closure_operand"], "Texts are token lists. Proved up to the associativity of + * & | ^ && || and a+(b-c)=(a+b)-c, outside four operand shapes; for each of them, and for closures, a witness shows the printed text is rejected or means something else."],
"C17": ["partial", ["Sugg.enclosed_iff_partial", "Sugg.enclosed_iff", "Sugg.strip_spec", "Sugg.parenthesize_spec", "Sugg.unclosed_counts"], "Exact characterisation proved; text whose first parenthesis is never closed also counts as enclosed (violation proved). Full property proved for balanced text."],
"C18": ["partial", ["Consts.eval_sound_partial", "Consts.shift_amount_wraps", "Consts.cross_width"], "Holds for native builds when each constant shift amount is below the width of the shifted type; violated otherwise (shift_amount_wraps) and when cross-compiling (cross_width). Casts, blocks, indexing and paths to constants are not modelled."],
"C19": ["partial", ["Consts.fullInt_cmp", "Consts.fullInt_total", "Consts.intValue_sound", "Consts.evalInt_sound", "Consts.partialCmp_partial", "Consts.empty_repeat"], "Without [x; 0] arrays, for which it is violated (empty_repeat)."],
"C20": ["partial", ["Consts.detectExtreme_iff", "Consts.isNumeric_partial", "Consts.isNumericMax_iff", "Consts.numeric_min_missed", "Consts.newNumeric_value"], "detect_extreme_expr is exact; is_numeric_min never recognises a signed minimum below 128 bits (numeric_min_missed)."],
"C21": ["proved", ["Ops.detectAbsurd_sound", "Ops.detectAbsurd_complete"], "Native builds."],
"C22": ["proved", ["Ops.constCmp_sound", "Ops.constCmp_complete", "Ops.constCmp_possible"], ""],
"C23": ["partial", ["Ops.doubleComparison_partial", "Ops.double_not_equal"], "All rewrites except < || > to != hold for every partial order; that one needs a total order and is violated for NaN."],
"C24": ["partial", ["Ops.maskCheck_partial", "Ops.gt_inverted", "Ops.gt_inverted_witness", "Ops.and_zero_negative", "Ops.mask_complete"], "Sound except that the always-true/always-false messages of > and <= with & and | masks are exchanged (gt_inverted, for every such lint) and a zero mask ignores a negative bound."],
"C25": ["partial", ["Ops.identityOp_partial", "Ops.remainder_min", "Ops.erasingOp_partial", "Ops.erasing_div"], "Excluded and refuted: a remainder whose dividend is i128::MIN, and 0 / 0, which panics instead of being zero."],
"C26": ["proved", ["Ranges.intPlusOne_sound"], ""],
"C27": ["partial", ["Ranges.rangeContains_partial", "Ranges.negated_partial_order", "Ranges.paren_literal"], "Excluded and refuted: negated ranges over references to floats (not exempted, NaN) and parentheses inside character literals."],
"C28": ["partial", ["Ranges.rangeSwitch_sound", "Ranges.reversedEmpty_empty", "Ranges.reversedEmpty_panics_partial", "Ranges.reversed_index"], "Switching range forms and emptiness are proved; the claim that indexing panics fails for an inclusive range whose end is one below its start."],
"C29": ["partial", ["IntLints.checkedConversion_partial", "IntLints.unsigned_pair_wrong", "IntLints.limit_truncated"], "Sound for the combinations the code means to accept; false for limits that are themselves changed by the cast: two witnesses."],
"C30": ["partial", ["Clamp.manual_clamp_sound_partial", "Clamp.two_if_violation", "Clamp.if_assign_violation", "Clamp.float_min_max_violation"], "Holds (up to values that compare equal) for every linted shape whose assigned place is the compared one, min/max shapes on types without NaN; proved false for assignments to another variable (two_if_violation, if_assign_violation) and for NaN with min/max (noted by the lint)."],
"C31": ["proved", ["IntLints.minMax_constant"], ""],
"C32": ["partial", ["IntLints.saturatingAdd_sound", "IntLints.condCheck_sound", "IntLints.manualCheck_sound", "IntLints.path_truncated"], "All three recognisers are value preserving; the printed receiver of the addition/subtraction drops all but the first path segment (witness)."],
"C33": ["partial", ["IntLints.manualRotate_partial", "IntLints.rotate_signed", "IntLints.rotate_xor"], "Unsigned types and amounts without xor; witnesses for both exclusions."],
"C34": ["partial", ["IntLints.manualDivCeil_partial", "IntLints.manualDivCeil_unsigned", "IntLints.div_ceil_negative", "IntLints.div_ceil_negative_divisor", "IntLints.manualMidpoint_sound", "IntLints.manualIsMultipleOf_sound", "IntLints.verboseBitMask_sound", "IntLints.manualRemEuclid_sound", "IntLints.manualAbsDiff_sound", "IntLints.manualIsPowerOfTwo_sound", "IntLints.power_of_two_wrapping", "IntLints.manualIlog2_sound"], "All idioms for unsigned types and overflow-checked evaluation; manual_div_ceil on signed operands and manual_is_power_of_two with wrapping arithmetic are violated."],
"C35": ["partial", ["Booleans.suggestions_keep_value_partial", "Booleans.optimized_out", "Booleans.suggestions_not_longer", "Booleans.check_simplify_not_sound", "Booleans.inverted_bool_sound", "Booleans.float_violation", "Booleans.cast_violation", "Booleans.context_violation", "Booleans.run_le"], "Suggestions of nonminimal_bool/overly_complex_bool_expr are read uniquely and keep the truth value, for every simplifier returning equivalent sums of products (the external quine-mc_cluskey crate is a parameter), when comparisons are over totally ordered types and their left operand does not end in a cast; removable atoms have no influence; proved false for floats, trailing casts and parenthesised conditions in context."],
"C36": ["proved", ["Pats.manual_range_patterns_sound", "Pats.manual_range_patterns_complete", "Pats.overflow_at_max"], "Suggested range matches exactly the values of the alternatives (ranges non-empty, as the compiler guarantees); fires whenever the literal alternatives form one interval; i128::MAX overflow recorded as a finding."],
"C37": ["proved", ["Pats.overlapping_arms_sound", "Pats.overlapping_arms_complete", "Pats.overlapping_sound", "Pats.overlapping_complete", "Pats.sweep_sound", "Pats.sweep_none"], "Reported arms differ, have no guards and share a value of the type; if nothing is reported, evaluated arms are pairwise disjoint or nested. Patterns that match nothing are excluded (the compiler rejects them)."],
"C38": ["partial", ["Pats.same_arms_partial", "Pats.overlap_sound", "Pats.split_violation", "Pats.group_remove_violation", "Pats.group_merge_violation", "Pats.allow_violation", "Pats.open_start_violation", "Pats.const_violation", "Pats.syntax_violation", "Pats.self_violation"], "For two grouped arms the suggestion preserves body and bindings for every value, if no name has a synonym and the arms do not fall in the case of split_violation; patterns with a common value are always judged to overlap (overlap_sound). Larger groups and the excluded cases are false, with witnesses."],
"C39": ["partial", ["Unnest.suggest_matches_same_partial", "Unnest.visit_alternatives", "Unnest.M_exp", "Unnest.eqPat_exp", "Unnest.suggest_parenthesised", "Unnest.order_of_alternatives", "Unnest.duplicate_alternative", "Unnest.range_behind_reference", "Unnest.open_range_in_slice", "Unnest.shorthand_field", "Unnest.duplicate_rest"], "For all patterns without sub-slice bindings, pinned references and guard patterns that list no or-free pattern twice: the suggestion stands for the same or-free patterns, so it matches the same values with the same possible bindings; or-patterns behind operators stand in parentheses. False in general: order of alternatives, duplicates, and text of ranges, shorthand fields and rest patterns (violations proved)."],
"C40": ["partial", ["Flow.reported_runs_once_partial", "Flow.once_is_reported_partial", "Flow.lazy_violation", "Flow.guard_violation", "Flow.lazy_block_violation", "Flow.assign_violation", "Flow.yield_violation", "Flow.inner_loop_violation"], "Sound unless control flow leaves through the right side of a lazy operator, a match guard, a yield operand or the place of an assignment, for each of which the claim is refuted; complete for bodies without inner loops and todo!()."],
"C41": ["partial", ["Eager.eager_harmless_partial", "Eager.lazy_movable_partial", "Eager.part_le_whole_partial", "Eager.union_violation", "Eager.static_mut_violation", "Eager.nonnull_violation", "Eager.await_violation", "Eager.neg_float_violation", "Eager.part_violation"], "Eager implies harmless except for unsafe reads, for which it is refuted; lazy implies movable into a closure except below an automatic dereference, for which it is refuted; parts are never classified worse than the whole outside dereferences. Cheapness is only the absence of loops and unknown calls. The constant evaluator, promotable functions and safe standard accessors are assumed harmless."],
"C42": ["partial", ["Dev.update_region", "Dev.update_region_panics", "Dev.update_region_idempotent_partial", "Dev.update_region_not_idempotent"], "The text is found between the first marker and the first end marker after it, replaced by the generated text, and all else stays; panics exactly when a marker is missing; running twice changes nothing if the end marker is not in the generated text (refuted otherwise)."],
"C43": ["proved", ["Dev.check_never_writes", "Dev.check_fails_iff", "Dev.check_ok_iff_unchanged", "Dev.change_writes"], "Check mode never writes, fails exactly when an update would change something; change mode writes the updated text."],
"C44": ["partial", ["Dev.renameFile_only_partial", "Dev.renameFile_static_partial", "Dev.renameFile_struct_partial", "Dev.renameFile_lint_path_partial", "Dev.renameFile_mod_partial", "Dev.renameFile_mod_path_partial", "Dev.renameFile_comment_partial", "Dev.renameFile_static_violation", "Dev.renameFile_path_violation", "Dev.snakeToPascal_words"], "Token-level model of rename_update_fn. Proved: only tokens which are a form of the old name change, each to the same form of the new name; the static, the struct, clippy::old, mod old, old:: and //~ old are renamed when not preceded by a colon. Missing: after a colon the static and the struct are not renamed, and unrelated paths x::old are renamed (both violations proved)."],
"C45": ["partial", ["Dev.upliftFile_partial", "Dev.upliftFile_no_item_partial", "Dev.Uplifted.unique", "Dev.upliftFile_mod_violation"], "Exact specification of the edit, deterministic, for every token stream when the module stays or has no mod item in the file. Missing: mod old; is replaced by the new name instead of being removed (violation proved)."],
"C46": ["partial", ["Dev.history_ok", "Dev.rename_effect_partial", "Dev.rename_existing_violation", "Dev.deprecate_target_violation"], "Invariant over all command histories proved in full; the table is abstract (writing it to files and parsing it back is not part of this model). Violations proved: a rename onto an existing lint reports success but is not saved; a deprecated target stays a target."],
"C47": ["proved", ["Dev.splitArgs_complete", "Dev.splitArgs_threads"], "For every argument list and positive number of threads."],
"C48": ["proved", ["Dev.sliceGroups_complete", "Dev.sliceGroups_by_key", "Dev.sliceGroups_loses"], "Holds if the callback never returns more than the length of the tail; otherwise the rest is dropped (sliceGroups_loses)."],
"C49": ["partial", ["Lintcheck.output_sorted", "Lintcheck.diff_complete", "Lintcheck.diff_self", "Lintcheck.diff_counts", "Lintcheck.diff_rows", "Lintcheck.diff_perm_partial", "Lintcheck.diff_order_violation"], "Every warning of both runs is in exactly one class, the counts add up, rows are one per lint and a file compared with itself gives nothing. Missing: independence of the order of warnings at the same place, for which a violation is proved."],
"C50": ["proved", ["Dev.sort_file", "Dev.sort_file_none", "Dev.genMac_content", "Dev.sort_file_attr_violation"], "For every file with declarations at disjoint ranges. Text that belongs to a declaration but lies outside of its range, like an attribute, is kept but not moved (sort_file_attr_violation)."],
"C51": ["partial", ["Dev.bump_exact_partial", "Dev.bump_no_version", "Dev.bump_crlf_violation", "Dev.bump_trailing_space_violation", "Dev.bump_comment_violation"], "Proved for a version line with nothing after the version. Refuted for CRLF line ends, trailing white space and comments after the version."],
"C52": ["partial", ["StrUtils.enum_affix", "StrUtils.field_prefix", "StrUtils.field_postfix_partial", "StrUtils.field_postfix_wrong", "StrUtils.enumStart_iff", "StrUtils.enumEnd_iff", "StrUtils.fieldStart_iff", "StrUtils.fieldEnd_iff"], "Proved for variants, for field prefixes and for names equal to the type's name; the reported field postfix is wrong when all fields end in an underscore (violation proved)."],
"C53": ["partial", ["Sugg.negate_reads", "Sugg.not_reads_partial", "Sugg.not_float", "Sugg.not_cast"], "Proved for total orders and left sides without a trailing cast; violated for NaN and for casts (both proved)."],
"C54": ["partial", ["Dev.genDecls_once", "Dev.lintEntry_path", "Dev.krateMod_file", "Dev.genDecls_windows_violation", "Dev.genDecls_lib_violation"], "Proved for a path separator that sorts before all other characters of the paths, which holds for '/'. Refuted for the separator of Windows and for lints in lib.rs."],
"C55": ["partial", ["Dev.fmtSyms_iff", "Dev.fmtSyms_idempotent", "Dev.fmtSyms_entries", "Dev.fmtSyms_blank_violation", "Dev.fmtSyms_empty_violation"], "Idempotence and 'only the list changes' are proved for every text; the entries are the symbols if every line holds one. Refuted for blank lines and an empty list."],
"C56": ["partial", ["Dev.deletedTests_partial", "Dev.renamedTests_partial", "Dev.deletedTests_toml_violation"], "Exact set of deleted and renamed tests, with at most one directory in tests/ui-toml. Missing: with two the second path is wrong (violation proved)."],
"C57": ["partial", ["Lintcheck.truncateList_spec", "Lintcheck.section_limits", "Lintcheck.report_bounded", "Lintcheck.report_untruncated", "Lintcheck.ids_distinct", "Lintcheck.summary_links", "Lintcheck.section_links_partial", "Lintcheck.section_links_violation"], "Truncation, bounds, distinct ids and the links of the summary are proved; the links of the sections are only equal to the ids up to case, and the violation is proved."],
"C58": ["partial", ["Lintcheck.counter_spec", "Lintcheck.stats_order_free", "Lintcheck.stats_sorted_partial", "Lintcheck.stats_sorted_violation", "Lintcheck.stats_roundtrip", "Lintcheck.printStats_spec"], "Counts, independence of the order of the map, round trip through the log and the comparison are proved; the order by count only for counts below 10000, with a violation above."],
"C59": ["partial", ["Casts.truncation_unsigned_partial", "Casts.truncation_signed_partial", "Casts.truncation_opaque", "Casts.u128_to_usize", "Casts.u64_to_usize32", "Casts.method_not_min", "Casts.cast_inside", "Casts.signed_remainder", "Casts.mask_of_sign", "Casts.wrap_of_reduced"], "Proved for operands built from constants, variables, %, /, >>, &, min, clamp, signum, blocks and locals: unsigned operands, and signed ones where the reductions are right (fixed-width types); for opaque operands the exact criterion. Missing/violated, each with a witness: u128 to usize, u64 shifted to usize on 32-bit targets, arbitrary one-argument methods treated like min, nested casts, signed remainders and masks of negative numbers, and a reduced unsigned operand cast to a signed type wraps unreported."],
"C60": ["proved", ["Casts.signLoss_sound", "Casts.exprSign_sound", "Casts.muldiv_sound", "Casts.add_sound", "Casts.pow_wraps"], "For every constant evaluator that is right. With overflow checks; without them x.pow(2) can wrap to a negative number (pow_wraps)."],
"C61": ["partial", ["Casts.silent_keeps", "Casts.reported_loses", "Casts.silent_loses", "Casts.wraps_onPtr", "Casts.wraps_always", "Casts.precision_loss", "Casts.lossless_partial", "Casts.lossless_f16", "Casts.precision_f16"], "Exact except for 128-bit integers cast to pointer-sized types (silent_loses), and f16 (lossless_f16, precision_f16)."],
"C62": ["proved", ["Casts.enum_truncation", "Casts.enumBits_le", "Casts.enumValueBits_le", "Casts.discriminantValue_spec", "Casts.enum_wraps"], "The number of bits is exact; the sign of the target type is not considered (enum_wraps)."],
"C63": ["partial", ["HirEq.equal_hash_partial", "HirEq.Witness.hash_swapped", "HirEq.Witness.hash_blocks", "HirEq.Witness.hash_patterns_types"], "Excluded: swapped operands, blocks compared as () or return, unsafe blocks, '..' in struct patterns, lifetimes of references, const-argument structs; constants must be a function of the syntax. Violations proved."],
"C64": ["partial", ["HirEq.searchSame_sound", "HirEq.searchSame_complete", "HirEq.searchSame_hash_needed", "HirEq.Witness.search_depends_on_others"], "Completeness needs a symmetric, transitive equality which is consistent with the hash; it isn't (violation proved)."],
"C65": ["partial", ["HirEq.equal_value_partial", "HirEq.Witness.equal_not_defined", "HirEq.Witness.equal_not_symmetric", "HirEq.Witness.equal_other_value", "HirEq.Witness.equal_other_jumps", "HirEq.Witness.equal_other_fields", "HirEq.Witness.equal_other_kind"], "Expressions without side effects, when both have a value, names compared as written; names written the same way are assumed to denote things of the same kind (violation without this: equal_other_kind); other violations proved."],
"C66": ["partial", ["Unwrap.verdict_partial", "Unwrap.suggestion_partial", "Unwrap.suggestion_else", "Unwrap.Witness.wrong_as_mut", "Unwrap.Witness.wrong_overloaded"], "as_mut of user types and overloaded & excluded, suggestion only for calls in the first branch; violations proved for the rest. Macro contexts and unions not modelled."],
"C67": ["partial", ["Memcpy.suggestion_partial", "Memcpy.no_panic_partial", "Memcpy.Witness.let_dropped", "Memcpy.Witness.increment_dropped", "Memcpy.Witness.dependent_wrong", "Memcpy.Witness.empty_panics", "Memcpy.Witness.other_len_panics", "Memcpy.Witness.closed_len_panics", "Memcpy.Witness.rows_wrong", "Memcpy.Witness.negated_offset", "Memcpy.Witness.underflow_panics"], "If neither panics, loop and suggestion leave the same memory, for loops of independent assignments and counters with fixed bases (suggestion_partial); with at least one round and bounds that can be computed the suggestion doesn't panic (no_panic_partial). False otherwise: dropped statements, dependent assignments, bases with counters, empty ranges, len() of another place, inclusive ranges up to len(), underflow with counters, negated offsets (Witness)."],
"C68": ["partial", ["Counter.counter_partial", "Counter.numbers_partial", "Counter.zip_panics", "Counter.Witness.use_in_let", "Counter.Witness.use_in_closure", "Counter.Witness.inc_lazy", "Counter.Witness.inc_labelled", "Counter.Witness.autoref_before", "Counter.Witness.init_closure", "Counter.Witness.init_letElse", "Counter.Witness.init_lazy", "Counter.Witness.init_labelled", "Counter.Witness.init_autoref"], "Proved for loops in which the variable is visible to the visitor and set only where this can't be left out; false otherwise (witnesses), and zip panics at the largest number."],
"C69": ["partial", ["Swap.mem_partial", "Swap.slice_partial", "Swap.xor_partial", "Swap.almost_partial", "Swap.borrow_partial", "Swap.Witness.dependent_index", "Swap.Witness.mem_used_later", "Swap.Witness.mem_used_index", "Swap.Witness.slice_cast", "Swap.Witness.slice_closure", "Swap.Witness.slice_tail", "Swap.Witness.slice_mut", "Swap.Witness.xor_same", "Swap.Witness.xor_dependent", "Swap.Witness.almost_dependent", "Swap.Witness.deref_same"], "Proved if indices don't depend on the places, for xor if the places differ, and if later uses of the temporary variable are seen; false otherwise (witnesses)."],
"C70": ["partial", ["Asserts.covers", "Asserts.necessary", "Asserts.quiet_assert", "Asserts.quiet_index", "Asserts.comparison_holds", "Asserts.same_partial", "Asserts.Witness.conditional", "Asserts.Witness.leaves", "Asserts.Witness.else_dropped", "Asserts.Witness.equality", "Asserts.Witness.upper_bound", "Asserts.Witness.second_ignored"], "Covering, minimality and silence are proved for all code; unchanged behaviour only for code without conditions and lower bounds, and is false otherwise (witnesses)."],
"C71": ["partial", ["Ctrl.Never.never_loops_partial", "Ctrl.Never.single_turn_partial", "Ctrl.Never.single_element_partial", "Ctrl.Never.rewrite_same_partial", "Ctrl.Never.lazy_loops", "Ctrl.Never.lazy_not_once", "Ctrl.Never.guard_loops", "Ctrl.Never.chain_loops", "Ctrl.Never.assign_loops"], "Proved when no break or continue hides in the right side of && or ||, a later condition of a chain, a guard, or the right side of an assignment to a complex place; the negation there is proved by witnesses."],
"C72": ["partial", ["Ctrl.Continue.drop_same", "Ctrl.Continue.rearrange_same_partial", "Ctrl.Continue.erode_block", "Ctrl.Continue.erode_no_brace", "Ctrl.Continue.merge_captures", "Ctrl.Continue.merge_not_same", "Ctrl.Continue.merge_no_program"], "drop_same (leaving out reported continues) and the text theorems are full; rearranging needs that the branch declares no name the moved statements mention and that these declare no items (merge_not_same shows the need)"],
"C73": ["partial", ["Ctrl.Else.isNever_sound", "Ctrl.Else.lift_same_partial", "Ctrl.Else.machine_same_partial", "Ctrl.Else.last_same_partial", "Ctrl.Else.item_captured", "Ctrl.Else.item_hidden", "Ctrl.Else.machine_not_same", "Ctrl.Else.let_captured"], "isNever_sound is full; moving the block out needs that its items have names unknown around it and that what follows does not mention its declarations (machine_not_same shows the need for items)"],
"C74": ["partial", ["Ctrl.Collapse.if_if_same", "Ctrl.Collapse.else_if_discard", "Ctrl.Collapse.else_if_shape", "Ctrl.Collapse.else_if_same_partial", "Ctrl.Collapse.joined_same", "Ctrl.Collapse.peel_sound", "Ctrl.Collapse.with_and_partial", "Ctrl.Collapse.semi_value", "Ctrl.Collapse.else_if_not_same", "Ctrl.Collapse.space_breaks"], "if_if_same, else_if_discard, joined_same and peel_sound are full; the value of else-if needs no semicolon after an inner if-else (else_if_not_same), and the replacement of the word if needs no whitespace inside the parentheses (space_breaks)"],
"C75": ["partial", ["Ctrl.Return.fn_same_but_unit", "Ctrl.Return.fn_same_partial", "Ctrl.Return.closure_same_partial", "Ctrl.Return.one_return_less", "Ctrl.Return.written_whole_partial", "Ctrl.Return.par_needed", "Ctrl.Return.edit_changes_type", "Ctrl.Return.text_breaks"], "fn_same_but_unit and one_return_less are full; equality of the values needs that the edited function still compiles (edit_changes_type), and the text is right except for calls, indices, ranges and assignments directly on a block (text_breaks)"],
"C76": ["partial", ["Lazily.eager_harmless_partial", "Lazily.un_lazy_partial", "Lazily.lazy_stays_partial", "Lazily.union_not_harmless", "Lazily.unsafe_not_harmless", "Lazily.const_not_harmless", "Lazily.await_moved"], "Tame excludes union fields, unsafe functions and constants with destructors, for which the claim fails (union_not_harmless, unsafe_not_harmless, const_not_harmless); lazy_stays_partial needs that nothing goes through an overloaded Deref (await_moved)"],
"C77": ["partial", ["SideFx.silent_safe_partial", "SideFx.reports_node", "SideFx.reports_operands", "SideFx.div_literal_quiet", "SideFx.Witness.mul_minus_one", "SideFx.Witness.div_minus_one", "SideFx.Witness.zero_sub", "SideFx.Witness.shift_any", "SideFx.Witness.const_receiver", "SideFx.Witness.lazy_static", "SideFx.Witness.host_size", "SideFx.Witness.user_operator"], "Tame excludes shifts, literals with operators like -1, 0 - x, division by -1, constant receivers, users' operators with the always allowed types and functions inside of constants; Usual excludes machines whose usize differs from the host; for each the claim fails (Witness)"],
"C78": ["partial", ["Recur.reported_irrelevant_partial", "Recur.reported_closed", "Recur.reported_largest", "Recur.Witness.and_effect", "Recur.Witness.and_statement", "Recur.Witness.div_panics", "Recur.Witness.user_assign"], "Tame excludes panicking operators, effects on the right side of && and ||, and op= of types that are not primitive where a reported parameter takes part; for each the claim fails (Witness)"],
"C79": ["partial", ["Endless.infinite_never_returns_partial", "Endless.cmp_not_infinite", "Endless.silent_ends_partial", "Endless.Witness.empty_cycle", "Endless.Witness.user_cycle", "Endless.Witness.option_sum", "Endless.Witness.not_always", "Endless.Witness.inspect_missed", "Endless.Witness.skipWhile_missed", "Endless.Witness.peekable_missed", "Endless.Witness.flatMap_missed", "Endless.Witness.zip_filter"], "A reported call never returns, if the methods are those of Iterator, cycled iterators are not empty and sums are sums of numbers (false without: witnesses); silent calls end for the methods which the table gets right."],
"C80": ["partial", ["Indexing.out_of_bounds_panics", "Indexing.silent_safe_partial", "Indexing.mayPanic_can_partial", "Indexing.Witness.reversed", "Indexing.Witness.generic", "Indexing.Witness.const_range", "Indexing.Witness.const_block", "Indexing.Witness.not_always", "Indexing.Witness.harmless"], "Reported out-of-bounds indices always panic (full). Silence is safe, and reports of possible panics are possible, for the cases the code looks at (false without: witnesses)."],
"C81": ["partial", ["OptMatch.canMove_safe", "OptMatch.map_same_partial", "OptMatch.filter_same_partial", "OptMatch.and_then_same_partial", "OptMatch.Witness.wild_first_changes", "OptMatch.Witness.function_called_changes", "OptMatch.Witness.function_of_variable", "OptMatch.Witness.amp_changes", "OptMatch.Witness.function_garbage", "OptMatch.Witness.negation_lost", "OptMatch.Witness.let_condition", "OptMatch.Witness.mut_changes", "OptMatch.Witness.as_mut_changes", "OptMatch.Witness.borrowed_changes", "OptMatch.Witness.return_changes"], "The edit equals the code as a function of the state, for all patterns, types and meanings, and moved expressions are never left by a jump. Missing, each with a witness: a first arm with _, functions other than names, & inside of Some with as_ref, and in filter: functions, let, mut, as_mut, conditions on values that are not Copy, return in and_then."],
"C82": ["partial", ["OptMatch.okErr_same", "OptMatch.unwrap_same_partial", "OptMatch.Witness.sub_pattern_changes"], "manual_ok_err: full. manual_unwrap_or: patterns Some(x @ p) are missing, with a witness that the lint changes the value there."],
"C83": ["partial", ["Needless.match_same_partial", "Needless.if_let_same_partial", "Needless.Witness.else_none_changes", "Needless.Witness.chain_changes", "Needless.Witness.zero_changes", "Needless.Witness.path_changes", "Needless.Witness.operand_changes"], "match_same_partial and if_let_same_partial leave out floating point zeros, paths that begin with a pattern's name, operands, chains on expressions with effects, and options with else None but without Some(x); each is a witness"],
"C84": ["partial", ["BoolMatch.match_same_partial", "BoolMatch.let_same", "BoolMatch.like_same", "BoolMatch.like_if_same", "BoolMatch.Witness.guard_dropped"], "let_same, like_same and like_if_same are full; match_same_partial leaves out a guard on a first arm with the value false, where the code is wrong (guard_dropped)"],
"C85": ["partial", ["TryOp.is_same_partial", "TryOp.if_let_same_partial", "TryOp.match_same_partial", "TryOp.let_else_same_partial", "TryOp.Witness.no_return", "TryOp.Witness.no_return_stmt", "TryOp.Witness.branch_lost", "TryOp.Witness.outer_variable", "TryOp.Witness.no_return_err", "TryOp.Witness.ref_mut_copy", "TryOp.Witness.addr_copy", "TryOp.Witness.reference_stuck", "TryOp.Witness.some_result", "TryOp.Witness.err_reference", "TryOp.Witness.hidden_ref"], "the four theorems compare the whole outcome; left out are branches that do not leave the function, ref variables and & scrutinees on places, results with else or that are not Copy, where the code is wrong (witnesses)"],
"C86": ["partial", ["LetElse.if_let_same_partial", "LetElse.match_same_partial", "LetElse.Witness.nested_field", "LetElse.Witness.in_slice", "LetElse.Witness.below_ref", "LetElse.Witness.more_variables", "LetElse.Witness.ref_mut", "LetElse.Witness.mut_mut", "LetElse.Witness.ref_tuple", "LetElse.Witness.mut_copies", "LetElse.Witness.ref_in_place", "LetElse.Witness.at_or", "LetElse.Witness.one_tuple", "LetElse.Witness.only_dots", "LetElse.Witness.same_variant"], "both theorems compare which case leaves and all declared variables; left out are patterns the code prints wrongly (witnesses) and variables that are not used"],
"C87": ["partial", ["Never.never_no_value_partial", "Never.Witness.lazy_return", "Never.Witness.lazy_break"], "for runs of any length; left out are jumps on the right of && and ||, where the code is wrong (witnesses)"],
"C88": ["partial", ["InfLoop.infinite_forever_partial", "InfLoop.Witness.outer_label", "InfLoop.Witness.break_value", "InfLoop.Witness.become_leaves"], "Partial: no break to a label outside of the loop, no become, values of break do not jump; each limit has a witness."],
"C89": ["partial", ["Local.local_same_partial", "Local.own_local", "Local.index_right_partial", "Local.Witness.named_length", "Local.Witness.cfg_element", "Local.Witness.macro_callee", "Local.Witness.hidden_in_macro", "Local.Witness.range_index"], "For code outside of macros; left out are named lengths, elements with cfg and functions named by macros, where the code is wrong (witnesses); types are assumed equal."],
"C90": ["partial", ["Certain.certain_unique_partial", "Certain.not_unique", "Certain.shift", "Certain.number_argument", "Certain.trait_self", "Certain.lifetime_argument", "Certain.exported_variant", "Certain.generic_function", "Certain.generic_method", "Certain.projection", "Certain.index_type"], "Expressions called certain have one type, outside of the nine cases in which the analysis is wrong (witnesses); coercions are not modelled."],
"C91": ["partial", ["Guard.guard_same_partial", "Guard.Witness.subpattern", "Guard.Witness.user_equality", "Guard.Witness.other_method", "Guard.Witness.captured", "Guard.Witness.inner_guard", "Guard.Witness.field", "Guard.Witness.bound_twice", "Guard.Witness.not_same"], "Missing: tested variables with a subpattern, equality that is not structural, other methods called with an empty array, clashes of names; each is refuted in Guard.Witness."],
"C92": ["partial", ["Collapse.if_same_partial", "Collapse.match_same_partial", "Collapse.if_let_same_partial", "Collapse.Witness.not_exhaustive", "Collapse.Witness.falls_to_none", "Collapse.Witness.falls_to_subpattern", "Collapse.Witness.falls_between", "Collapse.Witness.subpattern", "Collapse.Witness.field_after_wildcard", "Collapse.Witness.behind_struct", "Collapse.Witness.renamed_field", "Collapse.Witness.not_same"], "Missing: arms between that match the same values, last arms that do not match everything (None, x @ p), subpatterns of the variable, help texts that describe no pattern; refuted in Collapse.Witness. For inner matches only the result is compared (the guard is evaluated less often)."],
"C93": ["partial", ["LateInit.late_init_partial", "LateInit.tail_drop_order", "LateInit.sub_drop_order", "LateInit.no_semicolon", "LateInit.used_before_declared", "LateInit.used_in_let", "LateInit.group_drop_order"], "Proved for all blocks under the conditions that the code does not check (several variables without ordered drop, branches that are left do not mention the variable, no ordered bindings with subpatterns, at the end of the block no other statement mentions the variable or declares ordered variables). Witnesses show that each is needed. Missing: macros, extended temporaries, moves."],
"C94": ["partial", ["LetIf.let_if_partial", "LetIf.init_lost", "LetIf.init_reordered", "LetIf.drop_lost", "LetIf.else_uses", "LetIf.else_value_uses"], "Proved for all branches, surrounding statements and machines if the initialiser is a constant, the variable has no ordered drop, and the else branch does not use the variable except for a final assignment; the code checks none of these, and witnesses show that they are needed. Missing: macros, an if at the end of the block."],
"C95": ["partial", ["Entry.entry_same_partial", "Entry.key_not_moved_partial", "Entry.crashes", "Entry.never_inserted", "Entry.declared_inserts", "Entry.key_twice", "Entry.key_changed", "Entry.value_panics", "Entry.key_used_after_move"], "Proved for keys that are neither changed nor have effects, values without effects that do not panic, and (without else) paths that do not end with the key, the map or a declaration; otherwise the suggestion is wrong (witnesses). The check for moved keys is only proved with an else."],
"C96": ["partial", ["Share.start_same_partial", "Share.both_same_partial", "Share.start_unordered_partial", "Share.shadows_condition", "Share.before_condition", "Share.start_end_overlap", "Share.guard_unseen", "Share.macro_leaves_use"], "Proved for chains without macros whose conditions only read variables that the moved start does not shadow, and where no statement of a branch belongs to both the start and the end; drops, items, if let and match arms are not modelled. Negations with witnesses for shadowed conditions, conditions with effects, overlapping start and end, unseen ordered drops and macro calls."],
"C97": ["proved", ["Splitn.splitn_same", "Splitn.needless_exact", "Splitn.indirect_same", "Splitn.suspicious_true"], "For all strings, stateful patterns, limits, continuations; calls are assumed to be those of Iterator where the code checks it."],
"C98": ["partial", ["Elide.elide_same_partial", "Elide.cuts_partial", "Elide.cuts_all", "Elide.dyn_hidden", "Elide.dyn_bound", "Elide.cuts_overlap"], "functions with a trait object that has one of the lifetimes, and lifetimes whose first uses are not in the order of the declaration, are not covered: the suggestion is wrong for some of them (witnesses); impl blocks are modelled only as to the deletions"],
"C99": ["partial", ["Inline.inline_same", "Inline.inline_mixed_partial", "Inline.name_clash"], "proved for the default configuration; for allow-mixed-uninlined-format-args = false not covered: an argument that stays and has the name of an inlined variable, where the suggestion is wrong (witness)"]
}
