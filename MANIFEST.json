{
 "claims": [
  {
   "property": "C01",
   "status": "partial",
   "theorems": [
    "Verif.Cli.decode_encode_partial",
    "Verif.Cli.decode_encode_violated",
    "Verif.Cli.user_flags_reach_compiler"
   ],
   "note": "Round trip proved for flags without the marker or its overlapping tail; a concrete violating flag is exhibited."
  },
  {
   "property": "C02",
   "status": "proved",
   "theorems": [
    "Verif.Cli.cargo_words",
    "Verif.Cli.clippy_words",
    "Verif.Cli.fix_implies_no_deps",
    "Verif.Cli.before_after"
   ],
   "note": ""
  },
  {
   "property": "C03",
   "status": "proved",
   "theorems": [
    "Verif.Cli.argValue_iff",
    "Verif.Cli.lints_run_iff"
   ],
   "note": ""
  },
  {
   "property": "C04",
   "status": "proved",
   "theorems": [
    "Verif.Config.loadConf_found_iff",
    "Verif.Config.loadConf_none_iff",
    "Verif.Config.loadConf_clash",
    "Verif.Config.startDir_spec",
    "Verif.Config.mergeMsrv_spec"
   ],
   "note": ""
  },
  {
   "property": "C05",
   "status": "partial",
   "theorems": [
    "Verif.Config.field_value_partial",
    "Verif.Config.diagnostics_partial",
    "Verif.Config.conf_field_value_partial",
    "Verif.Config.deprecated_key_ignored",
    "Verif.Config.confSchema_unique",
    "Verif.Config.confSchema_sound",
    "Verif.Config.confSchema_one_alias"
   ],
   "note": "Proved for fields declared with a type; one deprecated key is silently ignored (deprecated_key_ignored)."
  },
  {
   "property": "C06",
   "status": "proved",
   "theorems": [
    "Verif.Config.deserializeArray_spec"
   ],
   "note": ""
  },
  {
   "property": "C07",
   "status": "proved",
   "theorems": [
    "Verif.Config.checkGroups_ok_iff",
    "Verif.Config.checkGroups_order",
    "Verif.Config.defaultGroups_ok"
   ],
   "note": ""
  },
  {
   "property": "C08",
   "status": "proved",
   "theorems": [
    "Verif.Msrv.early_in_force",
    "Verif.Msrv.restored",
    "Verif.Msrv.late_in_force",
    "Verif.Msrv.inForce_unique",
    "Verif.Msrv.meets_iff",
    "Verif.Msrv.meets_mono",
    "Verif.Msrv.stability_iff",
    "Verif.Msrv.stability_mono"
   ],
   "note": ""
  },
  {
   "property": "C09",
   "status": "proved",
   "theorems": [
    "Verif.NumLit.format_value",
    "Verif.NumLit.source_value",
    "Verif.NumLit.signed_hex_broken"
   ],
   "note": "For literals of Rust's grammar, with a minus sign only in front of decimal ones; signed_hex_broken shows that restriction is needed."
  },
  {
   "property": "C10",
   "status": "proved",
   "theorems": [
    "Verif.NumLit.canonical_groups",
    "Verif.NumLit.format_idempotent"
   ],
   "note": ""
  },
  {
   "property": "C100",
   "status": "partial",
   "theorems": [
    "Verif.WhileIter.related_iff",
    "Verif.WhileIter.body_apart_partial",
    "Verif.WhileIter.loop_same",
    "Verif.WhileIter.loop_same_partial",
    "Verif.WhileIter.moved_partial",
    "Verif.WhileIter.index_changes",
    "Verif.WhileIter.deref_missed",
    "Verif.WhileIter.else_missed",
    "Verif.WhileIter.closure_missed"
   ],
   "note": "Missing: indices in the iterator's place that the body changes, implicit deref calls, let-else after the loop, loops in FnOnce closures (each with a counterexample); patterns, statics and references as values of their own are not modelled."
  },
  {
   "property": "C101",
   "status": "partial",
   "theorems": [
    "Verif.RangeLoop.apart_partial",
    "Verif.RangeLoop.bounds_apart",
    "Verif.RangeLoop.index_unused",
    "Verif.RangeLoop.mutable_partial",
    "Verif.RangeLoop.numbers_same",
    "Verif.RangeLoop.loop_same_partial",
    "Verif.RangeLoop.row_len",
    "Verif.RangeLoop.uses_index",
    "Verif.RangeLoop.operand_changes",
    "Verif.RangeLoop.stops_early",
    "Verif.RangeLoop.index_changes",
    "Verif.RangeLoop.ref_mut_missed",
    "Verif.RangeLoop.operand_borrow"
   ],
   "note": "Borrow, index, mutability, bounds and numbers for all bodies; the same effect under hypotheses on the sequence and the length, each with a witness that it is needed."
  },
  {
   "property": "C102",
   "status": "partial",
   "theorems": [
    "Verif.Fold.total_same_partial",
    "Verif.Fold.search_same_partial",
    "Verif.Fold.mapOr_init",
    "Verif.Fold.option_same_partial",
    "Verif.Fold.sum_refs",
    "Verif.Fold.ref_lost",
    "Verif.Fold.acc_left",
    "Verif.Fold.left_effects",
    "Verif.Fold.captured",
    "Verif.Fold.init_changes",
    "Verif.Fold.shorthand",
    "Verif.Fold.acc_ref"
   ],
   "note": "Same value and effects for all closures and iterators, under hypotheses on names and references that each have a witness."
  },
  {
   "property": "C103",
   "status": "partial",
   "theorems": [
    "Verif.Strip.strip_same_partial",
    "Verif.Strip.not_mutated",
    "Verif.Strip.silent",
    "Verif.Strip.inclusive",
    "Verif.Strip.pattern_assigned",
    "Verif.Strip.shadowed",
    "Verif.Strip.captured",
    "Verif.Strip.upvar_assigned"
   ],
   "note": "The rewrite is proved to keep value, calls and variables for every block, string and state, under hypotheses the lint does not test: no inclusive range, the pattern's variable is not assigned to, the new name is not that of an outer variable used elsewhere in the block, and no captured variable is assigned to. Each has a witness. Silence is characterised (not_mutated, silent)."
  },
  {
   "property": "C104",
   "status": "partial",
   "theorems": [
    "Verif.WhileCond.same_condition_partial",
    "Verif.WhileCond.if_loop_partial",
    "Verif.WhileCond.never_ends_partial",
    "Verif.WhileCond.fixed_silent",
    "Verif.WhileCond.pointer_changed",
    "Verif.WhileCond.alias_changed",
    "Verif.WhileCond.operator_changed",
    "Verif.WhileCond.outer_continued"
   ],
   "note": "Proved for all bodies, states, functions and numbers of rounds, for conditions that follow no pointers and use no operators of traits (and, for the second claim, bodies that do not continue an outer loop): the lint does not test for these, see the witnesses."
  },
  {
   "property": "C105",
   "status": "partial",
   "theorems": [
    "Verif.Wraps.wraps_same_partial",
    "Verif.Wraps.binds_same_partial",
    "Verif.Wraps.wraps_fewer",
    "Verif.Wraps.noop",
    "Verif.Wraps.label_none",
    "Verif.Wraps.guard_none",
    "Verif.Wraps.unit_effect"
   ],
   "note": "Bodies without labelled blocks or returning guards at the end; units wrapped as literals."
  },
  {
   "property": "C106",
   "status": "partial",
   "theorems": [
    "Verif.LitFmt.literal_same_partial",
    "Verif.LitFmt.verdict_text",
    "Verif.LitFmt.width_shifted",
    "Verif.LitFmt.lint_counted",
    "Verif.LitFmt.brace_escape",
    "Verif.LitFmt.blank_lost",
    "Verif.LitFmt.string_ends"
   ],
   "note": "All calls except the five kinds for which the lint is wrong; see the witnesses."
  },
  {
   "property": "C107",
   "status": "partial",
   "theorems": [
    "Verif.Server.results_partial",
    "Verif.Server.checked_once",
    "Verif.Server.all_ran",
    "Verif.Server.accepts_all",
    "Verif.Server.schedules_end",
    "Verif.Server.reaches_results",
    "Verif.Server.link_partial",
    "Verif.Server.uncap_partial",
    "Verif.Server.spanless_lost",
    "Verif.Server.not_text_lost",
    "Verif.Server.schedule_decides"
   ],
   "note": "results_partial needs all of Clippy's output to be text and all its diagnostics to have a rendered form and a place; otherwise warnings are lost (spanless_lost, not_text_lost). link_partial excludes braces in names, uncap_partial ill-formed command lines. Everything else holds for every schedule."
  },
  {
   "property": "C108",
   "status": "partial",
   "theorems": [
    "Verif.Sources.prepared_partial",
    "Verif.Sources.run_ends",
    "Verif.Sources.read_entry",
    "Verif.Sources.read_only_partial",
    "Verif.Sources.download",
    "Verif.Sources.torn",
    "Verif.Sources.same_repo",
    "Verif.Sources.other_url",
    "Verif.Sources.same_dir",
    "Verif.Sources.path_and_version"
   ],
   "note": "Missing: interruptions while an archive is unpacked and unrelated sources sharing a directory (violated: torn, same_repo, other_url, same_dir), entries with a local directory and another source (violated: path_and_version)."
  },
  {
   "property": "C109",
   "status": "partial",
   "theorems": [
    "Verif.Mir.in_cycle",
    "Verif.Mir.given_up",
    "Verif.Mir.usage_exact",
    "Verif.Mir.used_once_partial",
    "Verif.Mir.used_at_all",
    "Verif.Mir.used_once_found",
    "Verif.Mir.assignments_partial",
    "Verif.Mir.first_missed",
    "Verif.Mir.index_missed",
    "Verif.Mir.update_missed",
    "Verif.Mir.inout_missed"
   ],
   "note": "Missing: uses at the very first position, as an index, or by a statement that assigns the local, and inout operands of inline assembly (violated: first_missed, index_missed, update_missed, inout_missed)."
  },
  {
   "property": "C11",
   "status": "partial",
   "theorems": [
    "Verif.TextLints.raw_hashes_partial",
    "Verif.TextLints.raw_hashes_violated",
    "Verif.TextLints.raw_hashes_violated_separated",
    "Verif.TextLints.plain_literal",
    "Verif.TextLints.plain_literal_complete"
   ],
   "note": "Hash removal is wrong for contents such as \"\"# (violation proved); proved for all other contents. The plain-literal half is proved in full."
  },
  {
   "property": "C110",
   "status": "partial",
   "theorems": [
    "Verif.Borrow.closure",
    "Verif.Borrow.borrower_found_partial",
    "Verif.Borrow.only_borrowers_partial",
    "Verif.Borrow.at_most_partial",
    "Verif.Borrow.bounded_iff",
    "Verif.Borrow.only_iff",
    "Verif.Borrow.borrowers_exact",
    "Verif.Borrow.nonempty",
    "Verif.Borrow.through_deref",
    "Verif.Borrow.through_call",
    "Verif.Borrow.in_struct"
   ],
   "note": "Exact description of the map and closure proved; soundness over all executions for bodies whose mutable references are made by borrowing, passed on by moving and passed to calls as they are, without assignments through references. Three kinds of missed borrowers shown by witnesses."
  },
  {
   "property": "C111",
   "status": "partial",
   "theorems": [
    "Verif.Clones.same_values_partial",
    "Verif.Clones.branches_partial",
    "Verif.Clones.report_direct_partial",
    "Verif.Clones.find_iff",
    "Verif.Clones.stuck_iff",
    "Verif.Clones.locals_direct",
    "Verif.Clones.not_again",
    "Verif.Clones.unused_found",
    "Verif.Clones.store_missed",
    "Verif.Clones.cell_missed",
    "Verif.Clones.branch_missed",
    "Verif.Clones.deref_missed"
   ],
   "note": "Equality of all values found after the clone proved for direct clones whose uses come one after the other, or whose changes do; the clone may be changed only by moves and mutable borrows. Calls behind deref, assignments to parts of the clone, interior mutability and changes in other branches are shown to be missed."
  },
  {
   "property": "C112",
   "status": "partial",
   "theorems": [
    "Verif.Pushes.same_item_partial",
    "Verif.Pushes.report_iff",
    "Verif.Pushes.report_local",
    "Verif.Pushes.tail_missed",
    "Verif.Pushes.let_missed",
    "Verif.Pushes.closure_missed",
    "Verif.Pushes.continue_missed",
    "Verif.Pushes.cell_missed"
   ],
   "note": "One equal element per iteration proved for bodies that aren't left early and don't have the vector in lets, closures or last expressions of blocks, and items without interior mutability; all of these are shown to be missed. When a report is made is characterised exactly."
  },
  {
   "property": "C113",
   "status": "partial",
   "theorems": [
    "Verif.Order.order_partial",
    "Verif.Order.report_iff",
    "Verif.Order.reported_differs",
    "Verif.Order.twice_missed",
    "Verif.Order.addr_missed",
    "Verif.Order.closure_missed",
    "Verif.Order.else_reported"
   ],
   "note": "Independence of the order of evaluation proved for expressions without reports in which no two operands write one variable and there are no references and closures; all three are shown to be missed. The reported pairs are characterised exactly, with the superfluous ones for let-else."
  },
  {
   "property": "C114",
   "status": "proved",
   "theorems": [
    "Verif.Units.promote_same",
    "Verif.Units.promote_largest",
    "Verif.Units.promote_found",
    "Verif.Units.report_iff",
    "Verif.Units.suggestion_same",
    "Verif.Units.no_panic"
   ],
   "note": "All values, units, versions and both feature settings."
  },
  {
   "property": "C115",
   "status": "partial",
   "theorems": [
    "Verif.Ascii.same_partial",
    "Verif.Ascii.guarded",
    "Verif.Ascii.guard_missed",
    "Verif.Ascii.found"
   ],
   "note": "Missing: a guard in matches! is dropped by the suggestion (guard_missed)."
  },
  {
   "property": "C116",
   "status": "partial",
   "theorems": [
    "Verif.NoEffect.no_effect_partial",
    "Verif.NoEffect.reduced_partial",
    "Verif.NoEffect.assert_same",
    "Verif.NoEffect.found",
    "Verif.NoEffect.user_op_silent",
    "Verif.NoEffect.deref_missed",
    "Verif.NoEffect.index_missed",
    "Verif.NoEffect.closure_missed",
    "Verif.NoEffect.tuple_drop",
    "Verif.NoEffect.borrow_drop",
    "Verif.NoEffect.nested_overload"
   ],
   "note": "Missing: user code behind operators below the root, destructors of parts, closures that own values with destructors (see Findings)."
  },
  {
   "property": "C117",
   "status": "partial",
   "theorems": [
    "Verif.Octal.report_iff",
    "Verif.Octal.hex_right",
    "Verif.Octal.null_partial",
    "Verif.Octal.null_wrong"
   ],
   "note": "Missing: the null suggestion for one digit, which is wrong (null_wrong)."
  },
  {
   "property": "C118",
   "status": "partial",
   "theorems": [
    "Verif.BoolIf.bools_same",
    "Verif.BoolIf.always_same",
    "Verif.BoolIf.assigns_same",
    "Verif.BoolIf.guard_partial",
    "Verif.BoolIf.inner_block",
    "Verif.BoolIf.chain_silent",
    "Verif.BoolIf.chain_other"
   ],
   "note": "Missing: blocks with an early return that aren't at the end of the function (inner_block)."
  },
  {
   "property": "C119",
   "status": "partial",
   "theorems": [
    "Verif.Satur.vals",
    "Verif.Satur.saturating_partial",
    "Verif.Satur.default_same",
    "Verif.Satur.found",
    "Verif.Satur.neg_max_wrong",
    "Verif.Satur.other_type_wrong"
   ],
   "note": "all widths, signs, operands and forms of defaults; two exceptions are proved to be wrong (negated largest value, max_value() of another type)"
  },
  {
   "property": "C12",
   "status": "proved",
   "theorems": [
    "Verif.TextLints.chunks_cover_tabs",
    "Verif.TextLints.separated_unique"
   ],
   "note": ""
  },
  {
   "property": "C120",
   "status": "partial",
   "theorems": [
    "Verif.VarAnd.variant_partial",
    "Verif.VarAnd.err_wrong",
    "Verif.VarAnd.return_wrong",
    "Verif.VarAnd.twice_wrong",
    "Verif.VarAnd.found",
    "Verif.VarAnd.idempotent"
   ],
   "note": "all expressions of the five checks in any world; three exceptions (Err on the other side, early returns in inverted closures, receivers with effects) are proved to be wrong"
  },
  {
   "property": "C121",
   "status": "partial",
   "theorems": [
    "Verif.Chains.if_partial",
    "Verif.Chains.return_wrong",
    "Verif.Chains.if_found",
    "Verif.Chains.map_or_partial",
    "Verif.Chains.order_wrong",
    "Verif.Chains.zip_partial",
    "Verif.Chains.swapped_wrong",
    "Verif.Chains.zip_only",
    "Verif.Chains.match_partial",
    "Verif.Chains.omitted_wrong",
    "Verif.Chains.wild_wrong"
   ],
   "note": "all chains and matches of four lints in any world; five exceptions are proved to be wrong"
  },
  {
   "property": "C122",
   "status": "partial",
   "theorems": [
    "Verif.Bulk.while_partial",
    "Verif.Bulk.while_found",
    "Verif.Bulk.argument_wrong",
    "Verif.Bulk.else_wrong",
    "Verif.Bulk.element_wrong",
    "Verif.Bulk.receiver_wrong",
    "Verif.Bulk.same_end",
    "Verif.Bulk.pop_if_partial",
    "Verif.Bulk.pop_if_found",
    "Verif.Bulk.tail_wrong",
    "Verif.Bulk.sub_wrong",
    "Verif.Bulk.closure_wrong",
    "Verif.Bulk.fill_partial",
    "Verif.Bulk.fill_found",
    "Verif.Bulk.other_index_wrong"
   ],
   "note": "Proved for loops with quiet receivers, without else, with calm arguments before the pop and no use of the name element; for conditional pops without subpatterns, tails and leaving conditions; for fills indexed by the loop variable. The other cases are refuted by witnesses. Types are not modelled."
  },
  {
   "property": "C123",
   "status": "partial",
   "theorems": [
    "Verif.Chars.collapse_iff",
    "Verif.Chars.collapse_partial",
    "Verif.Chars.collapse_found",
    "Verif.Chars.later_wrong",
    "Verif.Chars.method_lost",
    "Verif.Chars.no_effect_partial",
    "Verif.Chars.no_effect_found",
    "Verif.Chars.next_wrong",
    "Verif.Chars.ascii_same",
    "Verif.Chars.ascii_found",
    "Verif.Chars.receiver_wrong",
    "Verif.Chars.compare_same",
    "Verif.Chars.compare_unwrap_partial",
    "Verif.Chars.empty_value",
    "Verif.Chars.literal_partial",
    "Verif.Chars.literal_found",
    "Verif.Chars.line_break_wrong",
    "Verif.Chars.continued_wrong",
    "Verif.Chars.repeat_same",
    "Verif.Chars.any_partial",
    "Verif.Chars.any_only",
    "Verif.Chars.empty_wrong"
   ],
   "note": "All texts, chains, closures and literals of eight functions. Merged replacements are right exactly under collapse_iff; the remaining exceptions (methods between the calls, negated receivers, literals over lines, empty literals, arguments with effects, unwrap of empty texts) are proved to be exceptions."
  },
  {
   "property": "C124",
   "status": "partial",
   "theorems": [
    "Verif.Redex.closure_partial",
    "Verif.Redex.closure_only",
    "Verif.Redex.block_parenthesized",
    "Verif.Redex.parameter_kept",
    "Verif.Redex.calls_left_over",
    "Verif.Redex.return_left_over",
    "Verif.Redex.argument_lost",
    "Verif.Redex.none_partial",
    "Verif.Redex.panic_same",
    "Verif.Redex.content_partial",
    "Verif.Redex.error_taken",
    "Verif.Redex.error_taken_also",
    "Verif.Redex.return_escapes",
    "Verif.Redex.effect_lost",
    "Verif.Redex.extreme_partial",
    "Verif.Redex.extreme_found",
    "Verif.Redex.operand_lost",
    "Verif.Redex.operand_read",
    "Verif.Redex.parenthesized_read",
    "Verif.Redex.alone_read",
    "Verif.Redex.bare_misread"
   ],
   "note": "Proved for closures that are all called without arguments, methods whose argument does nothing or is kept, and texts where the suggestion is one operand or stands alone; the other cases are refuted with witnesses."
  },
  {
   "property": "C125",
   "status": "partial",
   "theorems": [
    "Verif.Sift.map_partial",
    "Verif.Sift.filter_partial",
    "Verif.Sift.unneeded_partial",
    "Verif.Sift.find_map_needed",
    "Verif.Sift.then_partial",
    "Verif.Sift.then_found",
    "Verif.Sift.search_same",
    "Verif.Sift.rposition_partial",
    "Verif.Sift.label_lost",
    "Verif.Sift.return_lost",
    "Verif.Sift.constant_lost",
    "Verif.Sift.assignment_lost",
    "Verif.Sift.order_changed",
    "Verif.Sift.choice_found"
   ],
   "note": "For every program, sequence of items and consumer: a closure reported for map never drops an item, one reported for filter keeps its argument, an unneeded one does nothing, then-closures split into filter and map, find/position are any. Missing: labelled blocks, a return within a return, paths other than the parameter, conditions that assign the parameter, rposition with effects; each has a proved counterexample."
  },
  {
   "property": "C126",
   "status": "partial",
   "theorems": [
    "Verif.Drops.ordered_sound",
    "Verif.Drops.ordered_only",
    "Verif.Drops.ordered_ends",
    "Verif.Drops.right_answers",
    "Verif.Drops.visited_partial",
    "Verif.Drops.temporaries_inert_partial",
    "Verif.Drops.inside_partial",
    "Verif.Drops.inside_found",
    "Verif.Drops.inside_2024",
    "Verif.Drops.inside_2021_alone",
    "Verif.Drops.outside_partial",
    "Verif.Drops.let_return_2024",
    "Verif.Drops.let_return_2021_partial",
    "Verif.Drops.while_let_partial",
    "Verif.Drops.repeat_unseen",
    "Verif.Drops.constant_unseen",
    "Verif.Drops.self_unseen",
    "Verif.Drops.inside_2021",
    "Verif.Drops.inside_2024_value",
    "Verif.Drops.outside_label",
    "Verif.Drops.let_return_2021",
    "Verif.Drops.while_let_constant",
    "Verif.Drops.last_let_else",
    "Verif.Drops.borrowing_kept"
   ],
   "note": "Proved: needs_ordered_drop is sound and exact and ends for finitely many types; temporaries are visited except in repeat expressions, constants and Self; semicolon moves and let_and_return keep all effects when nothing with an ordered drop is moved (let_and_return in edition 2024 without condition); while let keeps every round. The other cases are refuted with witnesses."
  },
  {
   "property": "C127",
   "status": "partial",
   "theorems": [
    "Verif.SortBy.sort_same",
    "Verif.SortBy.sorted_partial",
    "Verif.SortBy.reversed_marked",
    "Verif.SortBy.stability",
    "Verif.SortBy.mirrored_found",
    "Verif.SortBy.cast_lost",
    "Verif.SortBy.borrow_lost",
    "Verif.SortBy.generics_lost",
    "Verif.SortBy.prefix_lost",
    "Verif.SortBy.length_lost",
    "Verif.SortBy.subpattern_lost",
    "Verif.SortBy.reversed_effects",
    "Verif.SortBy.refs_counted"
   ],
   "note": "sort() in full; keys for patterns without @ and sides with the same skeleton (generic arguments, cast types, inner borrows, lengths); counterexamples for each missing part"
  },
  {
   "property": "C128",
   "status": "partial",
   "theorems": [
    "Verif.Times.eval_right",
    "Verif.Times.crash_only",
    "Verif.Times.constants_known",
    "Verif.Times.said_partial",
    "Verif.Times.unchecked_same",
    "Verif.Times.suggested_iff",
    "Verif.Times.no_sugg_for_chain",
    "Verif.Times.sugg_otherwise",
    "Verif.Times.elapsed_partial",
    "Verif.Times.elapsed_only",
    "Verif.Times.subsec_same",
    "Verif.Times.subsec_all",
    "Verif.Times.clippy_panics",
    "Verif.Times.clippy_panics_new",
    "Verif.Times.days_wrapped",
    "Verif.Times.other_type",
    "Verif.Times.elapsed_later",
    "Verif.Times.hours_overflow"
   ],
   "note": "Said about constants: for constructors of Duration and a clippy with overflow checks; elapsed: operands that take no time. Findings: clippy_panics, clippy_panics_new, days_wrapped, other_type, elapsed_later."
  },
  {
   "property": "C129",
   "status": "partial",
   "theorems": [
    "Verif.Merge.flatten_partial",
    "Verif.Merge.some_partial",
    "Verif.Merge.ok_partial",
    "Verif.Merge.pattern_partial",
    "Verif.Merge.effects_marked",
    "Verif.Merge.calls_marked",
    "Verif.Merge.merged_found",
    "Verif.Merge.pattern_found",
    "Verif.Merge.variant_kept",
    "Verif.Merge.name_only",
    "Verif.Merge.type_only",
    "Verif.Merge.default_lost",
    "Verif.Merge.error_cloned",
    "Verif.Merge.subpattern_lost",
    "Verif.Merge.guard_lost",
    "Verif.Merge.map_guard_lost",
    "Verif.Merge.effects_once"
   ],
   "note": "Same items, effects and panics for functions of the standard library, receivers that are options or results, quiet arguments and patterns without conditions. Findings: name_only, type_only, default_lost, error_cloned, subpattern_lost, guard_lost, map_guard_lost."
  },
  {
   "property": "C13",
   "status": "partial",
   "theorems": [
    "Verif.TextLints.reindent_partial",
    "Verif.TextLints.reindent_loses_blank_lines",
    "Verif.TextLints.reindent_changes_cr"
   ],
   "note": "Proved for texts without carriage returns that do not end in a blank line; the excluded texts violate the property."
  },
  {
   "property": "C130",
   "status": "partial",
   "theorems": [
    "Verif.Widths.said_partial",
    "Verif.Widths.widens_keeps",
    "Verif.Widths.widens_tame",
    "Verif.Widths.always_found",
    "Verif.Widths.same_size_quiet",
    "Verif.Widths.width_same",
    "Verif.Widths.width_unique",
    "Verif.Widths.width_marked",
    "Verif.Widths.lowest_same",
    "Verif.Widths.lowest_unique",
    "Verif.Widths.isolate_partial",
    "Verif.Widths.isolate_found",
    "Verif.Widths.modulo_said",
    "Verif.Widths.sign_extended",
    "Verif.Widths.truncated",
    "Verif.Widths.host_width",
    "Verif.Widths.neg_min",
    "Verif.Widths.signed_one_missed"
   ],
   "note": "Claims are true for casts that stay within the bounds of the old type; isolate_lowest_one up to a panic. Findings: sign_extended, truncated, host_width, neg_min, signed_one_missed."
  },
  {
   "property": "C131",
   "status": "partial",
   "theorems": [
    "Verif.Fill.reported_iff",
    "Verif.Fill.other_between",
    "Verif.Fill.nested_after",
    "Verif.Fill.filled_same_partial",
    "Verif.Fill.plain_quiet",
    "Verif.Fill.other_capacity",
    "Verif.Fill.own_capacity",
    "Verif.Fill.call_once",
    "Verif.Fill.old_length",
    "Verif.Fill.cut_last",
    "Verif.Fill.cut_arm"
   ],
   "note": "filled_same_partial needs quiet lengths that do not look at the vector and are not capacities; otherwise false (findings). Text replaced when the block ends in a block expression: cut_last."
  },
  {
   "property": "C132",
   "status": "partial",
   "theorems": [
    "Verif.Assign.reported",
    "Verif.Assign.all_reported",
    "Verif.Assign.swaps_commute",
    "Verif.Assign.assigning",
    "Verif.Assign.one_suggestion",
    "Verif.Assign.left_same_partial",
    "Verif.Assign.right_same",
    "Verif.Assign.checked_same_partial",
    "Verif.Assign.trait_same_partial",
    "Verif.Assign.long_same_partial",
    "Verif.Assign.short_means",
    "Verif.Assign.misrefactored_iff",
    "Verif.Assign.self_nothing",
    "Verif.Assign.order_changed",
    "Verif.Assign.index_moved",
    "Verif.Assign.trait_differs",
    "Verif.Assign.foreign_swapped"
   ],
   "note": "left_same_partial/checked_same_partial need operands that change nothing when the place was the left operand (otherwise false: order_changed, index_moved); other types need a trait that agrees (trait_differs)."
  },
  {
   "property": "C133",
   "status": "partial",
   "theorems": [
    "Verif.BoolText.meaning_text",
    "Verif.BoolText.compared_partial",
    "Verif.BoolText.context_partial",
    "Verif.BoolText.compared_iff",
    "Verif.BoolText.lazy_partial",
    "Verif.BoolText.lazy_enclosed",
    "Verif.BoolText.lazy_quiet",
    "Verif.BoolText.parens_lost",
    "Verif.BoolText.negation_lost",
    "Verif.BoolText.nan_negated",
    "Verif.BoolText.lazy_under_or",
    "Verif.BoolText.lazy_under_eq",
    "Verif.BoolText.lazy_under_and"
   ],
   "note": "context_partial/compared_partial exclude negated float comparisons and operands with && or || in parentheses (findings show the claim fails there); lazy_partial needs a context in which the lazy operator needs no parentheses."
  },
  {
   "property": "C134",
   "status": "partial",
   "theorems": [
    "Verif.Empty.length_same",
    "Verif.Empty.equal_same",
    "Verif.Empty.suggested_partial",
    "Verif.Empty.method_same",
    "Verif.Empty.let_same",
    "Verif.Empty.found_partial",
    "Verif.Empty.found_swapped_partial",
    "Verif.Empty.equal_found",
    "Verif.Empty.no_recursion",
    "Verif.Empty.method_exists",
    "Verif.Empty.literal_found",
    "Verif.Empty.order_wrong",
    "Verif.Empty.order_wrong_value",
    "Verif.Empty.at_most_zero_missed",
    "Verif.Empty.method_missed"
   ],
   "note": "Wrong for order comparisons with empty sequences (proved); len() <= 0 is not reported"
  },
  {
   "property": "C135",
   "status": "partial",
   "theorems": [
    "Verif.ForEach.visit_sees",
    "Verif.ForEach.reported",
    "Verif.ForEach.suggested_partial",
    "Verif.ForEach.move_partial",
    "Verif.ForEach.loops_left_alone",
    "Verif.ForEach.effect_lost",
    "Verif.ForEach.move_wrong",
    "Verif.ForEach.typed_machine"
   ],
   "note": "Wrong for move closures that assign and for returns with effects (proved)"
  },
  {
   "property": "C136",
   "status": "proved",
   "theorems": [
    "Verif.Names.equal_iff",
    "Verif.Names.lev_iff",
    "Verif.Names.goesOn_iff",
    "Verif.Names.similar_symm",
    "Verif.Names.function_reports",
    "Verif.Names.walk_unique",
    "Verif.Names.visible_distinct",
    "Verif.Names.reports_justified",
    "Verif.Names.prefix_exempt",
    "Verif.Names.prefix_exempt_example",
    "Verif.Names.order_matters",
    "Verif.Names.chain_missed",
    "Verif.Names.digits_alike"
   ],
   "note": "Order of patterns and expressions in a function is given; Unicode classes are parameters"
  },
  {
   "property": "C137",
   "status": "partial",
   "theorems": [
    "Verif.DocWords.words_of_text",
    "Verif.DocWords.report_in_text",
    "Verif.DocWords.whole_word_partial",
    "Verif.DocWords.punctuation_off",
    "Verif.DocWords.colons",
    "Verif.DocWords.parentheses",
    "Verif.DocWords.no_parentheses",
    "Verif.DocWords.word_iff",
    "Verif.DocWords.all_reported",
    "Verif.DocWords.skipped_iff",
    "Verif.DocWords.acronyms",
    "Verif.DocWords.shifted",
    "Verif.DocWords.shifted_not_whole"
   ],
   "note": "not covered: words from which a single colon is cut off at the end while a parenthesis is open, for which the backticks are at the wrong place (witness)"
  },
  {
   "property": "C138",
   "status": "proved",
   "theorems": [
    "Verif.Safety.found_iff",
    "Verif.Safety.never_panics",
    "Verif.Safety.position",
    "Verif.Safety.documented_unique",
    "Verif.Safety.line_above",
    "Verif.Safety.none_above",
    "Verif.Safety.string_taken",
    "Verif.Safety.other_statement",
    "Verif.Safety.block_above_attribute",
    "Verif.Safety.nested_hides"
   ],
   "note": "the text handed to the search is given as lines; spans, macros and parents of blocks are not modelled"
  },
  {
   "property": "C139",
   "status": "partial",
   "theorems": [
    "Verif.Returns.same",
    "Verif.Returns.macro_once",
    "Verif.Returns.nothing_implicit_partial",
    "Verif.Returns.fix_fix",
    "Verif.Returns.labelled_missed",
    "Verif.Returns.return_break"
   ],
   "note": "same behaviour is proved for all bodies; that no implicit return is left is not covered for labelled blocks in final position, where it is false (witness)"
  },
  {
   "property": "C14",
   "status": "proved",
   "theorems": [
    "Verif.StrUtils.toCamel_words",
    "Verif.StrUtils.toSnake_words",
    "Verif.StrUtils.case_round_trip",
    "Verif.StrUtils.toCamel_upper",
    "Verif.StrUtils.toSnake_letters",
    "Verif.StrUtils.toSnake_underscores"
   ],
   "note": ""
  },
  {
   "property": "C140",
   "status": "proved",
   "theorems": [
    "Verif.Acronyms.reported_iff",
    "Verif.Acronyms.item_iff",
    "Verif.Acronyms.item_repl",
    "Verif.Acronyms.same_letters",
    "Verif.Acronyms.changed_iff",
    "Verif.Acronyms.other_name",
    "Verif.Acronyms.no_acronym",
    "Verif.Acronyms.settled",
    "Verif.Acronyms.before_digit"
   ],
   "note": "Names are lists of characters; whether the new name is free is not modelled."
  },
  {
   "property": "C141",
   "status": "proved",
   "theorems": [
    "Verif.StrCase.reported_iff",
    "Verif.StrCase.not_strings",
    "Verif.StrCase.never_taken",
    "Verif.StrCase.fixed",
    "Verif.StrCase.later",
    "Verif.StrCase.reads",
    "Verif.StrCase.check_iff",
    "Verif.StrCase.false_alarm",
    "Verif.StrCase.not_escaped"
   ],
   "note": "For matches directly on the method's result (through references and the like) and texts without quotes and backslashes, as stated; false otherwise (false_alarm, not_escaped). Assumes that case forms of Unicode do not change again."
  },
  {
   "property": "C142",
   "status": "proved",
   "theorems": [
    "Verif.CmpChain.reported_iff",
    "Verif.CmpChain.no_panic",
    "Verif.CmpChain.as_match",
    "Verif.CmpChain.dead_block",
    "Verif.CmpChain.side_effects"
   ],
   "note": "Equality of expressions is equality of numbers; operands without side effects, as stated."
  },
  {
   "property": "C143",
   "status": "partial",
   "theorems": [
    "Verif.Modulo.silent_same_partial",
    "Verif.Modulo.unsigned_silent",
    "Verif.Modulo.report_consts",
    "Verif.Modulo.report_differs",
    "Verif.Modulo.ref_missed",
    "Verif.Modulo.no_remainder"
   ],
   "note": "silent_same_partial: the first operand must not be a reference (false for references, ref_missed). Floats are not covered."
  },
  {
   "property": "C144",
   "status": "proved",
   "theorems": [
    "Verif.LazyDoc.silent_iff",
    "Verif.LazyDoc.no_place",
    "Verif.LazyDoc.settled",
    "Verif.LazyDoc.completes",
    "Verif.LazyDoc.strip_usual",
    "Verif.LazyDoc.no_panic",
    "Verif.LazyDoc.space_taken",
    "Verif.LazyDoc.escape_lost",
    "Verif.LazyDoc.lazy_missed",
    "Verif.LazyDoc.wide_panics"
   ],
   "note": "Parser events and the columns of items are inputs; see Findings for escapes and the panic."
  },
  {
   "property": "C145",
   "status": "partial",
   "theorems": [
    "Verif.DocEnd.complete",
    "Verif.DocEnd.sound",
    "Verif.DocEnd.exact_partial",
    "Verif.DocEnd.fixed",
    "Verif.DocEnd.ends_exists",
    "Verif.DocEnd.loose_list",
    "Verif.DocEnd.reported_twice"
   ],
   "note": "Equality needs documents without paragraphs in lists and footnotes; false otherwise (loose_list)."
  },
  {
   "property": "C146",
   "status": "partial",
   "theorems": [
    "Verif.FmtLit.place",
    "Verif.FmtLit.no_format",
    "Verif.FmtLit.only_format",
    "Verif.FmtLit.escape_skipped",
    "Verif.FmtLit.mem_emit",
    "Verif.FmtLit.no_panic_ascii",
    "Verif.FmtLit.name_ignored",
    "Verif.FmtLit.never_the_name",
    "Verif.FmtLit.name_cut",
    "Verif.FmtLit.name_not_checked",
    "Verif.FmtLit.slice_panics"
   ],
   "note": "Names with a format are never recognised (never_the_name), a bug of the code; the rest is proved."
  },
  {
   "property": "C147",
   "status": "partial",
   "theorems": [
    "Verif.Prio.report_true",
    "Verif.Prio.reported",
    "Verif.Prio.order_irrelevant_partial",
    "Verif.Prio.applied_lower_partial",
    "Verif.Prio.applied_settles_partial",
    "Verif.Prio.lowest_priority",
    "Verif.Prio.groups_not_compared",
    "Verif.Prio.not_a_member"
   ],
   "note": "Contradicting groups and the lowest priority are excluded; see Findings."
  },
  {
   "property": "C148",
   "status": "proved",
   "theorems": [
    "Verif.ByteStr.same_bytes",
    "Verif.ByteStr.dereferenced",
    "Verif.ByteStr.reported_iff",
    "Verif.ByteStr.read_piece"
   ],
   "note": "Array of byte literals to byte string; parents of the expression are given by the site."
  },
  {
   "property": "C149",
   "status": "partial",
   "theorems": [
    "Verif.CStrLit.rewrite_eq",
    "Verif.CStrLit.rewritten_iff",
    "Verif.CStrLit.same_bytes_partial",
    "Verif.CStrLit.last_nul",
    "Verif.CStrLit.only_nul",
    "Verif.CStrLit.inner_nul"
   ],
   "note": "Same bytes if there is no other NUL; with one inside the suggestion is not a literal (proved: inner_nul). String literals and continuation lines are left out of the reading, but for any text only a NUL at its end is removed (only_nul)."
  },
  {
   "property": "C15",
   "status": "proved",
   "theorems": [
    "Verif.StrUtils.indices_spec",
    "Verif.StrUtils.split_spec",
    "Verif.StrUtils.countMatchStart_spec",
    "Verif.StrUtils.countMatchEnd_spec"
   ],
   "note": ""
  },
  {
   "property": "C150",
   "status": "proved",
   "theorems": [
    "Verif.Nesting.reported_iff",
    "Verif.Nesting.linted_iff",
    "Verif.Nesting.level_kept",
    "Verif.Nesting.covered",
    "Verif.Nesting.one_on_path",
    "Verif.Nesting.zero_off"
   ],
   "note": "The walk with its counter reports exactly the outermost nodes that are too deep."
  },
  {
   "property": "C151",
   "status": "partial",
   "theorems": [
    "Verif.DocLink.warn_iff",
    "Verif.DocLink.urls_reported",
    "Verif.DocLink.only_broken_partial",
    "Verif.DocLink.whole_silent",
    "Verif.DocLink.range_partial",
    "Verif.DocLink.unmapped_silent",
    "Verif.DocLink.not_only_urls",
    "Verif.DocLink.second_paren",
    "Verif.DocLink.range_short"
   ],
   "note": "Broken web links are reported and whole links are not; that only web links are reported, and that the range reaches the end of the line, is false (proved: not_only_urls, second_paren, range_short)."
  },
  {
   "property": "C152",
   "status": "partial",
   "theorems": [
    "Verif.Footnote.report_iff",
    "Verif.Footnote.only_refs",
    "Verif.Footnote.refs_partial",
    "Verif.Footnote.check_mem",
    "Verif.Footnote.fragment_partial",
    "Verif.Footnote.start_overflow",
    "Verif.Footnote.escaped_backslash",
    "Verif.Footnote.other_fragment"
   ],
   "note": "Only references are reported; missing are those at the start of the text, after an escaped backslash and with 64 digits or more, and the fragment is right only if comments give as many bytes as they are long (proved: start_overflow, escaped_backslash, other_fragment)."
  },
  {
   "property": "C153",
   "status": "partial",
   "theorems": [
    "Verif.OpenOpts.check_iff",
    "Verif.OpenOpts.get_first",
    "Verif.OpenOpts.truncate_read_partial",
    "Verif.OpenOpts.append_truncate_partial",
    "Verif.OpenOpts.create_partial",
    "Verif.OpenOpts.truncate_read_reported",
    "Verif.OpenOpts.append_truncate_reported",
    "Verif.OpenOpts.create_reported",
    "Verif.OpenOpts.once_no_dups",
    "Verif.OpenOpts.twice_dups",
    "Verif.OpenOpts.later_call",
    "Verif.OpenOpts.new_file"
   ],
   "note": "For chains that set no option twice and ask for no new file; otherwise it is false (proved: later_call, new_file)."
  },
  {
   "property": "C154",
   "status": "proved",
   "theorems": [
    "Verif.StructOrd.reported_iff",
    "Verif.StructOrd.settles",
    "Verif.StructOrd.new_text",
    "Verif.StructOrd.same_value",
    "Verif.StructOrd.look_idx",
    "Verif.StructOrd.order_matters"
   ],
   "note": "Order test, sort, text and value; fields that are short read a variable and change nothing."
  },
  {
   "property": "C155",
   "status": "partial",
   "theorems": [
    "Verif.ModFile.reported_iff",
    "Verif.ModFile.right_folder_partial",
    "Verif.ModFile.reported_folder_partial",
    "Verif.ModFile.right_folder_only",
    "Verif.ModFile.visit_good",
    "Verif.ModFile.inline_before_file"
   ],
   "note": "The folder is right only when no module with a file lies inside of an inline one; otherwise proved wrong. Modules with a path attribute are not modelled."
  },
  {
   "property": "C156",
   "status": "proved",
   "theorems": [
    "Verif.DupMod.reported_iff",
    "Verif.DupMod.reports_ordered",
    "Verif.DupMod.expects_iff",
    "Verif.DupMod.map_good"
   ],
   "note": "Files are compared as numbers; canonical paths are not modelled."
  },
  {
   "property": "C16",
   "status": "partial",
   "theorems": [
    "Verif.Sugg.denotes_parses",
    "Verif.Sugg.makeAssoc_partial",
    "Verif.Sugg.asTy_denotes",
    "Verif.Sugg.makeUnop_denotes",
    "Verif.Sugg.maybeParenthesize_denotes",
    "Verif.Sugg.maybeParenthesize_receiver",
    "Verif.Sugg.leaves",
    "Verif.Sugg.chained_comparison",
    "Verif.Sugg.cast_less",
    "Verif.Sugg.assign_range",
    "Verif.Sugg.mul_div",
    "Verif.Sugg.add_reassociated",
    "Verif.Sugg.closure_operand"
   ],
   "note": "Texts are token lists. Proved up to the associativity of + * & | ^ && || and a+(b-c)=(a+b)-c, outside four operand shapes; for each of them, and for closures, a witness shows the printed text is rejected or means something else."
  },
  {
   "property": "C17",
   "status": "partial",
   "theorems": [
    "Verif.Sugg.enclosed_iff_partial",
    "Verif.Sugg.enclosed_iff",
    "Verif.Sugg.strip_spec",
    "Verif.Sugg.parenthesize_spec",
    "Verif.Sugg.unclosed_counts"
   ],
   "note": "Exact characterisation proved; text whose first parenthesis is never closed also counts as enclosed (violation proved). Full property proved for balanced text."
  },
  {
   "property": "C18",
   "status": "partial",
   "theorems": [
    "Verif.Consts.eval_sound_partial",
    "Verif.Consts.shift_amount_wraps",
    "Verif.Consts.cross_width"
   ],
   "note": "Holds for native builds when each constant shift amount is below the width of the shifted type; violated otherwise (shift_amount_wraps) and when cross-compiling (cross_width). Casts, blocks, indexing and paths to constants are not modelled."
  },
  {
   "property": "C19",
   "status": "partial",
   "theorems": [
    "Verif.Consts.fullInt_cmp",
    "Verif.Consts.fullInt_total",
    "Verif.Consts.intValue_sound",
    "Verif.Consts.evalInt_sound",
    "Verif.Consts.partialCmp_partial",
    "Verif.Consts.empty_repeat"
   ],
   "note": "Without [x; 0] arrays, for which it is violated (empty_repeat)."
  },
  {
   "property": "C20",
   "status": "partial",
   "theorems": [
    "Verif.Consts.detectExtreme_iff",
    "Verif.Consts.isNumeric_partial",
    "Verif.Consts.isNumericMax_iff",
    "Verif.Consts.numeric_min_missed",
    "Verif.Consts.newNumeric_value"
   ],
   "note": "detect_extreme_expr is exact; is_numeric_min never recognises a signed minimum below 128 bits (numeric_min_missed)."
  },
  {
   "property": "C21",
   "status": "proved",
   "theorems": [
    "Verif.Ops.detectAbsurd_sound",
    "Verif.Ops.detectAbsurd_complete"
   ],
   "note": "Native builds."
  },
  {
   "property": "C22",
   "status": "proved",
   "theorems": [
    "Verif.Ops.constCmp_sound",
    "Verif.Ops.constCmp_complete",
    "Verif.Ops.constCmp_possible"
   ],
   "note": ""
  },
  {
   "property": "C23",
   "status": "partial",
   "theorems": [
    "Verif.Ops.doubleComparison_partial",
    "Verif.Ops.double_not_equal"
   ],
   "note": "All rewrites except < || > to != hold for every partial order; that one needs a total order and is violated for NaN."
  },
  {
   "property": "C24",
   "status": "partial",
   "theorems": [
    "Verif.Ops.maskCheck_partial",
    "Verif.Ops.gt_inverted",
    "Verif.Ops.gt_inverted_witness",
    "Verif.Ops.and_zero_negative",
    "Verif.Ops.mask_complete"
   ],
   "note": "Sound except that the always-true/always-false messages of > and <= with & and | masks are exchanged (gt_inverted, for every such lint) and a zero mask ignores a negative bound."
  },
  {
   "property": "C25",
   "status": "partial",
   "theorems": [
    "Verif.Ops.identityOp_partial",
    "Verif.Ops.remainder_min",
    "Verif.Ops.erasingOp_partial",
    "Verif.Ops.erasing_div"
   ],
   "note": "Excluded and refuted: a remainder whose dividend is i128::MIN, and 0 / 0, which panics instead of being zero."
  },
  {
   "property": "C26",
   "status": "proved",
   "theorems": [
    "Verif.Ranges.intPlusOne_sound"
   ],
   "note": ""
  },
  {
   "property": "C27",
   "status": "partial",
   "theorems": [
    "Verif.Ranges.rangeContains_partial",
    "Verif.Ranges.negated_partial_order",
    "Verif.Ranges.paren_literal"
   ],
   "note": "Excluded and refuted: negated ranges over references to floats (not exempted, NaN) and parentheses inside character literals."
  },
  {
   "property": "C28",
   "status": "partial",
   "theorems": [
    "Verif.Ranges.rangeSwitch_sound",
    "Verif.Ranges.reversedEmpty_empty",
    "Verif.Ranges.reversedEmpty_panics_partial",
    "Verif.Ranges.reversed_index"
   ],
   "note": "Switching range forms and emptiness are proved; the claim that indexing panics fails for an inclusive range whose end is one below its start."
  },
  {
   "property": "C29",
   "status": "partial",
   "theorems": [
    "Verif.IntLints.checkedConversion_partial",
    "Verif.IntLints.unsigned_pair_wrong",
    "Verif.IntLints.limit_truncated"
   ],
   "note": "Sound for the combinations the code means to accept; false for limits that are themselves changed by the cast: two witnesses."
  },
  {
   "property": "C30",
   "status": "partial",
   "theorems": [
    "Verif.Clamp.manual_clamp_sound_partial",
    "Verif.Clamp.two_if_violation",
    "Verif.Clamp.if_assign_violation",
    "Verif.Clamp.float_min_max_violation"
   ],
   "note": "Holds (up to values that compare equal) for every linted shape whose assigned place is the compared one, min/max shapes on types without NaN; proved false for assignments to another variable (two_if_violation, if_assign_violation) and for NaN with min/max (noted by the lint)."
  },
  {
   "property": "C31",
   "status": "proved",
   "theorems": [
    "Verif.IntLints.minMax_constant"
   ],
   "note": ""
  },
  {
   "property": "C32",
   "status": "partial",
   "theorems": [
    "Verif.IntLints.saturatingAdd_sound",
    "Verif.IntLints.condCheck_sound",
    "Verif.IntLints.manualCheck_sound",
    "Verif.IntLints.path_truncated"
   ],
   "note": "All three recognisers are value preserving; the printed receiver of the addition/subtraction drops all but the first path segment (witness)."
  },
  {
   "property": "C33",
   "status": "partial",
   "theorems": [
    "Verif.IntLints.manualRotate_partial",
    "Verif.IntLints.rotate_signed",
    "Verif.IntLints.rotate_xor"
   ],
   "note": "Unsigned types and amounts without xor; witnesses for both exclusions."
  },
  {
   "property": "C34",
   "status": "partial",
   "theorems": [
    "Verif.IntLints.manualDivCeil_partial",
    "Verif.IntLints.manualDivCeil_unsigned",
    "Verif.IntLints.div_ceil_negative",
    "Verif.IntLints.div_ceil_negative_divisor",
    "Verif.IntLints.manualMidpoint_sound",
    "Verif.IntLints.manualIsMultipleOf_sound",
    "Verif.IntLints.verboseBitMask_sound",
    "Verif.IntLints.manualRemEuclid_sound",
    "Verif.IntLints.manualAbsDiff_sound",
    "Verif.IntLints.manualIsPowerOfTwo_sound",
    "Verif.IntLints.power_of_two_wrapping",
    "Verif.IntLints.manualIlog2_sound"
   ],
   "note": "All idioms for unsigned types and overflow-checked evaluation; manual_div_ceil on signed operands and manual_is_power_of_two with wrapping arithmetic are violated."
  },
  {
   "property": "C35",
   "status": "partial",
   "theorems": [
    "Verif.Booleans.suggestions_keep_value_partial",
    "Verif.Booleans.optimized_out",
    "Verif.Booleans.suggestions_not_longer",
    "Verif.Booleans.check_simplify_not_sound",
    "Verif.Booleans.inverted_bool_sound",
    "Verif.Booleans.float_violation",
    "Verif.Booleans.cast_violation",
    "Verif.Booleans.context_violation",
    "Verif.Booleans.run_le"
   ],
   "note": "Suggestions of nonminimal_bool/overly_complex_bool_expr are read uniquely and keep the truth value, for every simplifier returning equivalent sums of products (the external quine-mc_cluskey crate is a parameter), when comparisons are over totally ordered types and their left operand does not end in a cast; removable atoms have no influence; proved false for floats, trailing casts and parenthesised conditions in context."
  },
  {
   "property": "C36",
   "status": "proved",
   "theorems": [
    "Verif.Pats.manual_range_patterns_sound",
    "Verif.Pats.manual_range_patterns_complete",
    "Verif.Pats.overflow_at_max"
   ],
   "note": "Suggested range matches exactly the values of the alternatives (ranges non-empty, as the compiler guarantees); fires whenever the literal alternatives form one interval; i128::MAX overflow recorded as a finding."
  },
  {
   "property": "C37",
   "status": "proved",
   "theorems": [
    "Verif.Pats.overlapping_arms_sound",
    "Verif.Pats.overlapping_arms_complete",
    "Verif.Pats.overlapping_sound",
    "Verif.Pats.overlapping_complete",
    "Verif.Pats.sweep_sound",
    "Verif.Pats.sweep_none"
   ],
   "note": "Reported arms differ, have no guards and share a value of the type; if nothing is reported, evaluated arms are pairwise disjoint or nested. Patterns that match nothing are excluded (the compiler rejects them)."
  },
  {
   "property": "C38",
   "status": "partial",
   "theorems": [
    "Verif.Pats.same_arms_partial",
    "Verif.Pats.overlap_sound",
    "Verif.Pats.split_violation",
    "Verif.Pats.group_remove_violation",
    "Verif.Pats.group_merge_violation",
    "Verif.Pats.allow_violation",
    "Verif.Pats.open_start_violation",
    "Verif.Pats.const_violation",
    "Verif.Pats.syntax_violation",
    "Verif.Pats.self_violation"
   ],
   "note": "For two grouped arms the suggestion preserves body and bindings for every value, if no name has a synonym and the arms do not fall in the case of split_violation; patterns with a common value are always judged to overlap (overlap_sound). Larger groups and the excluded cases are false, with witnesses."
  },
  {
   "property": "C39",
   "status": "partial",
   "theorems": [
    "Verif.Unnest.suggest_matches_same_partial",
    "Verif.Unnest.visit_alternatives",
    "Verif.Unnest.M_exp",
    "Verif.Unnest.eqPat_exp",
    "Verif.Unnest.suggest_parenthesised",
    "Verif.Unnest.order_of_alternatives",
    "Verif.Unnest.duplicate_alternative",
    "Verif.Unnest.range_behind_reference",
    "Verif.Unnest.open_range_in_slice",
    "Verif.Unnest.shorthand_field",
    "Verif.Unnest.duplicate_rest"
   ],
   "note": "For all patterns without sub-slice bindings, pinned references and guard patterns that list no or-free pattern twice: the suggestion stands for the same or-free patterns, so it matches the same values with the same possible bindings; or-patterns behind operators stand in parentheses. False in general: order of alternatives, duplicates, and text of ranges, shorthand fields and rest patterns (violations proved)."
  },
  {
   "property": "C40",
   "status": "partial",
   "theorems": [
    "Verif.Flow.reported_runs_once_partial",
    "Verif.Flow.once_is_reported_partial",
    "Verif.Flow.lazy_violation",
    "Verif.Flow.guard_violation",
    "Verif.Flow.lazy_block_violation",
    "Verif.Flow.assign_violation",
    "Verif.Flow.yield_violation",
    "Verif.Flow.inner_loop_violation"
   ],
   "note": "Sound unless control flow leaves through the right side of a lazy operator, a match guard, a yield operand or the place of an assignment, for each of which the claim is refuted; complete for bodies without inner loops and todo!()."
  },
  {
   "property": "C41",
   "status": "partial",
   "theorems": [
    "Verif.Eager.eager_harmless_partial",
    "Verif.Eager.lazy_movable_partial",
    "Verif.Eager.part_le_whole_partial",
    "Verif.Eager.union_violation",
    "Verif.Eager.static_mut_violation",
    "Verif.Eager.nonnull_violation",
    "Verif.Eager.await_violation",
    "Verif.Eager.neg_float_violation",
    "Verif.Eager.part_violation"
   ],
   "note": "Eager implies harmless except for unsafe reads, for which it is refuted; lazy implies movable into a closure except below an automatic dereference, for which it is refuted; parts are never classified worse than the whole outside dereferences. Cheapness is only the absence of loops and unknown calls. The constant evaluator, promotable functions and safe standard accessors are assumed harmless."
  },
  {
   "property": "C42",
   "status": "partial",
   "theorems": [
    "Verif.Dev.update_region",
    "Verif.Dev.update_region_panics",
    "Verif.Dev.update_region_idempotent_partial",
    "Verif.Dev.update_region_not_idempotent"
   ],
   "note": "The text is found between the first marker and the first end marker after it, replaced by the generated text, and all else stays; panics exactly when a marker is missing; running twice changes nothing if the end marker is not in the generated text (refuted otherwise)."
  },
  {
   "property": "C43",
   "status": "proved",
   "theorems": [
    "Verif.Dev.check_never_writes",
    "Verif.Dev.check_fails_iff",
    "Verif.Dev.check_ok_iff_unchanged",
    "Verif.Dev.change_writes"
   ],
   "note": "Check mode never writes, fails exactly when an update would change something; change mode writes the updated text."
  },
  {
   "property": "C44",
   "status": "partial",
   "theorems": [
    "Verif.Dev.renameFile_only_partial",
    "Verif.Dev.renameFile_static_partial",
    "Verif.Dev.renameFile_struct_partial",
    "Verif.Dev.renameFile_lint_path_partial",
    "Verif.Dev.renameFile_mod_partial",
    "Verif.Dev.renameFile_mod_path_partial",
    "Verif.Dev.renameFile_comment_partial",
    "Verif.Dev.renameFile_static_violation",
    "Verif.Dev.renameFile_path_violation",
    "Verif.Dev.snakeToPascal_words"
   ],
   "note": "Token-level model of rename_update_fn. Proved: only tokens which are a form of the old name change, each to the same form of the new name; the static, the struct, clippy::old, mod old, old:: and //~ old are renamed when not preceded by a colon. Missing: after a colon the static and the struct are not renamed, and unrelated paths x::old are renamed (both violations proved)."
  },
  {
   "property": "C45",
   "status": "partial",
   "theorems": [
    "Verif.Dev.upliftFile_partial",
    "Verif.Dev.upliftFile_no_item_partial",
    "Verif.Dev.Uplifted.unique",
    "Verif.Dev.upliftFile_mod_violation"
   ],
   "note": "Exact specification of the edit, deterministic, for every token stream when the module stays or has no mod item in the file. Missing: mod old; is replaced by the new name instead of being removed (violation proved)."
  },
  {
   "property": "C46",
   "status": "partial",
   "theorems": [
    "Verif.Dev.history_ok",
    "Verif.Dev.rename_effect_partial",
    "Verif.Dev.rename_existing_violation",
    "Verif.Dev.deprecate_target_violation"
   ],
   "note": "Invariant over all command histories proved in full; the table is abstract (writing it to files and parsing it back is not part of this model). Violations proved: a rename onto an existing lint reports success but is not saved; a deprecated target stays a target."
  },
  {
   "property": "C47",
   "status": "proved",
   "theorems": [
    "Verif.Dev.splitArgs_complete",
    "Verif.Dev.splitArgs_threads"
   ],
   "note": "For every argument list and positive number of threads."
  },
  {
   "property": "C48",
   "status": "proved",
   "theorems": [
    "Verif.Dev.sliceGroups_complete",
    "Verif.Dev.sliceGroups_by_key",
    "Verif.Dev.sliceGroups_loses"
   ],
   "note": "Holds if the callback never returns more than the length of the tail; otherwise the rest is dropped (sliceGroups_loses)."
  },
  {
   "property": "C49",
   "status": "partial",
   "theorems": [
    "Verif.Lintcheck.output_sorted",
    "Verif.Lintcheck.diff_complete",
    "Verif.Lintcheck.diff_self",
    "Verif.Lintcheck.diff_counts",
    "Verif.Lintcheck.diff_rows",
    "Verif.Lintcheck.diff_perm_partial",
    "Verif.Lintcheck.diff_order_violation"
   ],
   "note": "Every warning of both runs is in exactly one class, the counts add up, rows are one per lint and a file compared with itself gives nothing. Missing: independence of the order of warnings at the same place, for which a violation is proved."
  },
  {
   "property": "C50",
   "status": "proved",
   "theorems": [
    "Verif.Dev.sort_file",
    "Verif.Dev.sort_file_none",
    "Verif.Dev.genMac_content",
    "Verif.Dev.sort_file_attr_violation"
   ],
   "note": "For every file with declarations at disjoint ranges. Text that belongs to a declaration but lies outside of its range, like an attribute, is kept but not moved (sort_file_attr_violation)."
  },
  {
   "property": "C51",
   "status": "partial",
   "theorems": [
    "Verif.Dev.bump_exact_partial",
    "Verif.Dev.bump_no_version",
    "Verif.Dev.bump_crlf_violation",
    "Verif.Dev.bump_trailing_space_violation",
    "Verif.Dev.bump_comment_violation"
   ],
   "note": "Proved for a version line with nothing after the version. Refuted for CRLF line ends, trailing white space and comments after the version."
  },
  {
   "property": "C52",
   "status": "partial",
   "theorems": [
    "Verif.StrUtils.enum_affix",
    "Verif.StrUtils.field_prefix",
    "Verif.StrUtils.field_postfix_partial",
    "Verif.StrUtils.field_postfix_wrong",
    "Verif.StrUtils.enumStart_iff",
    "Verif.StrUtils.enumEnd_iff",
    "Verif.StrUtils.fieldStart_iff",
    "Verif.StrUtils.fieldEnd_iff"
   ],
   "note": "Proved for variants, for field prefixes and for names equal to the type's name; the reported field postfix is wrong when all fields end in an underscore (violation proved)."
  },
  {
   "property": "C53",
   "status": "partial",
   "theorems": [
    "Verif.Sugg.negate_reads",
    "Verif.Sugg.not_reads_partial",
    "Verif.Sugg.not_float",
    "Verif.Sugg.not_cast"
   ],
   "note": "Proved for total orders and left sides without a trailing cast; violated for NaN and for casts (both proved)."
  },
  {
   "property": "C54",
   "status": "partial",
   "theorems": [
    "Verif.Dev.genDecls_once",
    "Verif.Dev.lintEntry_path",
    "Verif.Dev.krateMod_file",
    "Verif.Dev.genDecls_windows_violation",
    "Verif.Dev.genDecls_lib_violation"
   ],
   "note": "Proved for a path separator that sorts before all other characters of the paths, which holds for '/'. Refuted for the separator of Windows and for lints in lib.rs."
  },
  {
   "property": "C55",
   "status": "partial",
   "theorems": [
    "Verif.Dev.fmtSyms_iff",
    "Verif.Dev.fmtSyms_idempotent",
    "Verif.Dev.fmtSyms_entries",
    "Verif.Dev.fmtSyms_blank_violation",
    "Verif.Dev.fmtSyms_empty_violation"
   ],
   "note": "Idempotence and 'only the list changes' are proved for every text; the entries are the symbols if every line holds one. Refuted for blank lines and an empty list."
  },
  {
   "property": "C56",
   "status": "partial",
   "theorems": [
    "Verif.Dev.deletedTests_partial",
    "Verif.Dev.renamedTests_partial",
    "Verif.Dev.deletedTests_toml_violation"
   ],
   "note": "Exact set of deleted and renamed tests, with at most one directory in tests/ui-toml. Missing: with two the second path is wrong (violation proved)."
  },
  {
   "property": "C57",
   "status": "partial",
   "theorems": [
    "Verif.Lintcheck.truncateList_spec",
    "Verif.Lintcheck.section_limits",
    "Verif.Lintcheck.report_bounded",
    "Verif.Lintcheck.report_untruncated",
    "Verif.Lintcheck.ids_distinct",
    "Verif.Lintcheck.summary_links",
    "Verif.Lintcheck.section_links_partial",
    "Verif.Lintcheck.section_links_violation"
   ],
   "note": "Truncation, bounds, distinct ids and the links of the summary are proved; the links of the sections are only equal to the ids up to case, and the violation is proved."
  },
  {
   "property": "C58",
   "status": "partial",
   "theorems": [
    "Verif.Lintcheck.counter_spec",
    "Verif.Lintcheck.stats_order_free",
    "Verif.Lintcheck.stats_sorted_partial",
    "Verif.Lintcheck.stats_sorted_violation",
    "Verif.Lintcheck.stats_roundtrip",
    "Verif.Lintcheck.printStats_spec"
   ],
   "note": "Counts, independence of the order of the map, round trip through the log and the comparison are proved; the order by count only for counts below 10000, with a violation above."
  },
  {
   "property": "C59",
   "status": "partial",
   "theorems": [
    "Verif.Casts.truncation_unsigned_partial",
    "Verif.Casts.truncation_signed_partial",
    "Verif.Casts.truncation_opaque",
    "Verif.Casts.u128_to_usize",
    "Verif.Casts.u64_to_usize32",
    "Verif.Casts.method_not_min",
    "Verif.Casts.cast_inside",
    "Verif.Casts.signed_remainder",
    "Verif.Casts.mask_of_sign",
    "Verif.Casts.wrap_of_reduced"
   ],
   "note": "Proved for operands built from constants, variables, %, /, >>, &, min, clamp, signum, blocks and locals: unsigned operands, and signed ones where the reductions are right (fixed-width types); for opaque operands the exact criterion. Missing/violated, each with a witness: u128 to usize, u64 shifted to usize on 32-bit targets, arbitrary one-argument methods treated like min, nested casts, signed remainders and masks of negative numbers, and a reduced unsigned operand cast to a signed type wraps unreported."
  },
  {
   "property": "C60",
   "status": "proved",
   "theorems": [
    "Verif.Casts.signLoss_sound",
    "Verif.Casts.exprSign_sound",
    "Verif.Casts.muldiv_sound",
    "Verif.Casts.add_sound",
    "Verif.Casts.pow_wraps"
   ],
   "note": "For every constant evaluator that is right. With overflow checks; without them x.pow(2) can wrap to a negative number (pow_wraps)."
  },
  {
   "property": "C61",
   "status": "partial",
   "theorems": [
    "Verif.Casts.silent_keeps",
    "Verif.Casts.reported_loses",
    "Verif.Casts.silent_loses",
    "Verif.Casts.wraps_onPtr",
    "Verif.Casts.wraps_always",
    "Verif.Casts.precision_loss",
    "Verif.Casts.lossless_partial",
    "Verif.Casts.lossless_f16",
    "Verif.Casts.precision_f16"
   ],
   "note": "Exact except for 128-bit integers cast to pointer-sized types (silent_loses), and f16 (lossless_f16, precision_f16)."
  },
  {
   "property": "C62",
   "status": "proved",
   "theorems": [
    "Verif.Casts.enum_truncation",
    "Verif.Casts.enumBits_le",
    "Verif.Casts.enumValueBits_le",
    "Verif.Casts.discriminantValue_spec",
    "Verif.Casts.enum_wraps"
   ],
   "note": "The number of bits is exact; the sign of the target type is not considered (enum_wraps)."
  },
  {
   "property": "C63",
   "status": "partial",
   "theorems": [
    "Verif.HirEq.equal_hash_partial",
    "Verif.HirEq.Witness.hash_swapped",
    "Verif.HirEq.Witness.hash_blocks",
    "Verif.HirEq.Witness.hash_patterns_types"
   ],
   "note": "Excluded: swapped operands, blocks compared as () or return, unsafe blocks, '..' in struct patterns, lifetimes of references, const-argument structs; constants must be a function of the syntax. Violations proved."
  },
  {
   "property": "C64",
   "status": "partial",
   "theorems": [
    "Verif.HirEq.searchSame_sound",
    "Verif.HirEq.searchSame_complete",
    "Verif.HirEq.searchSame_hash_needed",
    "Verif.HirEq.Witness.search_depends_on_others"
   ],
   "note": "Completeness needs a symmetric, transitive equality which is consistent with the hash; it isn't (violation proved)."
  },
  {
   "property": "C65",
   "status": "partial",
   "theorems": [
    "Verif.HirEq.equal_value_partial",
    "Verif.HirEq.Witness.equal_not_defined",
    "Verif.HirEq.Witness.equal_not_symmetric",
    "Verif.HirEq.Witness.equal_other_value",
    "Verif.HirEq.Witness.equal_other_jumps",
    "Verif.HirEq.Witness.equal_other_fields",
    "Verif.HirEq.Witness.equal_other_kind"
   ],
   "note": "Expressions without side effects, when both have a value, names compared as written; names written the same way are assumed to denote things of the same kind (violation without this: equal_other_kind); other violations proved."
  },
  {
   "property": "C66",
   "status": "partial",
   "theorems": [
    "Verif.Unwrap.verdict_partial",
    "Verif.Unwrap.suggestion_partial",
    "Verif.Unwrap.suggestion_else",
    "Verif.Unwrap.Witness.wrong_as_mut",
    "Verif.Unwrap.Witness.wrong_overloaded"
   ],
   "note": "as_mut of user types and overloaded & excluded, suggestion only for calls in the first branch; violations proved for the rest. Macro contexts and unions not modelled."
  },
  {
   "property": "C67",
   "status": "partial",
   "theorems": [
    "Verif.Memcpy.suggestion_partial",
    "Verif.Memcpy.no_panic_partial",
    "Verif.Memcpy.Witness.let_dropped",
    "Verif.Memcpy.Witness.increment_dropped",
    "Verif.Memcpy.Witness.dependent_wrong",
    "Verif.Memcpy.Witness.empty_panics",
    "Verif.Memcpy.Witness.other_len_panics",
    "Verif.Memcpy.Witness.closed_len_panics",
    "Verif.Memcpy.Witness.rows_wrong",
    "Verif.Memcpy.Witness.negated_offset",
    "Verif.Memcpy.Witness.underflow_panics"
   ],
   "note": "If neither panics, loop and suggestion leave the same memory, for loops of independent assignments and counters with fixed bases (suggestion_partial); with at least one round and bounds that can be computed the suggestion doesn't panic (no_panic_partial). False otherwise: dropped statements, dependent assignments, bases with counters, empty ranges, len() of another place, inclusive ranges up to len(), underflow with counters, negated offsets (Witness)."
  },
  {
   "property": "C68",
   "status": "partial",
   "theorems": [
    "Verif.Counter.counter_partial",
    "Verif.Counter.numbers_partial",
    "Verif.Counter.zip_panics",
    "Verif.Counter.Witness.use_in_let",
    "Verif.Counter.Witness.use_in_closure",
    "Verif.Counter.Witness.inc_lazy",
    "Verif.Counter.Witness.inc_labelled",
    "Verif.Counter.Witness.autoref_before",
    "Verif.Counter.Witness.init_closure",
    "Verif.Counter.Witness.init_letElse",
    "Verif.Counter.Witness.init_lazy",
    "Verif.Counter.Witness.init_labelled",
    "Verif.Counter.Witness.init_autoref"
   ],
   "note": "Proved for loops in which the variable is visible to the visitor and set only where this can't be left out; false otherwise (witnesses), and zip panics at the largest number."
  },
  {
   "property": "C69",
   "status": "partial",
   "theorems": [
    "Verif.Swap.mem_partial",
    "Verif.Swap.slice_partial",
    "Verif.Swap.xor_partial",
    "Verif.Swap.almost_partial",
    "Verif.Swap.borrow_partial",
    "Verif.Swap.Witness.dependent_index",
    "Verif.Swap.Witness.mem_used_later",
    "Verif.Swap.Witness.mem_used_index",
    "Verif.Swap.Witness.slice_cast",
    "Verif.Swap.Witness.slice_closure",
    "Verif.Swap.Witness.slice_tail",
    "Verif.Swap.Witness.slice_mut",
    "Verif.Swap.Witness.xor_same",
    "Verif.Swap.Witness.xor_dependent",
    "Verif.Swap.Witness.almost_dependent",
    "Verif.Swap.Witness.deref_same"
   ],
   "note": "Proved if indices don't depend on the places, for xor if the places differ, and if later uses of the temporary variable are seen; false otherwise (witnesses)."
  },
  {
   "property": "C70",
   "status": "partial",
   "theorems": [
    "Verif.Asserts.covers",
    "Verif.Asserts.necessary",
    "Verif.Asserts.quiet_assert",
    "Verif.Asserts.quiet_index",
    "Verif.Asserts.comparison_holds",
    "Verif.Asserts.same_partial",
    "Verif.Asserts.Witness.conditional",
    "Verif.Asserts.Witness.leaves",
    "Verif.Asserts.Witness.else_dropped",
    "Verif.Asserts.Witness.equality",
    "Verif.Asserts.Witness.upper_bound",
    "Verif.Asserts.Witness.second_ignored"
   ],
   "note": "Covering, minimality and silence are proved for all code; unchanged behaviour only for code without conditions and lower bounds, and is false otherwise (witnesses)."
  },
  {
   "property": "C71",
   "status": "partial",
   "theorems": [
    "Verif.Ctrl.Never.never_loops_partial",
    "Verif.Ctrl.Never.single_turn_partial",
    "Verif.Ctrl.Never.single_element_partial",
    "Verif.Ctrl.Never.rewrite_same_partial",
    "Verif.Ctrl.Never.lazy_loops",
    "Verif.Ctrl.Never.lazy_not_once",
    "Verif.Ctrl.Never.guard_loops",
    "Verif.Ctrl.Never.chain_loops",
    "Verif.Ctrl.Never.assign_loops"
   ],
   "note": "Proved when no break or continue hides in the right side of && or ||, a later condition of a chain, a guard, or the right side of an assignment to a complex place; the negation there is proved by witnesses."
  },
  {
   "property": "C72",
   "status": "partial",
   "theorems": [
    "Verif.Ctrl.Continue.drop_same",
    "Verif.Ctrl.Continue.rearrange_same_partial",
    "Verif.Ctrl.Continue.erode_block",
    "Verif.Ctrl.Continue.erode_no_brace",
    "Verif.Ctrl.Continue.merge_captures",
    "Verif.Ctrl.Continue.merge_not_same",
    "Verif.Ctrl.Continue.merge_no_program"
   ],
   "note": "drop_same (leaving out reported continues) and the text theorems are full; rearranging needs that the branch declares no name the moved statements mention and that these declare no items (merge_not_same shows the need)"
  },
  {
   "property": "C73",
   "status": "partial",
   "theorems": [
    "Verif.Ctrl.Else.isNever_sound",
    "Verif.Ctrl.Else.lift_same_partial",
    "Verif.Ctrl.Else.machine_same_partial",
    "Verif.Ctrl.Else.last_same_partial",
    "Verif.Ctrl.Else.item_captured",
    "Verif.Ctrl.Else.item_hidden",
    "Verif.Ctrl.Else.machine_not_same",
    "Verif.Ctrl.Else.let_captured"
   ],
   "note": "isNever_sound is full; moving the block out needs that its items have names unknown around it and that what follows does not mention its declarations (machine_not_same shows the need for items)"
  },
  {
   "property": "C74",
   "status": "partial",
   "theorems": [
    "Verif.Ctrl.Collapse.if_if_same",
    "Verif.Ctrl.Collapse.else_if_discard",
    "Verif.Ctrl.Collapse.else_if_shape",
    "Verif.Ctrl.Collapse.else_if_same_partial",
    "Verif.Ctrl.Collapse.joined_same",
    "Verif.Ctrl.Collapse.peel_sound",
    "Verif.Ctrl.Collapse.with_and_partial",
    "Verif.Ctrl.Collapse.semi_value",
    "Verif.Ctrl.Collapse.else_if_not_same",
    "Verif.Ctrl.Collapse.space_breaks"
   ],
   "note": "if_if_same, else_if_discard, joined_same and peel_sound are full; the value of else-if needs no semicolon after an inner if-else (else_if_not_same), and the replacement of the word if needs no whitespace inside the parentheses (space_breaks)"
  },
  {
   "property": "C75",
   "status": "partial",
   "theorems": [
    "Verif.Ctrl.Return.fn_same_but_unit",
    "Verif.Ctrl.Return.fn_same_partial",
    "Verif.Ctrl.Return.closure_same_partial",
    "Verif.Ctrl.Return.one_return_less",
    "Verif.Ctrl.Return.written_whole_partial",
    "Verif.Ctrl.Return.par_needed",
    "Verif.Ctrl.Return.edit_changes_type",
    "Verif.Ctrl.Return.text_breaks"
   ],
   "note": "fn_same_but_unit and one_return_less are full; equality of the values needs that the edited function still compiles (edit_changes_type), and the text is right except for calls, indices, ranges and assignments directly on a block (text_breaks)"
  },
  {
   "property": "C76",
   "status": "partial",
   "theorems": [
    "Verif.Lazily.eager_harmless_partial",
    "Verif.Lazily.un_lazy_partial",
    "Verif.Lazily.lazy_stays_partial",
    "Verif.Lazily.union_not_harmless",
    "Verif.Lazily.unsafe_not_harmless",
    "Verif.Lazily.const_not_harmless",
    "Verif.Lazily.await_moved"
   ],
   "note": "Tame excludes union fields, unsafe functions and constants with destructors, for which the claim fails (union_not_harmless, unsafe_not_harmless, const_not_harmless); lazy_stays_partial needs that nothing goes through an overloaded Deref (await_moved)"
  },
  {
   "property": "C77",
   "status": "partial",
   "theorems": [
    "Verif.SideFx.silent_safe_partial",
    "Verif.SideFx.reports_node",
    "Verif.SideFx.reports_operands",
    "Verif.SideFx.div_literal_quiet",
    "Verif.SideFx.Witness.mul_minus_one",
    "Verif.SideFx.Witness.div_minus_one",
    "Verif.SideFx.Witness.zero_sub",
    "Verif.SideFx.Witness.shift_any",
    "Verif.SideFx.Witness.const_receiver",
    "Verif.SideFx.Witness.lazy_static",
    "Verif.SideFx.Witness.host_size",
    "Verif.SideFx.Witness.user_operator"
   ],
   "note": "Tame excludes shifts, literals with operators like -1, 0 - x, division by -1, constant receivers, users' operators with the always allowed types and functions inside of constants; Usual excludes machines whose usize differs from the host; for each the claim fails (Witness)"
  },
  {
   "property": "C78",
   "status": "partial",
   "theorems": [
    "Verif.Recur.reported_irrelevant_partial",
    "Verif.Recur.reported_closed",
    "Verif.Recur.reported_largest",
    "Verif.Recur.Witness.and_effect",
    "Verif.Recur.Witness.and_statement",
    "Verif.Recur.Witness.div_panics",
    "Verif.Recur.Witness.user_assign"
   ],
   "note": "Tame excludes panicking operators, effects on the right side of && and ||, and op= of types that are not primitive where a reported parameter takes part; for each the claim fails (Witness)"
  },
  {
   "property": "C79",
   "status": "partial",
   "theorems": [
    "Verif.Endless.infinite_never_returns_partial",
    "Verif.Endless.cmp_not_infinite",
    "Verif.Endless.silent_ends_partial",
    "Verif.Endless.Witness.empty_cycle",
    "Verif.Endless.Witness.user_cycle",
    "Verif.Endless.Witness.option_sum",
    "Verif.Endless.Witness.not_always",
    "Verif.Endless.Witness.inspect_missed",
    "Verif.Endless.Witness.skipWhile_missed",
    "Verif.Endless.Witness.peekable_missed",
    "Verif.Endless.Witness.flatMap_missed",
    "Verif.Endless.Witness.zip_filter"
   ],
   "note": "A reported call never returns, if the methods are those of Iterator, cycled iterators are not empty and sums are sums of numbers (false without: witnesses); silent calls end for the methods which the table gets right."
  },
  {
   "property": "C80",
   "status": "partial",
   "theorems": [
    "Verif.Indexing.out_of_bounds_panics",
    "Verif.Indexing.silent_safe_partial",
    "Verif.Indexing.mayPanic_can_partial",
    "Verif.Indexing.Witness.reversed",
    "Verif.Indexing.Witness.generic",
    "Verif.Indexing.Witness.const_range",
    "Verif.Indexing.Witness.const_block",
    "Verif.Indexing.Witness.not_always",
    "Verif.Indexing.Witness.harmless"
   ],
   "note": "Reported out-of-bounds indices always panic (full). Silence is safe, and reports of possible panics are possible, for the cases the code looks at (false without: witnesses)."
  },
  {
   "property": "C81",
   "status": "partial",
   "theorems": [
    "Verif.OptMatch.canMove_safe",
    "Verif.OptMatch.map_same_partial",
    "Verif.OptMatch.filter_same_partial",
    "Verif.OptMatch.and_then_same_partial",
    "Verif.OptMatch.Witness.wild_first_changes",
    "Verif.OptMatch.Witness.function_called_changes",
    "Verif.OptMatch.Witness.function_of_variable",
    "Verif.OptMatch.Witness.amp_changes",
    "Verif.OptMatch.Witness.function_garbage",
    "Verif.OptMatch.Witness.negation_lost",
    "Verif.OptMatch.Witness.let_condition",
    "Verif.OptMatch.Witness.mut_changes",
    "Verif.OptMatch.Witness.as_mut_changes",
    "Verif.OptMatch.Witness.borrowed_changes",
    "Verif.OptMatch.Witness.return_changes"
   ],
   "note": "The edit equals the code as a function of the state, for all patterns, types and meanings, and moved expressions are never left by a jump. Missing, each with a witness: a first arm with _, functions other than names, & inside of Some with as_ref, and in filter: functions, let, mut, as_mut, conditions on values that are not Copy, return in and_then."
  },
  {
   "property": "C82",
   "status": "partial",
   "theorems": [
    "Verif.OptMatch.okErr_same",
    "Verif.OptMatch.unwrap_same_partial",
    "Verif.OptMatch.Witness.sub_pattern_changes"
   ],
   "note": "manual_ok_err: full. manual_unwrap_or: patterns Some(x @ p) are missing, with a witness that the lint changes the value there."
  },
  {
   "property": "C83",
   "status": "partial",
   "theorems": [
    "Verif.Needless.match_same_partial",
    "Verif.Needless.if_let_same_partial",
    "Verif.Needless.Witness.else_none_changes",
    "Verif.Needless.Witness.chain_changes",
    "Verif.Needless.Witness.zero_changes",
    "Verif.Needless.Witness.path_changes",
    "Verif.Needless.Witness.operand_changes"
   ],
   "note": "match_same_partial and if_let_same_partial leave out floating point zeros, paths that begin with a pattern's name, operands, chains on expressions with effects, and options with else None but without Some(x); each is a witness"
  },
  {
   "property": "C84",
   "status": "partial",
   "theorems": [
    "Verif.BoolMatch.match_same_partial",
    "Verif.BoolMatch.let_same",
    "Verif.BoolMatch.like_same",
    "Verif.BoolMatch.like_if_same",
    "Verif.BoolMatch.Witness.guard_dropped"
   ],
   "note": "let_same, like_same and like_if_same are full; match_same_partial leaves out a guard on a first arm with the value false, where the code is wrong (guard_dropped)"
  },
  {
   "property": "C85",
   "status": "partial",
   "theorems": [
    "Verif.TryOp.is_same_partial",
    "Verif.TryOp.if_let_same_partial",
    "Verif.TryOp.match_same_partial",
    "Verif.TryOp.let_else_same_partial",
    "Verif.TryOp.Witness.no_return",
    "Verif.TryOp.Witness.no_return_stmt",
    "Verif.TryOp.Witness.branch_lost",
    "Verif.TryOp.Witness.outer_variable",
    "Verif.TryOp.Witness.no_return_err",
    "Verif.TryOp.Witness.ref_mut_copy",
    "Verif.TryOp.Witness.addr_copy",
    "Verif.TryOp.Witness.reference_stuck",
    "Verif.TryOp.Witness.some_result",
    "Verif.TryOp.Witness.err_reference",
    "Verif.TryOp.Witness.hidden_ref"
   ],
   "note": "the four theorems compare the whole outcome; left out are branches that do not leave the function, ref variables and & scrutinees on places, results with else or that are not Copy, where the code is wrong (witnesses)"
  },
  {
   "property": "C86",
   "status": "partial",
   "theorems": [
    "Verif.LetElse.if_let_same_partial",
    "Verif.LetElse.match_same_partial",
    "Verif.LetElse.Witness.nested_field",
    "Verif.LetElse.Witness.in_slice",
    "Verif.LetElse.Witness.below_ref",
    "Verif.LetElse.Witness.more_variables",
    "Verif.LetElse.Witness.ref_mut",
    "Verif.LetElse.Witness.mut_mut",
    "Verif.LetElse.Witness.ref_tuple",
    "Verif.LetElse.Witness.mut_copies",
    "Verif.LetElse.Witness.ref_in_place",
    "Verif.LetElse.Witness.at_or",
    "Verif.LetElse.Witness.one_tuple",
    "Verif.LetElse.Witness.only_dots",
    "Verif.LetElse.Witness.same_variant"
   ],
   "note": "both theorems compare which case leaves and all declared variables; left out are patterns the code prints wrongly (witnesses) and variables that are not used"
  },
  {
   "property": "C87",
   "status": "partial",
   "theorems": [
    "Verif.Never.never_no_value_partial",
    "Verif.Never.Witness.lazy_return",
    "Verif.Never.Witness.lazy_break"
   ],
   "note": "for runs of any length; left out are jumps on the right of && and ||, where the code is wrong (witnesses)"
  },
  {
   "property": "C88",
   "status": "partial",
   "theorems": [
    "Verif.InfLoop.infinite_forever_partial",
    "Verif.InfLoop.Witness.outer_label",
    "Verif.InfLoop.Witness.break_value",
    "Verif.InfLoop.Witness.become_leaves"
   ],
   "note": "Partial: no break to a label outside of the loop, no become, values of break do not jump; each limit has a witness."
  },
  {
   "property": "C89",
   "status": "partial",
   "theorems": [
    "Verif.Local.local_same_partial",
    "Verif.Local.own_local",
    "Verif.Local.index_right_partial",
    "Verif.Local.Witness.named_length",
    "Verif.Local.Witness.cfg_element",
    "Verif.Local.Witness.macro_callee",
    "Verif.Local.Witness.hidden_in_macro",
    "Verif.Local.Witness.range_index"
   ],
   "note": "For code outside of macros; left out are named lengths, elements with cfg and functions named by macros, where the code is wrong (witnesses); types are assumed equal."
  },
  {
   "property": "C90",
   "status": "partial",
   "theorems": [
    "Verif.Certain.certain_unique_partial",
    "Verif.Certain.not_unique",
    "Verif.Certain.shift",
    "Verif.Certain.number_argument",
    "Verif.Certain.trait_self",
    "Verif.Certain.lifetime_argument",
    "Verif.Certain.exported_variant",
    "Verif.Certain.generic_function",
    "Verif.Certain.generic_method",
    "Verif.Certain.projection",
    "Verif.Certain.index_type"
   ],
   "note": "Expressions called certain have one type, outside of the nine cases in which the analysis is wrong (witnesses); coercions are not modelled."
  },
  {
   "property": "C91",
   "status": "partial",
   "theorems": [
    "Verif.Guard.guard_same_partial",
    "Verif.Guard.Witness.subpattern",
    "Verif.Guard.Witness.user_equality",
    "Verif.Guard.Witness.other_method",
    "Verif.Guard.Witness.captured",
    "Verif.Guard.Witness.inner_guard",
    "Verif.Guard.Witness.field",
    "Verif.Guard.Witness.bound_twice",
    "Verif.Guard.Witness.not_same"
   ],
   "note": "Missing: tested variables with a subpattern, equality that is not structural, other methods called with an empty array, clashes of names; each is refuted in Guard.Witness."
  },
  {
   "property": "C92",
   "status": "partial",
   "theorems": [
    "Verif.Collapse.if_same_partial",
    "Verif.Collapse.match_same_partial",
    "Verif.Collapse.if_let_same_partial",
    "Verif.Collapse.Witness.not_exhaustive",
    "Verif.Collapse.Witness.falls_to_none",
    "Verif.Collapse.Witness.falls_to_subpattern",
    "Verif.Collapse.Witness.falls_between",
    "Verif.Collapse.Witness.subpattern",
    "Verif.Collapse.Witness.field_after_wildcard",
    "Verif.Collapse.Witness.behind_struct",
    "Verif.Collapse.Witness.renamed_field",
    "Verif.Collapse.Witness.not_same"
   ],
   "note": "Missing: arms between that match the same values, last arms that do not match everything (None, x @ p), subpatterns of the variable, help texts that describe no pattern; refuted in Collapse.Witness. For inner matches only the result is compared (the guard is evaluated less often)."
  },
  {
   "property": "C93",
   "status": "partial",
   "theorems": [
    "Verif.LateInit.late_init_partial",
    "Verif.LateInit.tail_drop_order",
    "Verif.LateInit.sub_drop_order",
    "Verif.LateInit.no_semicolon",
    "Verif.LateInit.used_before_declared",
    "Verif.LateInit.used_in_let",
    "Verif.LateInit.group_drop_order"
   ],
   "note": "Proved for all blocks under the conditions that the code does not check (several variables without ordered drop, branches that are left do not mention the variable, no ordered bindings with subpatterns, at the end of the block no other statement mentions the variable or declares ordered variables). Witnesses show that each is needed. Missing: macros, extended temporaries, moves."
  },
  {
   "property": "C94",
   "status": "partial",
   "theorems": [
    "Verif.LetIf.let_if_partial",
    "Verif.LetIf.init_lost",
    "Verif.LetIf.init_reordered",
    "Verif.LetIf.drop_lost",
    "Verif.LetIf.else_uses",
    "Verif.LetIf.else_value_uses"
   ],
   "note": "Proved for all branches, surrounding statements and machines if the initialiser is a constant, the variable has no ordered drop, and the else branch does not use the variable except for a final assignment; the code checks none of these, and witnesses show that they are needed. Missing: macros, an if at the end of the block."
  },
  {
   "property": "C95",
   "status": "partial",
   "theorems": [
    "Verif.Entry.entry_same_partial",
    "Verif.Entry.key_not_moved_partial",
    "Verif.Entry.crashes",
    "Verif.Entry.never_inserted",
    "Verif.Entry.declared_inserts",
    "Verif.Entry.key_twice",
    "Verif.Entry.key_changed",
    "Verif.Entry.value_panics",
    "Verif.Entry.key_used_after_move"
   ],
   "note": "Proved for keys that are neither changed nor have effects, values without effects that do not panic, and (without else) paths that do not end with the key, the map or a declaration; otherwise the suggestion is wrong (witnesses). The check for moved keys is only proved with an else."
  },
  {
   "property": "C96",
   "status": "partial",
   "theorems": [
    "Verif.Share.start_same_partial",
    "Verif.Share.both_same_partial",
    "Verif.Share.start_unordered_partial",
    "Verif.Share.shadows_condition",
    "Verif.Share.before_condition",
    "Verif.Share.start_end_overlap",
    "Verif.Share.guard_unseen",
    "Verif.Share.macro_leaves_use"
   ],
   "note": "Proved for chains without macros whose conditions only read variables that the moved start does not shadow, and where no statement of a branch belongs to both the start and the end; drops, items, if let and match arms are not modelled. Negations with witnesses for shadowed conditions, conditions with effects, overlapping start and end, unseen ordered drops and macro calls."
  },
  {
   "property": "C97",
   "status": "proved",
   "theorems": [
    "Verif.Splitn.splitn_same",
    "Verif.Splitn.needless_exact",
    "Verif.Splitn.indirect_same",
    "Verif.Splitn.suspicious_true"
   ],
   "note": "For all strings, stateful patterns, limits, continuations; calls are assumed to be those of Iterator where the code checks it."
  },
  {
   "property": "C98",
   "status": "partial",
   "theorems": [
    "Verif.Elide.elide_same_partial",
    "Verif.Elide.cuts_partial",
    "Verif.Elide.cuts_all",
    "Verif.Elide.dyn_hidden",
    "Verif.Elide.dyn_bound",
    "Verif.Elide.cuts_overlap"
   ],
   "note": "functions with a trait object that has one of the lifetimes, and lifetimes whose first uses are not in the order of the declaration, are not covered: the suggestion is wrong for some of them (witnesses); impl blocks are modelled only as to the deletions"
  },
  {
   "property": "C99",
   "status": "partial",
   "theorems": [
    "Verif.Inline.inline_same",
    "Verif.Inline.inline_mixed_partial",
    "Verif.Inline.name_clash"
   ],
   "note": "proved for the default configuration; for allow-mixed-uninlined-format-args = false not covered: an argument that stays and has the name of an inlined variable, where the suggestion is wrong (witness)"
  }
 ]
}