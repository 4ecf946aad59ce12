# A Lean 4 model of rust-clippy: design

The code under study is `/repo` (rust-lang/rust-clippy at a pinned commit), read as text.
The model lives in `lean/Verif/`, one directory per area:

* `Model.lean` — definitions that transcribe Rust functions; every definition cites file and lines.
* `Spec.lean` — where the property needs one: a small specification written without the model
  (what Rust's operators mean, what a lexer accepts, which values a pattern matches, ...).
* `Lemmas.lean` — helper lemmas.
* `Props.lean` — the property theorems and, beside each, a concrete `example` meeting the hypotheses.

Small areas merge the first two or three files, but property theorems always sit in `Props.lean`.

## Conventions

* Rust `&mut` parameters become returned values; loops become structural recursion or folds;
  `Option`/`Result` stay data; a panic (`unwrap`, index out of bounds, arithmetic overflow in a
  debug build) is an explicit error value (`none` / `Except.error`), never a default.
* Text is `List Char`. Byte offsets are character offsets unless a definition says otherwise;
  where the difference matters the definition counts UTF-8 bytes.
* Machine integers of a type of `n` bits are `BitVec n` when the property is about wrap-around,
  and `Int`/`Nat` with explicit range hypotheses when it is about values.
* Values of rustc types (HIR nodes, `Ty`, spans) are replaced by the data the modelled
  function inspects. Each definition's comment says what was dropped.
* When the code violates the property, the negation is proved with a concrete witness
  (`..._violated`/`..._counterexample`), the correct part is kept as `..._partial`, and the finding
  is listed under *Findings* below.

## Trusted base

* Lean's kernel (4.33.0) and at most the axioms `propext`, `Classical.choice`, `Quot.sound`
  (`#print axioms` of every property theorem is checked by `tools/manifest.py --check`).
* The reading of `/repo`: the model is tied to the code by transcription only; nothing is executed.
* The specifications in the `Spec.lean` files: Rust operator semantics, lexing of raw strings,
  operator precedence, range/or-pattern matching, small-step meaning of control flow.
* Not modelled: rustc itself (type checking, HIR lowering, macro expansion, spans and hygiene),
  diagnostics emission, the filesystem below "read this path / write this path", the `toml`,
  `serde`, `quine-mc_cluskey` and `itertools` crates (their assumed behaviour is stated where a
  model function calls them), floating-point arithmetic (only its ordering is used, as a partial
  order), performance and thread scheduling.

## Plan per property

C01 model `ClippyCmd::new`, the env encoding and the driver's `split`; prove decode∘encode by
  induction over the word list, with `splitOn` of the marker as an explicit function. Round-trip.
C02 same model; specification by `takeWhile/dropWhile (≠ "--")` and `filter`.
C03 model `arg_value` with its pairwise scanning; specification "there is an index i such that".
C04 model the lookup loop over the ancestor chain and a filesystem function; specification
  "first ancestor with a file".
C05 model the deserialise loop over a key table; specification per key by `find?`.
C06 model the sequence visitor; specification by `filter`.
C07 model the checks; specification "each kind in exactly one group".
C08 model `MsrvStack` push/pop and a tree walk; refinement to a lexical-scoping specification.
C09/C10 model `NumericLiteral`; specification: value digits, suffix, exponent obtained by an independent
  reader of literal syntax; group-size predicate.
C11 model the hash-count state machine; specification: the raw-string lexer (first closing
  delimiter). Expected: violated for contents with a quote run; witness and partial theorem.
C12 model the scanner; specification: maximal runs. C13 model the three passes; specification per line.
C14/C15 model the case-conversion functions; round trip.
C16/C17 model `Sugg` with printing to tokens; specification: a precedence grammar relation.
C18 model `binop`, `not`, `neg`, casts over `BitVec`-like u128 data; specification: Rust semantics on
  `Int` with ranges. C19/C20 from the same specification.
C21–C34 model each lint's decision function over operator enums and constants; specification:
  evaluation of the two source shapes in Rust semantics (`Int` with range / partial order).
C35 model the translation to `Bool` terms and back; specification: truth-table semantics.
C36–C39 model the pattern algorithms; specification: the set of values matched.
C40 model `never_loop_*` on an expression AST; specification: big-step relation of outcomes.
C41 model the eagerness lattice and traversal; specification: monotone fold and effect semantics.
C42/C43 model text region update and the file updater; specification on text.
C44/C45 model the token rewriting; specification: map over token windows.
C46 model the lint table and commands; invariant over all histories.
C47/C48 model the splitting iterators; specification by concatenation.
C49 model `diff` as merge join + grouping; specification by multiset counts.
C50/C51 model the text edits; specification by untouched complement.
C53 with C16: the printed negation is read back and evaluated in every lawful interpretation.
C52 model the common-affix loops on word lists; specification: longest common prefix/suffix of all lists.
C54 model the grouping of lints by crate and module; specification: each top module once, each lint once.
C55 model the list formatting on lines; specification: same entries, sorted.
C56 model the selection of test files and the path buffer; specification: longest lint name which is a prefix.
C57 model the limits, ids and links of the report of `diff`; specification: prefixes and counts, ids distinct, links are ids.
C58 model `gather_stats`, `read_stats_from_file` and `print_stats` on texts; specification: counts of a list, the map written is the map
read, one line for each lint with different counts.
C59 model `apply_reductions` and the decision of the lint on an expression type with a relational evaluation (`Ev`); specification: every value
fits into the bits of the target.
C60 model `expr_sign`, the peeling of products and sums and the tables of methods; specification: every value is nonnegative.
C61 model the decisions of the lints on pairs of types; specification: `wrap v = v` for all values, exactness in a significand of m bits.
C62 model the fold over the variants; specification: an implicit discriminant is the previous one plus one.
C63 model HIR as trees with the data of each node, equality with its maps of variables and items, and the hash as the list of everything fed
to the hasher; induction on the depth of the comparison. Partial: the exceptions of `plainHere` and constants which aren't a function of the syntax.
C64 model the buckets; invariants of the fold, for any hash and equality.
C65 specification: an evaluator of expressions without side effects over arbitrary values and operations; induction on its depth, with a relation
between the variables of both sides. Partial: no calls, assignments, loops and jumps; both sides must have a value.
C66 model the visitor over expressions with places, assignments, mutable borrows, loops and jumps; specification: all executions with an event for
each call; a frame lemma for places which aren't changed, then induction on the depth of the execution. Partial: `as_mut` and `&` of the user.
C67 model the recognition of indices, counters and assignments and the arithmetic of suggestions; specification: run the loop and the copies on lists
with checked `usize` arithmetic; both leave the memory described by the number of elements copied per assignment. Partial: statements which are
dropped, dependent assignments, changing bases, loops without a round, bounds which overflow.
C68 model the two visitors of the loop body and of the block on expressions reduced to what concerns one variable; specification: all executions (with
loops, jumps, closures which may be called), with the values read in each round; by induction on the depth of executions, with invariants of both
visitors.
C69 model the recognition of swaps, the choice between `mem::swap` and `slice::swap`, and the bindings that are kept; specification: stores of trees
with places as paths; exchange of places, agreement of stores except at the temporary variable, commutation of writes to places which part.
C70 model the entry kept for a slice as a fold over assertions and indices in the order of visiting; specification: executions of code with guards,
indices and conditions for each length; invariants of the fold (highest index, first index, number of indices).
C71 (`Verif/Ctrl/Never*`, partial): `Ctrl/Syntax` has one tree of expressions, conditions, arms and statements for all lints about control flow; `Ctrl/Spec` gives it a meaning over an arbitrary state with arbitrary operations (`Sem`), loops bounded by a number that all theorems quantify over; `Ctrl/Never` is the analysis of `never_loop` with its labels. The proof carries, through a mutual induction over the tree, what each result promises: no `continue` of the main loop, no value when diverging, and a mark for every labelled block that is left by `break`. Proved under the condition that no jump hides in the right side of `&&`/`||`, a later condition of a chain, a guard or the right side of an assignment to a complex place. Types are a parameter (`NeverSound`: an expression of type `!` has no value). Not modelled: `yield`, inline assembly, closures as anything but operations, iterator methods (`check_iterator_reduction`), the spans of the message.
C72 (`Verif/Ctrl/Continue*`, `Verif/Ctrl/Names*`, partial): `needless_continue.rs` in the control-flow language of C71: which `continue` is at the end of a turn, the code shown for an `if` with a `continue`, and the function that cuts the closing brace. Proved by showing that a turn and its rewriting agree once "end of the block" and "`continue` of this loop" are identified (`Sim`), a relation that loops cannot observe; moving statements into a branch uses that the meaning depends only on the names mentioned (`congE`). *Partial*: moved statements must not be captured. Not modelled: types (beyond "is `()` or `!`"), the printed text around the pieces, drop order of the variables in the branch.
C73 (`Verif/Ctrl/Else*`, partial): `redundant_else.rs` in the control-flow language of C71. `isNever_sound` shows that both tests (with types, and in macros without) accept only expressions without value; `peel_eval` that the chain is its shortened form followed by the block; the rest is capture: the meaning depends only on the names mentioned (`congE`), and declarations with different names commute (`hoist_bind`, `hoist_hoist`). *Partial*: items of the moved block must not clash with names around. Not modelled: when temporaries of the condition are dropped, parentheses around the whole chain, indentation of the text.
C74 (`Verif/Ctrl/Collapse*`, partial): `collapsible_if.rs` in three layers. The tree: `collapse` in the language of C71 with its meaning (`if_if_same`, `else_if_discard`). The conditions: `CollapseSpec` has a grammar of `&&`, `||` and parentheses and a reader; the reader is complete for the grammar (`disj_complete`), so the text with parentheses has one reading, and `conj_append` regroups the `&&`s. The text: `peel_parens_str` on characters (`peel_sound`, `peel_exact`). *Partial*: a semicolon after an inner `if … else …`, and whitespace inside parentheses. Not modelled: comments, attributes and macros between the braces (a parameter), operators that bind weaker than `||` in a condition, when temporaries are dropped.
C75 (`Verif/Ctrl/Return*`, partial): `needless_return.rs` in the language of C71: `editsFn` and `editsClosure` list the bodies after each suggested edit; `call` ends at `return`. A relation "same effects, same exits, same value unless one of the two is `()`" goes through every context in final position (`fn_same_but_unit`, full); with the values of both versions in one type the functions are equal (`fn_same_partial`). `one_return_less` counts the `return`s. For the text, an expression is its left operand and what follows it, and `written_whole_partial` characterises when the statement is read as one expression. *Partial*: the edited function need not compile (`edit_changes_type`); calls, indices and ranges on a block (`text_breaks`). Not modelled: drop order of temporaries, attributes, macros and `cfg` (parameters), spans of semicolons and blanks.
C76 (`Verif/Lazily/*`, partial): the classification of C41 once more, now against an evaluator instead of a list of possible effects, and up to the edits of two lints. `visit` is `expr_eagerness` with its accumulator over all kinds of expressions it tells apart; `Spec` gives them a meaning in which integer arithmetic panics on overflow and functions, operators, destructors and memory are parameters. `visit_acc` shows that nothing becomes cheap again, `bin_ok` that the tests on operators and constants rule out every panic the compiler does not report itself (`opOk`), and `harmless` goes through the expression. `lazy_stays_partial` follows `ForceNoChange` through the same walk. *Partial*: `Tame` excludes fields of unions, `unsafe` functions and constants with destructors; for `or_fun_call`, what is below a user's `Deref`. Not modelled: running time, drop order of temporaries; the types and resolutions the compiler supplies are part of the expression.
C77 (`Verif/SideFx/*`, partial): `check` is the decision of `arithmetic_side_effects` for one expression, `visit` its walk with `expr_span` and `const_span`. `Spec` evaluates expressions with checked integer arithmetic; operators of other types are parameters, and immutable variables have the value their initializer had at an earlier moment (`Past`). `bin_sound` goes through every reason for letting an operator through: constants, `NonZero`, `Wrapping`, conversions from smaller types (`smaller_sound`), literals (`literals_sound`); `visit_fine` is the induction over the body. `reports_node` and `reports_operands` (full) follow `expr_span`. *Partial*: `Tame` excludes the shapes for which the claim fails, each with a counterexample in `Witness`. Not modelled: macros, lint levels, and the constant evaluator (a parameter that has to be right; C18).
C78 (`Verif/Recur/*`, partial): `occs` lists the occurrences of variables with the frames around them, `climb` is the loop of `check_expr` over the parents, `record` keeps the tables, `tryDisable` is the search with its stack and flags. `Flags` proves it right: `reported_closed` and `reported_largest` (full) show that the reported parameters are the greatest closed set; the heart is that a shortest way out is never cut off by the stack (`tryDisable_true`). `Spec` evaluates a function that calls itself, with a log of effects; `reported_irrelevant_partial` is noninterference, proved by relating two evaluations of the same body, where a value may differ only in a context from which `climb` gets to a harmless use. *Partial*: `Tame` excludes panicking operators, effects on the right side of `&&` and `||` and users' `op=` where a reported parameter takes part. Not modelled: functions inside of functions, which instance of a trait method is called, destructors.
C79 (`Verif/Endless/*`, partial): `isInfinite` and `complete` are the two functions with their tables. `Spec` describes iterators as machines whose steps end, give an item, go on or panic, the adapters of `core::iter` on them (forward and backward), and the methods that use an iterator up; `Den` says to which iterators an expression can evaluate. `infinite_never_returns_partial` goes by invariants of the machines (`live_of`), `silent_ends_partial` by induction on the way to the end (`Halts`), with `Swift` (each `next` returns) for `zip`. *Partial*: see the findings; and backward steps of `zip`, `skip` and `enumerate`, which need a known length, are left out. Not modelled: iterators that share state with their copies.
C80 (`Verif/Indexing/*`, partial): `check` is the lint's decision for the type of the indexed expression, the index with what the constant evaluator says about its parts, and the configuration; `Spec` says when an item or a range of a slice of some length panics, and which values agree with the constants. `out_of_bounds_panics` is full; `silent_safe_partial` and `mayPanic_can_partial` go by cases on the bounds. *Partial*: see the findings. Not modelled: the constant evaluator itself (C18), which types count as like slices (`deref_chain`, a fitting `get`), and what indexing does for other types.
C81 (`Verif/OptMatch/*`, partial): `checkMap`, `checkFilter` and `checkAndThen` are the lints' decisions with the edits they make; the expressions inside are those of C71 (`Verif/Ctrl`). `Spec` has places, references, patterns with default binding modes, the arms of a `match`, and `map` and `filter` of `Option`. `canMove_safe` (an expression which may be moved is only left by a panic or a jump inside of it) is full, by induction on expressions. `map_same_partial`, `filter_same_partial` and `and_then_same_partial` say that the edit is equal to the code as a function of the state; the patterns are compared by induction (`match_ref`: against a place by reference, or against a reference to it; `match_value`: only the value at the place matters). Assumed: the patterns cover the value (the compiler's check). *Partial*: see the findings; patterns `x @ p` in `manual_filter` are left out. Not modelled: moves, destructors and captures (borrow checking), coercions, comments, parentheses and braces in the text, macros, partial moves in `can_move_expr_to_closure`.
C82 (`Verif/OptMatch/Unwrap*`, partial): `checkUnwrap` and `checkOkErr` on the code of C81, `UnwrapSpec` says what the methods do. `okErr_same` (for `manual_ok_err`) is full; `unwrap_same_partial` leaves out patterns `Some(x @ p)`. Assumed: the patterns fit and cover the value (the compiler's check), default values and constants are what the compiler says. Not modelled: moves (`safe_to_move_scrutinee` only looks at local variables), and which expressions count as default values.
C83 (`Verif/Needless`, partial): `patSame`, `checkMatch`, `chainOk` and `tyMatches` on a syntax of patterns and expressions, with typed values that contain references, floats and constructors. `match_same_partial` and `if_let_same_partial`: the code has the value of what is matched on. Missing are the cases of the findings below. Assumed: expressions and guards said to have no side effects have none, values have their types, the code has the type of the variable or function its value goes to, every name occurs once in a pattern.
C84 (`Verif/BoolMatch`, partial): `foundGood`, `findMethod`, `checkLike` on the patterns and values of C83. `let_same`, `like_same` and `like_if_same` are full; `match_same_partial` leaves out guards on a first arm with the value `false`. Assumed: the compiler's check that all values are taken, the type of the matched value. For a removed `&` in front of a reference, `matches!` is only considered for patterns that are no names (a name would get another type). Not modelled: `if let true = …`, drop order, parentheses around the suggestion (C38).
C85 (`Verif/TryOp`, partial): `checkIs`, `checkIfLet`, `checkMatch` and `checkLetElse` on small bodies with `return`, blocks and statements; values know whether a reference goes to a place or to a temporary. The semantics of `?`, `as_ref` and patterns is in the Spec. `is_same_partial`, `if_let_same_partial`, `match_same_partial` and `let_else_same_partial` compare the whole outcome (value or return, and state). Left out by hypotheses, each with a counterexample in `Witness.lean`: branches that do not leave the function, `ref` variables and `&` scrutinees on places, results with an `else`, results that are not `Copy`, branches of `Ok` that are not the variable. Assumed: the compiler's types, that errors returned without `into` are not changed by `From` of the same type. Not modelled: drop times, uses after a move, macros, `try` blocks.
C86 (`Verif/LetElse`, partial): the map from variables to patterns (`identityMap`), the recursive replacement (`replace`, with what a printed pattern reads as), the choice of the arm that leaves, and `check`. The Spec matches patterns against values with default binding modes, places and alternatives. `if_let_same_partial` and `match_same_partial`: the same case leaves with the same body (and no variables), and otherwise the same variables get the same values; the proof shows by mutual induction that the replaced pattern matches the same values and expands every binding by its pattern. Left out by hypotheses, with counterexamples in `Witness.lean`: variables in slices, below `&` and in nested field patterns, one-element tuples, `@` before `|`, `ref` in `P`, prefixes on both sides, `mut` under a reference, and variables that are not used (they are declared in addition). Assumed: well-formed patterns (each variable once, in all alternatives). Not modelled: macros, rest patterns in slices of `P`, types.
C87 (`Verif/Never`, partial): the visitor of `is_never_expr` with its stack of break targets, on expressions with all jumps, blocks, loops, arms with guards and `let … else`; the Spec is an interpreter with states and fuel, where jumps travel to their targets. `never_no_value_partial`: if the answer is yes, no run of any length ends with a value. The proof is one induction over the depth of runs, with two syntactic lemmas (code that does not run changes nothing; targets are kept and stay used). Partial: the right sides of `&&` and `||` contain no jumps, because the code takes them as always evaluated (`Witness.lazy_return`, `lazy_break`). Assumed: operations of type `!` have no result, targets have different ids. Not modelled: the choice between `RequiresSemi::Yes` and `No`.
C88 (`Verif/InfLoop`, partial): the visitor of `infinite_loop` with depth and labels; the Spec is an interpreter with states and fuel where `break` and `continue` travel to the loop with their label. `infinite_forever_partial`: a reported loop has no finished run at all. The proof is an induction over the depth of runs with an invariant on which jumps may come out at a given depth. Partial: no `break` to a label outside of the loop from an inner loop, no `become`, values of `break` do not jump (each with a witness). Not modelled: `yield`, and the search for the enclosing function.
C89 (`Verif/Local`, partial): the evaluator of `consts.rs` with its mark `NonLocal`, on expressions whose nodes carry the place they come from; arithmetic is a parameter (it is modelled for C18). The Spec relates the expressions of two programs that differ only in results of macros and in hidden code. `local_same_partial`: a local value is the only value any such program gets (noninterference, by induction over the relation); `own_local`: expressions written in one place are local; `index_right_partial`: numbers taken out of arrays are right. Partial: lengths `[x; N]`, elements with `#[cfg]`, functions named by macros, and blocks inside of macros, each with a witness. Types are assumed to be the same in both programs.
C90 (`Certain`): `expr_type_is_certain` with the lattice `Certainty` (including the definition ids), `CertaintyVisitor`, `qpath_certainty`, `path_segment_certainty`, `update_res`, `type_is_inferable_from_arguments`. Specification: relations `Den` (what a written type or path can stand for, unwritten type arguments are free) and `HasTy` (the types an expression can have). Theorem `certain_unique_partial`: a certain expression has at most one type, by induction over the expression with the invariant that the path so far has one meaning whenever its certainty is not `Uncertain`; type arguments are recovered from instantiated types (`inst_inj`). Not modelled: coercions, const arguments, lookups that find another item of the same name, defaults of type parameters.
C91 (`Guard`): `redundant_guards` with `get_pat_binding`, `expr_can_be_pat`, the four kinds of guards, `check_method_calls` and the textual edit of the pattern (also the case in which the new text is no pattern). Specification: pattern matching `pm` as a function from values to bindings, structural equality, a `match` with an uninterpreted program around it (equality, methods, conditions, bodies). Theorem `guard_same_partial`: with any arms before and after, the result of the `match` is the same; the main lemma `spl` says that matching with the edited pattern replaces the tested variable by the variables of the new pattern. Hypotheses (`Fine`): the tested variable is not bound by `x @ p`, `==` is structural, `starts_with`/`ends_with` are those of slices, names of the new pattern do not clash. Not modelled: macros, or-patterns that older compilers reject, references (transparent).
C92 (`Collapse`): `collapsible_match`: `check_match`, `check_if_let`, `check_arm` (both parts), `arm_is_wild_like`, `find_pat_binding_and_is_innermost_parent_pat_struct` (the walk with its flag) and the edit that the help text describes. Patterns, values and matching are those of C91. Specification: `run` gives the conditions a `match` evaluates and its result. Theorems: `if_same_partial` (conditions and result are the same; needs that the arms which count as wildcards, but are `None` or `x @ p`, do not match the values of the arm and that the last arm matches everything), `match_same_partial` and `if_let_same_partial` (same result). Not modelled: macros, MSRV, reference operators, moves in guards, blocks and parentheses around the inner expression.
C93 (needless late initialisations): `Verif/LateInit`. `Model` follows `first_usage`, `LocalAssignGroup::new`, `check_if_or_match`, `check_local` and `check_block_post` over blocks of ids (`Syntax`); `Spec` runs blocks on a machine in which code reads and changes only the variables it mentions, may leave the block, and variables are dropped in reverse order of declaration; `Run` has the frame lemmas. Proof: before the first usage both blocks have the same store (the variable is uninitialised) and the same world; the statement with the value leads to the same state; the rest is the same; the two lists of variables to drop are equal up to variables without ordered drop. Not modelled: macros, `if let`, lifetime-extended temporaries, moves out of variables.
C94 (useless `let`/`if` sequences): `Verif/LetIf`, on the blocks and machines of C93. `Model` follows `check_block_inner` and `check_assign`; the placeholders of the suggestion stand for the other statements of the branches. Proof: code that does not mention the variable commutes with giving it another value (`stmts_frame`), so both branches reach the same state. Not modelled: macros, the `if` as the expression at the end of the block.
C95 (map entries): `Verif/Entry`. `Model` follows `InsertSearcher` (its flags, the walk through branches, matches, loops and statements), the edits (`rw_` for `e.insert(v)`, `cloB` for the closure) and `check_expr`. `Spec` runs the original program and the suggested one on a map and an abstract rest; code the lint does not look into is any operation that keeps the map and the key (`Law`). Proof: the flags only go one way (`Mono`), code without edits is not changed (`Fixed`), as long as the map has not been used the entry still describes it (`Run`: `visit_out`), and a block that may be moved into a closure ends each path either with one insertion as its last action or without ending at all (`Closure`: `cloB_ret`). Not modelled: macros, closures, `.await`, mutex guards, borrows.
C96 (branches that share code).  `Verif/Share`: the branches of an `if` chain as lists of statements whose code is an operation and the variables it mentions (`Syntax`), both with resolved variables and as text.  `Model` is `scan_block_for_eq` with the comparison of statements and its table of corresponding variables, the search from the start, the search from the end by hashes, the second comparison that forgets correspondences, the adjustment to macro calls, and the two suggestions as programs.  `Spec` runs texts: names stand for places, declarations make new places, code may do anything to the places it mentions and to the rest of the world or leave the program; `Valid` says what the compiler guarantees (variables are resolved correctly and declared once).  Proved: without macros, if conditions only read variables whose names the moved start does not declare, moving the start keeps the meaning (`start_same_partial`), and moving both does if no statement of a branch belongs to both (`both_same_partial`); nothing with an ordered drop moves in front (`start_unordered_partial`).  `Scan` and `Fold` carry the invariants: a statement at the end never refers to a variable from the middle of its branch, although only the correspondences of the second branch are ever forgotten.  Not modelled: items, macro hygiene, `if let`, drops, the arms of `match`.
C97 (splitting strings).  `Verif/Splitn`: chains of calls behind `splitn`/`rsplitn` and blocks that begin with a declaration of such an iterator (`Syntax`).  `Model` is `parse_iter_usage`, both suggestions, the search for two declarations and `suspicious_splitn`.  `Spec` is the iterator of the standard library over an arbitrary stateful pattern that searches from the front or the back, with `next`, `nth`, `skip`, `next_tuple`, `unwrap`, `?`, and any other code after it.  Proved: the suggested chain equals the original one, as value and as effect on the pattern (`splitn_same`); a limit is reported exactly if it never matters (`needless_exact`); the block with the suggested declaration does the same (`indirect_same`); the notes about `splitn(0)` and `splitn(1)` hold (`suspicious_true`).
C98 (eliding lifetimes).  `Verif/Elide`: signatures with types made of references, arguments, trait objects and inner scopes (`Syntax`).  `Model` is the visitor, the checks of `where` clauses and bounds, the table of occurrences, the choice, the replacements, and the spans that are deleted from the list of parameters.  `Spec` is the elision rules of the Rust Reference: it resolves a signature, numbering the lifetimes of the inputs, and says when two resolved signatures are the same up to names; and the text of a list of parameters with deletions.  Proved: the suggested function has the same signature and does not mention what was removed, if no trait object has one of the lifetimes (`elide_same_partial`); the deletions are right if the lifetimes are in the order of the declaration (`cuts_partial`, `cuts_all`).  Witnesses for the rest: `dyn_hidden`, `dyn_bound`, `cuts_overlap`.  Not modelled: lifetimes of `impl` blocks (except for the deletions), macros, `async`, the difference between early and late bound parameters.
C99 (format strings).  `Verif/Inline`: format strings, arguments, and what the compiler makes of them — the numbering of `{}` and `.*`, the search for named arguments, captured variables, the errors for arguments that are not used (`Syntax`).  `Model` is `check_uninlined_args` with the replacements and removals, `Spec` what a call prints for given values.  Proved: with the default setting the suggested call has no arguments and prints the same (`inline_same`); with the other one it prints the same if no argument that stays has the name of a variable that is written into the string (`inline_mixed_partial`, witness `name_clash`).  Not modelled: macros, raw identifiers.
C100 (`WhileIter/`). `check` with `try_parse_iter_expr`, `is_expr_same_child_or_parent_field`, the three visitors and
`get_enclosing_loop_or_multi_call_closure` are modelled on a small language of places, assignments, lets, loops and
closures. The spec has the accesses of an expression (a variable with a path of fields), what may be accessed after the
loop, and an evaluator in which a place is a variable with fields and indices. `related_iff`: the test for "same, child or
parent field" is exact on fields of variables; `body_apart_partial`: the body does not access the borrowed iterator;
`loop_same`, `loop_same_partial`: the loops do the same (by a frame theorem for the evaluator); `moved_partial`: a moved
iterator is not accessed later. References are transparent; patterns are variables; iterators are local variables.
C101 (needless_range_loop; `Verif/RangeLoop`). Modelled: `VarVisitor` (nested indices, direct and indirect indices, the names used elsewhere, `prefer_mutable`), the conditions of `check`, and the adapters `skip` and `take` with the cases `start + n`, `x.len()` and lengths of arrays. The specification gives places (a variable with fields and indices), lengths, an evaluator in which an index out of bounds panics, the old loop, and the new loop with a place for `<item>`. Proved: `apart_partial` (the container is not mentioned in the new body, unless in an operand of an index), `index_unused`, `mutable_partial` (no `ref mut`), `numbers_same` (the adapters give the numbers of the range, for all ways to write the ends), and `loop_same_partial`: a simulation with the invariant that the operands of the sequence and the lengths on the way to it do not change. Missing: the hypotheses of `loop_same_partial`, each with a witness that the lint fires without it. Not modelled: statics, array literals, `Index::index` calls, ranges without an end, overlapping `&mut` references in variables.
C102 (unnecessary_fold; `Verif/Fold`). Modelled: the operands of the closure (`get_triggered_expr_span`, both orders), the method paths `Add::add` and `Mul::mul`, the literals that select the method, and for options the conditions on the first argument, the adapter and the textual replacement of the accumulator. The specification is an evaluator with a log of calls, variables by name with scopes, references as part of the values, checked arithmetic, and iterators that write to the log. Proved: `total_same_partial` (`sum`, `product`: the same value, log and panics), `search_same_partial` (`any`, `all`: the same value, the log is a prefix, and the same if the iterator is quiet), `mapOr_init`, `option_same_partial` (`map_or`; a simulation of the body with the accumulator replaced). Missing: the hypotheses, each with a witness. Not modelled: types and `needs_turbofish`, macros, nested closures.
C103 (`manual_strip`; `Strip/`). Modelled: the test, the check for changes of the target (`mutated_variables`, with its special case for captured variables), the search for slices (`find_stripping`), the comparison of lengths (literals, or `p.len()`), the choice of the name and the edits of the block. A block is built of literals, variables, `len`, subtraction, slices, references, calls (logged), sequences, declarations and assignments; names are resolved by scopes on both sides. Strings are lists of bytes; boundaries of characters, types (bare slices stand for those that are referenced by adjustment), constants other than literals, macros and closures inside of the block are not modelled. `strip_same_partial` is by simulation: the new state is the old one with the new variable set, and in the scope of the removed declaration they agree. `not_mutated` and `silent` say when the lint does not fire. The witnesses `inclusive`, `pattern_assigned`, `shadowed`, `captured` and `upvar_assigned` show that each hypothesis of the partial theorem is needed.
C104 (`while_immutable_condition`; `WhileCond/`). Modelled: the collection of variables and static variables of the condition (which stops at calls), the mutated variables of condition and body with the rule for captured variables, the search for `break` and `return`, and the decision. The language has local and static variables, a heap with pointers, operators of the language and of traits, calls (which may change the heap and mutable static variables, and one variable that is borrowed mutably), declarations, `if`, loops, `break`, `continue` and `return`; loops run with a bound on the rounds, over which all theorems quantify. Closures are not modelled. `same_condition_partial` (the condition keeps its value), `if_loop_partial` (the suggested form) and `never_ends_partial` are by induction on the rounds, from `pure_cond` (the outcome of the condition depends only on what is collected) and `keeps` (the body keeps what is not mutated). `pointer_changed`, `alias_changed`, `operator_changed` and `outer_continued` show that the hypotheses are needed.
C105 (`unnecessary_wraps`, `bind_instead_of_map`; `Wraps/`). Modelled: `contains_return`, `contains_try`, `find_all_ret_expressions` with its walk over statements and ends of blocks (with the edits applied on the way), the test for one returned expression, and the two decisions. The language has calls (logged, answered by the world from the log), `if`, `match` with one guarded and one other arm, declarations, loops with a bound on the rounds, blocks with and without label, `break` with a value, `return`, `?` and macro expansions. Proved by a simulation over the walk with two modes (a value that is discarded or used inside, a value that is returned): a returned value is always the variant and the edited body returns its argument with the same calls and the same state (`wraps_same_partial`, `binds_same_partial`); a report always removes at least one constructor (`wraps_fewer`); `and_then(Some)` is the receiver (`noop`). Not modelled: types, spans, the check for exported functions and trait impls, or-patterns and bindings of arms, closures inside the body. Missing: labelled blocks and returning guards at the end of the body, and `()` wrapped other than as a literal, where the claim is false (see Findings).
C106 (`print_literal`, `write_literal`; `LitFmt/`). Modelled: all of `write/literal.rs` on characters: extracting the text of a literal, `conservative_unescape`, the escaping of raw literals, `escape_braces` as its automaton, the choice of placeholders (`Display`, no options, argument used once), `replaced_position`, the removal of arguments and the renumbering. The specification has Rust's lexer for strings as an automaton (escapes, `\x`, `\u`, backslash at the end of a line, raw strings with hashes), the doubling of braces in format strings, the compiler's numbering of references with its errors (missing and unused arguments, text as a width), and what a call prints. Proved: what is written for a literal is lexed and parsed to its value, in each combination of raw and not raw (`verdict_text`, a simulation of the two automata), and the new call compiles and prints the same (`literal_same_partial`). Not modelled: spans, macros, the removal of commas. Missing: see the five witnesses in Findings.
C107 (lintcheck's recursive mode; `Server/`). Modelled as a transition system: the wrapper processes of `driver.rs` step by step (connect, send the package, wait for the answer, run Clippy or the compiler, send the output, exit), the accepting thread with its weak reference to the sender, the thread of each connection (`process_stream`, with its panics), the channel, and the main thread (waiting for cargo, dropping the sender, reading to the end); wrappers may be killed at any step. A schedule is any list of steps. `ClippyWarning::new` is modelled with the search in names and messages, the choice of the place and the text of the link; JSON, colours and TCP itself are not. Proved by an invariant over all schedules: Clippy runs at most once per package and never for ignored ones, also under faults (`checked_once`); the results are a permutation of the warnings of exactly one invocation per package (`results_partial`; partial: all output must be text, and all diagnostics must have a rendered form and a place); every invocation ran one program successfully if there are results (`all_ran`); no connection is refused (`accepts_all`); every schedule has a bounded length (`schedules_end`), and one that cannot be continued without a fault has results unless something failed (`reaches_results`); links (`link_partial`: no braces in the names) and arguments (`uncap_partial`: well-formed command lines).
C108 (lintcheck's sources; `Sources/`). The preparation of a source is modelled as the list of its steps on the disk (create the archive, fill it, unpack each file, clone, check out, delete, make a directory, copy each file, remove the toolchain files), computed from the disk as it is at that point; a run over a list of sources can be interrupted after any number of steps, and a history is any list of such runs with any lists of sources. Names of directories are as in the code. Not modelled: links and permissions of files, files unknown to git, the network (each attempt to download has a given result), the file names inside of `CACHEDIR.TAG` directories. Proved with an invariant per directory over all histories: a run that gets to its end leaves the right files in every directory (`prepared_partial`), if no earlier run was interrupted between two files of an archive and sources that share a directory are related; every run ends (`run_ends`); entries that name one kind of source are read as that (`read_entry`), and others without a local directory are rejected (`read_only_partial`); downloads are tried five times (`download`). The two hypotheses are needed: `torn`, `same_repo`, `other_url`, `same_dir`, and `path_and_version` for the entries.
C109 (uses of locals in MIR; `Mir/`). Modelled: bodies as lists of blocks of statements and a terminator, with the places that each mentions and their contexts (what rustc's visitor hands over), `visit_local_usage`, `block_in_cycle` with its stack and set, `used_exactly_once`, `is_local_assignment` and `local_assignments`. rustc's postorder traversal is a parameter: any list of the blocks that can be come to, each once. The specification has executions as walks from position to position. Proved: the search finds a cycle if and only if there is one, for every graph (`in_cycle`, by an invariant of the work list); collecting is given up exactly if the position can be executed again (`given_up`); otherwise every position is listed as often as it mentions the local, and only positions executed later (`usage_exact`); a local used exactly once is used at most once by every walk (`used_once_partial`) and by some walk (`used_at_all`), and the answer is not missed (`used_once_found`); assignments (`assignments_partial`). Four kinds of positions are missed by the code: `first_missed`, `index_missed`, `update_missed`, `inout_missed`.
C110 (possible borrowers; `Borrow/`). Modelled: `TransitiveRelation` with its stack and set, `PossibleOriginVisitor`, `PossibleBorrowerVisitor` (assignments and calls), both `into_map`s, `only_borrowers` and `bounded_borrowers`; the dataflow result `MaybeStorageLive` is a parameter (any set of locals), and so are the facts about types (`is_copy`, `&mut`, contains a region). The specification has states (which locals a local's value refers to, and which by mutable references) and steps that may store any reference the instruction has at hand wherever the instruction can write; executions are instructions in any order. Proved: the relation is the transitive closure for every set of pairs (`closure`, invariant of the work list); every local that refers to another one in a state of an execution is among its borrowers (`borrower_found_partial`, invariant over steps), so `only_borrowers` and `bounded_borrowers` are right (`only_borrowers_partial`, `at_most_partial`, `bounded_iff`, `only_iff`); the map is exactly the chains of instructions (`borrowers_exact`, `nonempty`). Missing in the partial ones: bodies that assign through references, and mutable references that come out of calls or are stored in other values; the code misses these: `through_deref`, `through_call`, `in_struct`. Raw pointers are not modelled.
C111 (`redundant_clone`; `Clones/`). Modelled: `find_stmt_assigns_to`, `base_local_and_movability`, both ways of finding the two locals (directly and behind a call of `deref`), `visit_clone_usage` on top of the model of C109, and the three tests of `check_fn`; which function is called, types, `only_borrowers` (C110) and the storage of locals are parameters. The specification gives instructions any meaning that changes only what they may change and depends only on what they use, and compares two runs: one where the clone has its own value, and one where it shares the cell of the original; the values found by every use must agree (`SameValues`). Proved: `find_iff`, `stuck_iff`, `locals_direct` (the local is that of the last assignment to the argument and can be moved out); `same_values_partial` for uses that come one after the other and `branches_partial` for uses in branches, both by an invariant along the walk, using that the first use in a reverse postorder comes before all others that can be compared with it (`first_listed`); `report_direct_partial`; `not_again`; `unused_found`. Missing in the partial ones: clones that are changed by assignments or through shared references, changes in different branches, calls behind `deref` (all four with witnesses: `store_missed`, `cell_missed`, `branch_missed`, `deref_missed`), and values behind references and destructors.
C112 (`same_item_push`; `Pushes/`). Modelled: the visitor of the body with its four fields, `should_lint`, `get_vec_push`, the tests of the item, and `check`; types are parameters (pushes on a `Vec` are a constructor of the syntax), macros are not told apart, labels are left out. The specification runs bodies as a relation: an operation may do anything to mutable locals that can be in its arguments, closures are run any number of times, loops and branches are as usual. Proved: `report_iff` (a report exactly if the parts of the body that are looked at have one push statement, no branches or loops, no other use of the vector, and an item that is always the same), `same_item_partial` (n iterations append n copies of one value) by induction over the body with an invariant for the item's local, `report_local`. Missing in the partial one: bodies that can be left early and bodies with the vector in `let`s, closures or last expressions of blocks, and items with interior mutability, all with witnesses (`tail_missed`, `let_missed`, `closure_missed`, `continue_missed`, `cell_missed`).
C113 (`mixed_read_write_in_expression`; `Order/`). Modelled: the read visitor, `check_expr` and `check_stmt`, and the walk from a write up to the function, where the parents are given as what is beside the write on each level; desugared assignments and the other lint of the file are left out. The specification evaluates expressions as a relation in which the operands of each operation are evaluated in an order of a given kind: any permutation, or from left to right. Proved: `report_iff` (which pairs are reported), `order_partial` (without reports, evaluation in any order gives the values and locals of evaluation from left to right, loops included), by exchanging neighbouring operands that don't interfere (`swap`, `rearranged`), `reported_differs` (a reported expression with two values). Missing in the partial one: writes by two operands, reads behind `&` and captures of closures, which are not looked for (`twice_missed`, `addr_missed`, `closure_missed`).
C114 (`duration_suboptimal_units`; `Units/`). Modelled: the tables of units, `promote` and the conditions of `check_expr` for a call whose argument is known; constant evaluation of the argument is a given value. The specification says how many nanoseconds each unit has and when its constructor exists. Proved by induction over the remaining units: `promote_same`, `promote_largest`, `promote_found`, `report_iff`, `suggestion_same` (the same duration and a smaller number) and `no_panic`.
C115 (`manual_is_ascii_check`; `Ascii/`). Modelled: `check_pat`, `check_range`, `check_lit_range`, `check_is_ascii` and the two shapes of `check_expr`; versions and types are left out, closures' parameters only change the text. The specification says which characters a pattern matches and which ones a method accepts. Proved by induction over patterns: `same_partial` (the same characters), `found` (every order of the alternatives is recognised). Missing in the partial one: guards of `matches!`, which are dropped (`guard_missed`; `guarded` is what is left).
C116 (`no_effect`, `unnecessary_operation`; `NoEffect/`). Modelled: `is_operator_overridden`, `has_no_effect`, `reduce_expression`, `check_unnecessary_operation` and the part of `check_no_effect` for expression statements; `no_effect_underscore_binding`, code from macros, and partial moves out of variables are left out. The specification evaluates expressions in a world that calls and destructors change, with temporaries dropped at the end of the statement. Proved by induction over expressions: `no_effect_partial`, `reduced_partial`, `assert_same` (the assertion suggested for `a[b];`) and `found` (what is reported to have no effect). Missing in the partial ones: user code behind operators, destructors and closures (`deref_missed`, `index_missed`, `closure_missed`, `tuple_drop`, `borrow_drop`, `nested_overload`).
C117 (`octal_escapes`; `Octal/`). Modelled: the scan of `check_expr` with its offsets, and the texts of both suggestions; literals whose text isn't in the source are left out. The specification reads literals with an automaton for all kinds of escapes (`decode`). Proved by induction over the length of the rest: `report_iff` (what is reported, and where), `hex_right`, `null_partial`. Missing in the partial one: one digit, where the suggestion is wrong (`null_wrong`, for every such report).
C118 (`needless_bool`, `needless_bool_assign`; `BoolIf/`). Modelled: `check_expr`, `check_block` and their helpers; comments, macros and parentheses of the suggestions are left out (negation and parentheses are C16 and C53), equal places are those with the same text. The specification evaluates expressions with `return` in a world. Proved: `bools_same`, `always_same`, `assigns_same`, and `guard_partial` for blocks in any tail position of a function, by induction over the surrounding expression (`tail_same`). Missing in the partial one: blocks that aren't at the end of the function, which the code doesn't exclude (`inner_block`).
C119 (`Satur/`): `manual_saturating_arithmetic.rs` with the computation of the bounds in `u128`, the literals that are taken for bounds, and the table of operations, signs and bounds. `Satur/Spec.lean` has the types with their bounds, the exact results, `checked_op(..).unwrap_or(..)` and `saturating_op`. `vals`: the bounds computed with shifts and masks are those of the type (ten types, checked by the kernel). `saturating_partial` and `default_same`: the replacement has the same value for all operands. `found`: what is written as the fitting bound is reported. `neg_max_wrong` and `other_type_wrong` are the exceptions (see Findings). Not modelled: which methods are meant by the names, parsing of literals, constants of other crates; `usize` is one of the widths.
C120 (`VarAnd/`): `manual_is_variant_and.rs`, all five checks with the functions that are given and their inversion. `VarAnd/Spec.lean` has the expressions and runs them in a world that receivers and functions may change; bodies of closures may return early. `variant_partial`: the suggested expression has the same value and leaves the same world, under three conditions. `err_wrong`, `return_wrong` and `twice_wrong` show that each of them is needed (see Findings). `found`: all forms are reported; `idempotent`: what is suggested isn't. Not modelled: types and borrows, versions of the compiler, the simplification of negated comparisons, panics.
C121 (`Chains/`): `obfuscated_if_else.rs`, `map_unwrap_or.rs`, `manual_option_zip.rs` and `option_if_let_else.rs`: which chains are replaced by what, with the tests for eager code as a parameter. `Chains/Spec.lean` runs the chains, `if`s and matches in a world that code changes; code may leave the closure or function it is in. `if_partial`, `map_or_partial`, `zip_partial`, `match_partial`: the replacement does the same if what is called eager has no effects (C41 is about that) and under one more condition each; `return_wrong`, `order_wrong`, `swapped_wrong`, `omitted_wrong` and `wild_wrong` show that those are needed (see Findings). `if_found` and `zip_only` say what is reported. Not modelled: moves and borrows (the visitors for referenced variables and the captures are parameters or left out), `as_ref` and `as_mut`, types, versions of the compiler, parentheses.
C122 (Bulk). Three small languages. (1) `while !r.is_empty() { first; rest }` where the first statement is a `let` with or without `else`, a call with arguments, or something else; receivers, arguments, patterns and bodies are arbitrary functions of variables and a world, bodies end normally, with `continue`, `break` or by leaving the function, and loops run for at most n rounds. `while_partial` proves, by induction on n and on the arguments, that the suggested `while let` does the same if the receiver has no effects, the `let` has no `else`, the arguments before the pop neither do anything nor look at the vector, and nothing mentions `element`. `while_found` says which loops are found. (2) Conditional pops on vectors, queues and sorted heaps in the four forms. `same_end` proves that the methods of a finding exist and are about the same end, `pop_if_partial` that the result is the same without patterns below the variable, without a tail and without conditions that leave the function; `pop_if_found` covers all four ends. (3) Loops over a slice by index or by reference. `fill_partial` proves that they do what `fill` does if the index is the variable of the loop. Left out: types of elements and references, `expect` messages, comments, versions, loops over `&mut` of other collections.
C123 (Chars). Texts are lists of characters. (1) Chains of `replace` with methods between them: the model follows the visitor that collects the calls. `collapse_iff` proves that replacing characters one after the other is replacing any of them, for every text, exactly if each later character isn't in the new text or is all of it; `collapse_partial` and `collapse_found` carry this over to the suggestion. (2) `no_effect_partial`: replacing a text by itself, for texts with any search by prefix, changes nothing. (3) Closures made of `is_ascii`, negations and blocks with renamings: `ascii_same` proves the answer for all texts by induction on the body. (4) `compare_same` and `compare_unwrap_partial` for the first and last character. (5) The meaning of character and string literals is given by inductive relations with all escapes, lines that are continued and raw strings; `literal_partial` proves that the converted literal means the one character of a literal on one line, `repeat_same` the reverse, `any_partial` and `any_only` that the alternatives printed with `{:?}` are literals of the characters. Left out: types of receivers, calls of `replace` in arguments, byte offsets (the delimiters are ASCII), the exact set of printable characters (a parameter).
C124 (immediate calls, literal unwraps, extremes; `Redex`). Spec: a language with closures, calls, variants, `return` and calls of the program, with a big-step relation over values, a world and four ways to end; `Same` says that two expressions do the same in every program. Texts are read with the parser of C16's specification (`Sugg.Grammar`). Model: `contains_early_return`, `find_innermost_closure`, `get_parent_call_exprs` and the hint of redundant_closure_call.rs (no async closures, no macros), the table of unnecessary_literal_unwrap.rs for receivers written in place, `detect_extrema` and `lint` of unnecessary_min_or_max.rs (constants are literals). Theorems: `closure_partial` (n closures called n times, for every n, are reported and replaced by an equivalent body), `closure_only`, `none_partial`, `panic_same`, `content_partial`, `extreme_partial`, `extreme_found`, `operand_read` and `parenthesized_read` (a suggestion that is one operand is read as a whole in every text, by induction on the grammar), `alone_read`. Counterexamples: `calls_left_over`, `return_left_over`, `argument_lost`, `error_taken`, `error_taken_also`, `return_escapes`, `effect_lost`, `operand_lost`, `bare_misread`. Not modelled: what panics print (`None.expect("{x}")` becomes `panic!("{x}")`), `break`, drops, constants other than literals.
C125 (filter_map, find_map and searches; `Sift`). Spec: a language of closure bodies (parameter, paths, effectful expressions, `Some`, `None`, `then_some`, `then`, `if`, `match`, sequences, labels, `break`, `return`, assignments to the parameter) with an evaluator over values, a world and the ways to leave an expression; iterators are sequences of items that are made when asked for, consumers may stop or panic at each item; `filterMap`, `map`, `filter`, `anyOf`, `findFirst`, `indexFrom` are defined on them. `OnlyMaps`: there is a function for `map` with the same run for every consumer; `OnlyFilters`, `DoesNothing` in the same way. Model: `check_expression`, the search for `return`s, the test for mutation and the table of reports of unnecessary_filter_map.rs; `contains_return` and the split of filter_map_bool_then.rs; the method and negation of search_is_some.rs (the text of the closure is kept as it is). Theorems: `map_partial`, `filter_partial`, `unneeded_partial`, `find_map_needed`, `then_partial`, `then_found`, `search_same`, `rposition_partial`. Counterexamples: `label_lost`, `return_lost`, `constant_lost`, `assignment_lost`, `order_changed`. Not modelled: the type that decides whether a `filter` suggestion is possible (`sameType`, `movable` and `disjoint` are inputs), adjustments of `&` in the closures of `search_is_some`, strings (`find` on `str`).
C126 (drop order; `Drops`). Spec: types with fields, components, contents and `impl Drop`; `Glue` is the least relation that says whose code may run when a value is dropped. An expression language with places, temporaries, automatic borrows, blocks, matches and statements; the evaluator gives the type of the value, the list of temporaries that are left for the end of the statement (in the order of their drops) and the world, for both editions. `Sem` has two laws: a moved variable is not dropped, `()` is dropped without effect. Model: `needs_ordered_drop` with its set of types seen (a number of nested calls bounds it, `has_significant_drop` is an input), `for_each_unconsumed_temporary`, both semicolon lints, `let_and_return` with `last_statement_borrows`, the condition of `could_be_while_let`. Theorems: `ordered_sound` (by an invariant of the search: what was seen is closed), `ordered_only`, `ordered_ends` (for finitely many types), `right_answers`, `visited_partial`, `temporaries_inert_partial`, `inside_partial`, `inside_found`, `inside_2024`, `inside_2021_alone`, `outside_partial`, `let_return_2024` (in full), `let_return_2021_partial`, `while_let_partial`. Counterexamples: `repeat_unseen`, `constant_unseen`, `self_unseen`, `inside_2021`, `inside_2024_value`, `outside_label`, `let_return_2021`, `while_let_constant`, `last_let_else`. Not modelled: extended temporaries (`let x = &f();`), values that are moved out in part, panics and jumps, borrow checking.
C127 (sorting; `SortBy`). Spec: an expression language with variables, paths with generic arguments, calls, methods, lazy and other operators, casts, fields, borrows; the evaluator threads a world, so everything may have effects; patterns bind variables. `less` is the question that `sort_by`, `sort_by_key` (with `Reverse`) and `sort` ask; `SameSort` says that no algorithm can tell two ways of sorting apart. `Sem` has the law that comparisons look through references. Model: `mapping_of_mirrored_pats` (a list of pairs for the hash map), `mirrored_exprs` for both directions, `detect_lint` with the answers of the type checker as inputs, the choice of the method. Theorems: `sort_same` (in full), `sorted_partial` (same answers and same effects in the same order for machine-applicable suggestions; for keys without effects also for reversed ones), `reversed_marked`, `stability`, `mirrored_found` (all simple expressions are found). Counterexamples: `cast_lost`, `borrow_lost`, `generics_lost`, `prefix_lost`, `length_lost`, `subpattern_lost`, `reversed_effects`. Not modelled: `DropTemps`, binding modes (`ref`), hygiene of names, the borrow checker, `cmp` that disagrees with `lt`.
C128 (durations and instants; `Times`). Durations are numbers of nanoseconds with `none` for a panic; `Spec.std` gives the
value of every constructor (64-bit seconds, so too many minutes panic; floating-point seconds are an arbitrary partial
function), worlds have a clock. The model has `const_eval_duration` (clippy calls the constructors itself, so a panic there is a
crash of clippy; `days * 24` wraps or panics depending on how clippy is built), `check_expr`, the test for chains, and
`duration_subsec`. Proved: with checks for overflow the computed durations are the program's (`eval_right`) and clippy only panics where the
program would (`crash_only`); all integer constants are known (`constants_known`); what is said about constants is true
(`said_partial`); `checked_sub().unwrap()` is the subtraction for durations and instants (`unchecked_same`), suggested except for chains
(`suggested_iff`); `elapsed()` only for `Instant::now()` (`elapsed_only`) and the same for operands that take no time (`elapsed_partial`); parts of a
second: exact (`subsec_same`) and complete (`subsec_all`). Not modelled: macros, the MSRV, the texts of operands.
C129 (filter and map merged; `Merge`). Spec: closures over one item with effects and panics, `two` (filter then map), `one` (filter_map)
and `flat` (flatten) for one item, `run` over all items with a consumer that decides after each item whether to go on (so `find(..).map(..)` is
included). The model is filter_map.rs as a whole: `is_method`, `hir`, `check_map_call` with the comparison modulo `*x`, the
suggestions and their applicability. Proved: `flatten_partial` (functions of the standard library, items that are options or results), `some_partial`, `ok_partial`,
`pattern_partial`; `effects_marked`; `merged_found` and `pattern_found` (the intended forms are found), `variant_kept`. Not modelled: types (the theorems
assume that receivers are options or results), references, texts.
C130 (casts, widths and bits; `Widths`). Spec: integer types of a fixed width or the width of pointers, `castTo` as the number with the same
lowest bits, comparisons of integers, leading zeros counted bit by bit, `IsWidth` (the least number of bits) and `IsLowest` (only the lowest one is
left) as relations. The model has the four lints, with the bounds of `usize` taken from clippy's own machine. Proved: claims are true for all values if the cast stays
within the bounds of the old type (`said_partial`; widening casts do, `widens_tame`), every constant comparison after a widening cast is found
(`always_found`), nothing is said for casts of the same size; `width_same`, `width_unique`, `width_marked`; `lowest_same`, `lowest_unique`, `isolate_partial`,
`isolate_found`; `modulo_said`. Not modelled: macros, MSRV, how constants are evaluated (C19).
C131 (`Fill`) models slow_vector_initialization.rs: the visitor with its flag over statements, nested blocks and the expression at the end of
a block, and the comparison of lengths. The specification runs allocations, `resize`, `extend` and `vec![0; n]` on the contents of vectors.
Proved: `reported_iff` (when a statement follows in the same block: exactly the statements that fill the same vector, with the length shown),
`other_between`, `nested_after`, `filled_same_partial` (same contents and effects for quiet lengths that do not look at the vector and are no
capacities), `plain_quiet`. Not modelled: types and literal suffixes, macros, comments (only the applicability depends on them).
C132 (`Assign`) models operators/assign_op_pattern.rs (the count of equal expressions, the two shapes, the list of operators that commute, the
closure that checks the traits), operators/misrefactored_assign_op.rs and operators/self_assignment.rs. The specification runs assignments on
memory: for `p = e` the value comes before the place, for a built-in `p op= e` the operand before the place, for others the place first. Proved:
`reported`, `all_reported`, `one_suggestion`, `left_same_partial` and `checked_same_partial` (operands that change nothing), `right_same` (no such
condition), `trait_same_partial`, `long_same_partial`, `short_means`, `misrefactored_iff`, `self_nothing`. Types, borrows and stability in constants are
parameters; places with calls inside are not modelled (`eq_expr_value` never accepts them).
C133 (`BoolText`) models bool_comparison.rs (the tables for `==`, `!=`, `<`, `>`), operators/needless_bitwise_bool.rs and the negation of
suggestions in sugg.rs. The specification has texts — operands with operators between them — and reads them by levels of precedence; `Fits` says
that a tree needs no further parentheses and `meaning_text` that its text then means the tree. Proved: `compared_partial` (values, unless a
comparison of floating-point numbers is negated), `context_partial` (the whole text, unless an operand has `&&` or `||` in its parentheses),
`compared_iff`, `lazy_partial`, `lazy_enclosed` (alone or in its own parentheses always right), `lazy_quiet`. Effects and panics are not modelled (the
operands are evaluated in the same order; whether a right operand has effects is a parameter), nor are macros.
C134 (`Empty`): operands (`x.len()`, other methods, variables, numbers, strings, arrays), their values (numbers or lists) and the six operators, with
the dictionary order for lists, are the specification; the table of operators and the four functions of `len_zero.rs` are the model. Proved: suggestions for
lengths are right for every operator (`length_same`), those for `==`/`!=`, `.eq`/`.ne` and `if let "" = x` are right for sequences too
(`equal_same`, `method_same`, `let_same`), `x > ""` and `"" < x` are right (`suggested_partial`), and every test for a zero length is found except `<= 0`
(`found_partial`: the comparison has to say, for all lengths, whether it is zero). Not modelled: macros, references around operands, MSRV of `is_empty` in
constants, text.
C135 (`ForEach`): a small language of bodies (assignments, output, sequences, conditions, loops, `break`, `continue`, `return e`, inner closures) with
its meaning, `for_each`, `for_each(move …)` and `for` are the specification; `RetCollector` and `check_expr` of `needless_for_each.rs` are the model. Proved: the
collector sees exactly the `return`s of the closure itself and those in loops (`visit_sees`), what is reported and when it is machine
applicable (`reported`), the loop equals the call for closures that are not `move` and have plain `return`s (`suggested_partial`), `move` closures as far as they do not
assign (`move_partial`). Not modelled: text of patterns and bodies (macro calls, `_ = e`), labels of blocks, panics.
C136 (`Names`): similarity of names (number of differing positions, one inserted character, characters that look alike, exemptions) and an inductive
description `Walk` of the bindings of nested blocks, with the environment passed down, are the specification; `non_expressive_names.rs` with its iterators, `expect`s (`none`) and
truncated vectors is the model. Proved: the comparison of equally long names (`equal_iff`) and of names with one character more (`lev_iff`) decide exactly the specification and never
panic; the whole condition (`goesOn_iff`) is right and the similarity symmetric (`similar_symm`); the visitor does what `Walk` says (`function_reports`), which leaves no
choice (`walk_unique`), reports only what is justified (`reports_justified`) and keeps the visible names apart (`visible_distinct`). Not modelled: patterns and the expressions in
which blocks stand (bindings come in order), macros; Unicode classes are parameters.
C137 (`DocWords`): a slice of a text with what is before and after it, and what a word that looks like code is, are the specification; `doc/markdown.rs`, with byte lengths, `str::get` and
the trimming functions, is the model. Proved: the words are exactly the parts between separators (`words_of_text`); each report is for a part of the text at its place
(`report_in_text`); no letter is left outside unless a colon is cut off at the end while a parenthesis is open (`whole_word_partial`); punctuation is taken off, except for `()`
(`punctuation_off`), missing closing parentheses are taken in (`parentheses`); exactly the words that look like code are reported (`word_iff`, `all_reported`, `skipped_iff`), and plurals of acronyms
do not look like code (`acronyms`). Not modelled: the markdown parser, the recognition of addresses, the span of the fragment in the source.
C138 (`Safety`): the lines of a text that count (`Relevant`), line comments outside of code (`Odd`), comments after code (`Trailing`), nested block comments (`Closes`) and what a documented
text is (`Documented`) are the specification, without positions in loops; `text_has_safety_comment` with `str::find`, `str::get`, slices (`none` is a panic) and its three
loops is the model. Proved: it finds exactly what is documented (`found_iff`), without a panic (`never_panics`), the text says `SAFETY:` at the position (`position`), a comment above
is found whatever is above and however many empty lines and attributes are below (`line_above`), and nothing is found without a comment (`none_above`); there is
at most one answer (`documented_unique`). Not modelled: which lines are handed to the search (spans, macros), parents of blocks, `Maybe`.
C139 (`Returns`): an evaluator of expressions with loops, breaks to labels, returns and panics (bounded by a number of rounds, for all bounds) and what a caller sees are the specification; the
rewriting that `implicit_return.rs` suggests, with its two modes (in and outside of macro calls), is the model. Proved: the caller sees the same (`same`), one suggestion per macro call (`macro_once`), no value is left that
is returned implicitly, labelled blocks aside (`nothing_implicit_partial`), and the suggestions are complete (`fix_fix`). Simplified: labels are the number of loops and blocks between; matches are nested
`if`s; code passed to a macro counts as the macro's. Not modelled: `continue`, await, spans.
C140 (`Acronyms`): acronyms as factors of the name and letters inside an acronym by what is before and after them are the specification; the counting scan, the rewriting with one letter of lookahead and the
walk over items of `upper_case_acronyms.rs` are the model. Proved: which names are reported (`reported_iff`, `item_iff`, `item_repl`), that the replacement has the same letters (`same_letters`), changes exactly those inside an acronym
(`changed_iff`), is another name (`other_name`), has no acronym (`no_acronym`) and is not reported again (`settled`). Not modelled: spans, raw identifiers, whether the new name is free.
C141 (`StrCase`): the methods of the standard library over tables of Unicode (with the final sigma, and assumed to be such that case forms do not change again), the value of the scrutinee, which arm is taken and a reader of
literals are the specification; the visitor, the checks of texts, the choice of the arm and the suggestion of `match_str_case_mismatch.rs` are the model. Proved: which arm is reported (`reported_iff`, `not_strings`), that it is never taken (`never_taken`), what
the suggestion changes (`fixed`), progress (`later`) and how it reads (`reads`). The assumptions on the tables hold for a concrete table (`U0_sound`). Simplified: code other than the methods is a function of its parts; patterns other than
plain string literals (alternatives, bindings) match as they like. Not modelled: types, macros, the tables of Unicode themselves.
C142 (`CmpChain`): the block an `if` chain executes, comparisons at each step of an execution, and conditions that compare the same operands are the specification; `if_sequence` and the test of neighbouring conditions of
`comparison_chain.rs` are the model. Proved: which chains are reported (`reported_iff`), no panic (`no_panic`), the chain is a match on the suggested comparison (`as_match`). Simplified: equality of expressions (property of `HirEq`) is equality
of numbers. Not modelled: the text of the suggestion, which has placeholders; operands of two different types.
C143 (`Modulo`): the truncating and flooring remainders of Lean's integers, what a program sees of a remainder, and values that agree with what is known are the specification; `modulo_arithmetic.rs` is the model (with `sext` from the model
of constants, `Consts`). Proved: silence means independence of the convention (`silent_same_partial`: the first operand is no reference), `unsigned_silent`, no panic and correct reports for constants (`report_consts`), and that these remainders differ
(`report_differs`). Not modelled: floats beyond their sign, the text of constants, operands of other types.
C144 (`LazyDoc`): containers, a reader of line starts as in CommonMark (`strip`), the usual start of a line and the application of a suggestion are the specification; `lazy_continuation.rs` is the model. Proved: `silent_iff`,
`settled` (for every text: the loop keeps or suggests one marker per quote), `completes` (outer containers written in the usual way), `no_panic` (items of at most 18 columns). Not modelled: the events of the parser of Markdown, how the
columns of an item are found (doc/mod.rs), footnotes and tabs, which are excluded before the call, positions in the source.
C145 (`DocEnd`): documents as trees of blocks, their events, what a text ends with (a relation, `Ends`) and which paragraphs lack a mark are the specification; `is_missing_punctuation` over the events is the model. Proved by induction over
the document: `complete` (nothing missed), `sound` (reports are ends of paragraphs that lack a mark), `exact_partial` (equality; missing: paragraphs in lists and footnotes and paragraphs with nothing that decides, where it is false), `fixed`.
Not modelled: the parser of Markdown (its events are taken as the flattened tree), bytes (places are numbers of characters), white space beyond a parameter, positions in the source.
C146 (`FmtLit`): texts before, name, format and text after are the specification of a placeholder, with what should be found; the part of `check_expr` for one argument, in bytes and with the panics of slices, and `emit_lint` are the model. Proved:
`place`, `no_format`, `only_format`, `escape_skipped`, `mem_emit`, `no_panic_ascii`, and about names with formats `name_ignored` and `never_the_name`, the negation of what is meant. Not modelled: the parser of format strings (the position it
gives is an input), how it goes on after errors, the opening of the literal.
C147 (`Prio`): settings of rows, the orders in which Cargo may hand them over and the level of a lint (last setting that concerns it) are the specification; `LintConfig::parse` and `check_table` are the model. Proved: `report_true`, `reported`,
`order_irrelevant_partial` (missing: groups that contradict each other, which are not compared), `applied_lower_partial` and `applied_settles_partial` (missing: lints with priority `i64::MIN`). Not modelled: parsing TOML, finding the
tables, positions and labels.
C148 (`ByteStr`). Modelled: `clippy_lints/src/byte_char_slices.rs`: the collection of the texts of the elements, the pieces with the replacement of quotes, and the suggestion. Not modelled: the macro that surrounds the array, how parents are found (the site says whether the array is borrowed or used as a slice). The specification reads byte literals and byte strings as the reference of the language does (escapes, hexadecimal, characters that are not allowed); continuation lines are left out, since no byte literal has them. Proved: `same_bytes`, with `read_piece` for one element; `dereferenced`; `reported_iff`.
C149 (`CStrLit`). Modelled: `rewrite_as_cstr` and `is_nul_terminated` of `clippy_lints/src/methods/manual_c_str_literals.rs`, on the text of the literal and its bytes. Not modelled: the calls around the literal, literals of strings (with characters beyond ASCII and `\u{…}`), continuation lines (a literal that ends with one is not rewritten). The specification reads the text as C148 does, and a C string literal is the same without NUL inside. Proved: the text loses exactly the way NUL is written at its end (`rewrite_eq`, from `last_nul`, which takes apart the end of any text that is read), it is rewritten exactly if the last byte is NUL (`rewritten_iff`), and the bytes are the same if there is no other NUL (`same_bytes_partial`); with one, the suggestion is no literal (`inner_nul`).
C150 (`Nesting`). Modelled: all of `clippy_lints/src/excessive_nesting.rs`: the visitor with its level and the set of nodes, the threshold zero, and the test whether a node is in the set. Simplified: a crate is a forest of nodes of five kinds (blocks without braces of their own count as made by a macro), levels are natural numbers. The specification only speaks of paths from an item to a node: the depth is the number of levels since the last module in another file. Proved by induction over trees with the state of the visitor: `reported_iff`, `linted_iff`, `level_kept`, `covered`, `one_on_path`, `zero_off`.
C151 (`DocLink`). Modelled: all of `clippy_lints/src/doc/broken_link.rs` on the text from the start of the link on, with the length of the reported range. Not modelled: which links the reader of Markdown calls broken, and the map from ranges to places in the source (one flag). The specification describes texts by their parts. Proved: exactly when a range of some length is reported (`warn_iff`), `urls_reported`, `only_broken_partial`, `whole_silent`, `range_partial`, `unmapped_silent`; and what is false: `not_only_urls`, `second_paren`, `range_short`.
C152 (`Footnote`). Modelled: the search, the tests at a bracket, `all_numbers_upto_brace` and the choice of the fragment in `clippy_lints/src/doc/doc_suspicious_footnotes.rs`, on bytes. Not modelled: how the text is made of comments (outside of the repository; a fragment has the length of its text and the number of bytes it gives), the texts of the suggestions, places in the source. Proved: exactly when a bracket is reported (`report_iff`), `only_refs`, `refs_partial`, every bracket of the range is looked at (`check_mem`), and the fragment is the right one if fragments give as many bytes as they are long (`fragment_partial`); what is false: `start_overflow`, `escaped_backslash`, `other_fragment`.
C153 (`OpenOpts`). Modelled: `clippy_lints/src/methods/open_options.rs`: the collection of the calls from the last to the first, the map with the repeated calls, and the three tests. Not modelled: types and paths (a chain begins with a known constructor or not, a call is one of the six, passed over, or strange), texts. The specification runs the calls in order on a record, with any values for what is not a literal, and has the rules of the standard library for creation. Proved: `check_iff`, `get_first` (the map has the first call of the program), `truncate_read_partial`, `append_truncate_partial`, `create_partial`, the reports that must come (`truncate_read_reported`, `append_truncate_reported`, `create_reported`), `once_no_dups`, `twice_dups`; what is false: `later_call`, `new_file`.
C154 (`StructOrd`). Modelled: all of `clippy_lints/src/inconsistent_struct_constructor.rs` but the conditions on macros, types and levels of lints: the map of the order, the test for order, the sort (as an insertion sort), the text of the suggestion, and when it is for machines. The specification has the position in the definition, texts as pieces with separators, and constructors as programs that run their fields in order on a state. Proved: `reported_iff`, `settles`, `new_text`, `same_value`, with `look_idx` (the map has the positions); `order_matters` shows why suggestions with other fields are not for machines.
C155 (`ModFile`). Modelled: the two stacks of `clippy_lints/src/module_style.rs`, pushing and popping around what is inside of a module, and the folder that `check_inline_module` suggests. Not modelled: modules with a `path` attribute, files that are not below the working directory, and the two lints on the style of files. Folders are lists of names; the folder of the file of a module is where the language finds it. The specification has paths in trees of modules and the folder of a module, which is simply all names around. Proved: `reported_iff` (which modules, and with which folder), `right_folder_partial` and `reported_folder_partial` (the folder is the one of the language, if files come first), `right_folder_only` (and only then), with `visit_good` (stacks are restored).
C156 (`DupMod`). Modelled: the map from files to items in `clippy_lints/src/duplicate_mod.rs` (as a list in order of keys), the filter by level, the report with its first place, and the expectations. Not modelled: how the path of a file is made canonical; a file is a number. The specification has the items that load a file and those of them that are not silent, as filters of the list of items. Proved: `reported_iff`, `reports_ordered`, `expects_iff`, from `map_good` (the map after all items); `silent_one` is the remark that one silent item of two silences the other.

## Findings

Places where the code does not satisfy its property, each with a kernel-checked witness.

* C01 — a flag that ends in `__CLIPPY_HACKERY` makes the marker overlap itself; the flag list does not
  survive the environment variable (`Cli.decode_encode_violated`).
* C05 — the deprecated key `lint-inconsistent-struct-field-initializers` (conf.rs:591) has no effect
  (`Config.deprecated_key_ignored`).
* C09 — `NumericLiteral::new` mis-splits signed non-decimal text such as `-0xABCDE`
  (`NumLit.signed_hex_broken`); today's callers do not pass such text.
* C11 — `needless_raw_string_hashes` removes too many hashes for contents such as `""#`
  (`TextLints.raw_hashes_violated`, `TextLints.raw_hashes_violated_separated`).
* C13 — `reindent_multiline` drops trailing blank lines and carriage returns at line ends
  (`TextLints.reindent_loses_blank_lines`, `TextLints.reindent_changes_cr`).
* C52 — for fields `a_x_`, `b_x_` the reported postfix is `x__`, which no field ends with
  (`StrUtils.field_postfix_wrong`); a reported variant prefix may be a whole variant name
  (`StrUtils.enum_whole_name`).
* C16 — `make_assoc` treats comparisons as left associative (`a < b == c` is printed, a syntax error:
  `Sugg.chained_comparison`), prints `x as T < y` (a syntax error: `Sugg.cast_less`), and drops the
  parentheses of `a * (b / c * d)` (`Sugg.mul_div`, reachable through `misrefactored_assign_op` for
  `a *= b / c * a`) and of `a + (b + c)`, which can newly overflow (`Sugg.add_reassociated`). A closure as
  left operand swallows the operator (`Sugg.closure_operand`).
* C17 — `has_enclosing_paren` accepts text whose first parenthesis is never closed, which happens for
  parentheses in literals: `('(', 1).0` (`Sugg.unclosed_counts`).
* C53 — `!(a < b)` becomes `a >= b` also for floats (`Sugg.not_float`); `!(x as T >= y)` becomes
  `x as T < y` (`Sugg.not_cast`).
* C18 — a shift amount is truncated to the width of the *shifted* type before it is checked: `1i8 << 256`
  is folded to `1` (`Consts.shift_amount_wraps`). Overflow of `isize`/`usize` is judged with the host's
  width, not the target's (`Consts.cross_width`).
* C19 — two `[x; 0]` arrays are ordered by `x` (`Consts.empty_repeat`).
* C20 — `is_numeric_min` misses the minimum of a signed type (`Consts.numeric_min_missed`).
* C23 — `x < y || x > y` becomes `x != y` also for floats (`Ops.double_not_equal`).
* C24 — for every `>`/`<=` comparison with an unsigned `&`/`|` mask that is reported, "always false" and
  "always true" are exchanged (bit_mask.rs:94-99; `Ops.gt_inverted`, `Ops.gt_inverted_witness`: `x & 1 > 2`).
  `x & 0 > -1` is called always false (`Ops.and_zero_negative`).
* C25 — `identity_op` takes `lv.abs()` of an `i128`: for `i128::MIN` a clippy built without overflow checks
  reports a remainder that has an effect (`Ops.remainder_min`), one built with them panics; `erasing_op` reports `0 / 0`, which panics
  (`Ops.erasing_div`).
* C27 — the float exemption does not look through references, so `!(a <= x && x <= b)` forms over `&f64` change
  value for NaN (`Ranges.negated_partial_order`); parentheses inside character literals are counted
  (`Ranges.paren_literal`).
* C28 — `v[3..=2]` is reported as a panic, but evaluates to an empty slice (`Ranges.reversed_index`).
* C29 — `x <= i8::MAX as u32 && x >= i8::MIN as u32` becomes `i8::try_from(x).is_ok()` though it accepts other
  values (`IntLints.unsigned_pair_wrong`); so does `x <= u32::MAX as i32 && x >= 0`, where the limit is truncated by
  the cast (`IntLints.limit_truncated`).
* C30 — `manual_clamp` never checks that the assigned variable is the compared one: `if y < 0 { x = 0 } if y > 10
  { x = 10 }` becomes `x = x.clamp(0, 10)` (`Clamp.two_if_violation`) and the `else if` form becomes
  `x = y.clamp(0, 10)` (`Clamp.if_assign_violation`). `x.max(0.0).min(10.0)` differs for NaN
  (`Clamp.float_min_max_violation`; the lint prints a note).
* C32 — `implicit_saturating_add`/`_sub` print only the first segment of a compared path
  (`IntLints.path_truncated`).
* C33 — `manual_rotate` fires for signed operands, whose `>>` copies the sign (`IntLints.rotate_signed`), and accepts
  `^`-ed shift amounts as if they were differences (`IntLints.rotate_xor`).
* C34 — with the `int_roundings` feature `manual_div_ceil` fires for signed operands, where truncation towards zero
  differs (`IntLints.div_ceil_negative`, `IntLints.div_ceil_negative_divisor`). `manual_is_power_of_two` changes the
  answer for 0 in builds without overflow checks (`IntLints.power_of_two_wrapping`).
* C35 — `nonminimal_bool` turns `!(x < y && !b)` into `b || x >= y` also for floats (`Booleans.float_violation`),
  `!(x + y as T >= z && !b)` into `b || x + y as T < z`, a syntax error (`Booleans.cast_violation`), and the
  parenthesised operand of `x ^ (a && !!b)` into `a && b` without parentheses (`Booleans.context_violation`). The
  suggestions have applicability `Unspecified`.
* C36 — with an alternative at `i128::MAX` the counter `num + 1` of `manual_range_patterns`
  overflows: a panic in a build with overflow checks, silent otherwise (`Pats.overflow_at_max`).
* C38 — suggestions of `match_same_arms` (all `MaybeIncorrect`) that change the result of a match: two arms that
  overlap each other, the first of which also overlaps an arm in between (`Pats.split_violation`: only index 0 is
  treated specially at match_same_arms.rs:144-146); groups of three or more, whose members are compared with the
  first only (`Pats.group_remove_violation`, `Pats.group_merge_violation`), also after `allow`ed arms have been
  dropped (`Pats.allow_violation`); `..0` against `..5` for signed integers (`Pats.open_start_violation`); two
  constants with one value (`Pats.const_violation`); `S(1)` against `S { 0: 1 }` (`Pats.syntax_violation`); `Self`
  against the name of the struct (`Pats.self_violation`).
* C39 — suggestions of `unnested_or_patterns` (`MachineApplicable`): the alternatives are tried in another order, so
  a variable can get another value (`Unnest.order_of_alternatives`, `(x, 0, 0) | (_, x, 1) | (x, 0, 1)`); with a
  duplicate alternative values are lost, because `unordered_over` checks only one direction
  (`Unnest.duplicate_alternative`, `(0 | 0 | 1, 5) | (0 | 1 | 2, 6)`); text that is not a pattern:
  `&(1..=3)` loses its parentheses (`Unnest.range_behind_reference`), so does `[(1..), 0]`
  (`Unnest.open_range_in_slice`), `Foo { x } | Foo { x: x @ 1 }` gives `Foo { x | x @ 1 }`
  (`Unnest.shorthand_field`), `[..] | [..]` gives `[.. | ..]` (`Unnest.duplicate_rest`). The claim about parentheses
  rests on the compiler's pretty printer printing only `Paren` nodes, which is not in this repository.
* C40 — `never_loop` reports loops that do run again: `loop { c && continue; break }` and `'a: { c || break 'a; return }`
  (the right side of `&&`/`||` is not looked at, `Flow.lazy_violation`, `Flow.lazy_block_violation`), a `continue` in a
  match guard (`Flow.guard_violation`) or in the operand of `yield` (`Flow.yield_violation`), and
  `a[{ return }] = continue` (the place is looked at before the value, but evaluated after it,
  `Flow.assign_violation`). Outside these cases a reported loop runs at most once
  (`Flow.reported_runs_once_partial`). In the other direction a loop without inner loops that cannot run twice is always
  reported (`Flow.once_is_reported_partial`); with inner loops it may be missed (`Flow.inner_loop_violation`).
* C41 — expressions taken to be fine to evaluate eagerly can be undefined behaviour when evaluated early: fields of
  unions (`Eager.union_violation`), `static mut` (`Eager.static_mut_violation`) and unsafe standard methods named `as_..`
  such as `NonNull::as_ref` (`Eager.nonnull_violation`). An expression taken to be better evaluated lazily can contain
  an `.await` or `break`, if it is automatically dereferenced (`Eager.await_violation`). A negated float literal is
  taken to be expensive, so `opt.or(Some(-1.0))` is reported by `or_fun_call` (`Eager.neg_float_violation`). A part of a
  dereferenced expression can be classified worse than the whole (`Eager.part_violation`).
* C42 — a generated text that contains the end marker makes the region grow on every run (`update_region_not_idempotent`).
* C48 — a callback that returns more than the length of the tail ends the iteration early and drops the rest of the slice
  (`sliceGroups_loses`); the callers in the repository never do.
* C51 — white space after the version, also the carriage return of a CRLF file, moves the start of the replaced range to the
  right: `version = "0.1.80"\r` becomes `version = ""0.1.81"\r` (`bump_crlf_violation`); enough of it hides the version
  (`bump_trailing_space_violation`). A comment after the version is erased (`bump_comment_violation`).
* C50 — an attribute in front of a declaration is not part of it: sorting leaves it where it is, and it becomes an attribute
  of the next item (`sort_file_attr_violation`). The condition on `src[..pos]` for removing one of two empty lines looks at the
  end of the first declaration for every gap, so in practice it never holds and two empty lines are left.
* C54 — with `\` as the separator a module can be declared twice (`genDecls_windows_violation`); a lint in `lib.rs` is
  registered as `crate::::NAME_INFO`, which is not a path (`genDecls_lib_violation`).
* C55 — an empty line in the list becomes a lone comma (`fmtSyms_blank_violation`); for an empty list, the end of a later item
  is taken as the end of the list, and its code is sorted (`fmtSyms_empty_violation`).
* C44 — the lint static or struct after a colon (`m::OLD_LINT`, `x:OLD_LINT`) is not renamed (`renameFile_static_violation`): the arm for
  `:` has consumed the identifier, and its fallback skips one more token. Every path `x::old` is renamed, also of a function with the
  same name, whose definition is not (`renameFile_path_violation`).
* C45 — when the module of an uplifted lint is deleted, `mod old;` is replaced by the new name instead of being removed, which is not
  valid Rust (`upliftFile_mod_violation`).
* C46 — `rename_lint` onto an existing lint prints "Renamed" but returns before the table is written (`rename_existing_violation`);
  deprecating the target of a rename leaves the rename pointing at it (`deprecate_target_violation`).
* C56 — the path buffer for `tests/ui-toml/` is cut back to the length of `tests/ui/`, so from the second directory on the wrong path is
  renamed or deleted (`deletedTests_toml_violation`).
* C49 — warnings with the same lint and line are compared in the order of the files: the same warnings in another order are reported as
  changed (`diff_order_violation`).
* C57 — the links `N added`, `N removed`, `N changed` of a lint's section lead nowhere: the link ends in `-added` and the id of the heading
  in `-Added` (`section_links_violation`).
* C58 — the sort key pads counts to four digits only, so 10000 is sorted before 2000 (`stats_sorted_violation`).
* C59 — `u128 as usize` is never reported (only operands of exactly 64 bits are compared with pointers, `u128_to_usize`); `(x >> 1) as usize`
  of a `u64` isn't reported though it truncates with 32-bit pointers (`u64_to_usize32`); every method with one argument counts as one which
  doesn't exceed its receiver, `(x % 16).pow(8) as u8` (`method_not_min`); a nested cast is looked through with the width of the outer operand
  (`cast_inside`); a signed remainder `(x % 255) as i8` needs one more bit (`signed_remainder`); a mask of a negative number
  `((x >> 63) & 0xffff) as u8` (`mask_of_sign`); `(x % 200) as i8` of a `u64` wraps with all lints silent (`wrap_of_reduced`).
* C60 — without overflow checks a power called nonnegative can wrap to a negative number (`pow_wraps`).
* C61 — `u128 as isize` is silent (`silent_loses`); `u16 as f16` is reported as lossless and `i32 as f16` not as imprecise (`lossless_f16`,
  `precision_f16`; the code has a FIXME).
* C62 — `enum { A = 200 }` cast to `i8` gives -56 without any report (`enum_wraps`).
* C63 — equal but hashed differently: `a == b` and `b == a`, `a < b` and `b > a` (`hash_swapped`); `{}` and `()`, `unsafe { e }` and `{ e }`
  (`hash_blocks`); `S { a }` and `S { a, .. }`, `&'a T` and `&'b T` (`hash_patterns_types`).
* C64 — hence `a == b` and `b == a` are reported as the same condition if there are only two conditions, and aren't if there is a third one
  (`search_depends_on_others`).
* C65 — `x != 0 && 10 / x > 1` equals `10 / x > 1 && x != 0`, which panics for `x = 0` (`equal_not_defined`); whether `*`, `+`, … are commutative
  is decided by the type of the left operand alone, so that `2u32 * v` equals `v * 2u32` for a user's type but not the other way round
  (`equal_not_symmetric`, `equal_other_value`); labels of blocks aren't compared while labels of jumps are, so that
  `'a: { 'b: { break 'a; } x = 1; }` equals `'b: { 'a: { break 'a; } x = 1; }` (`equal_other_jumps`); names and number of fields of structs
  in const arguments aren't compared (`equal_other_fields`); a `const N` and a `static N`
  of different modules are equal whatever their values, since only names are compared when the kinds differ (`equal_other_kind`).
* C66 — a method `as_mut` of the user's type isn't seen to change a field: `if s.f.is_none() { *s.as_mut() = Some(1); s.f.unwrap() }` is reported to
  panic always (`Unwrap.Witness.wrong_as_mut`); an overloaded `&` is taken for that of `bool` (`wrong_overloaded`); for a call in the `else` branch
  the suggested `if let` takes the wrong branch for every value: `if x.is_none() { a } else { x.unwrap() }` becomes
  `if let Some(<item>) = x { a } else { x.unwrap() }` (`suggestion_else`; also in tests/ui/checked_unwrap/simple_conditionals.stderr).
* C67 — `manual_memcpy` drops `let` statements (`Memcpy.Witness.let_dropped`) and compound assignments to fields and elements
  (`increment_dropped`), although their effects are lost; two assignments that depend on each other across rounds are made independent
  (`dependent_wrong`); a base with a counter, `rows[count][i]`, is taken to be the same in all rounds (`rows_wrong`). The suggestion panics where the
  loop doesn't: if the range is empty and starts past the end (`empty_panics`); for `0..self.x.len()` and `self.y[i]`, since two places which aren't
  variables count as the same (`other_len_panics`); for `1..=dst.len()` and `dst[i - 1]`, always, since the end isn't included for `dst`
  (`closed_len_panics`); if `end - offset` underflows for a counter (`underflow_panics`). For `0..3` and `dst[i - k]`, `-k` is suggested, which
  doesn't compile (`negated_offset`). `is_array_length_equal_to_range` subtracts literals without a check, so that `5..3` makes clippy built with
  overflow checks panic.
* C68 — `explicit_counter_loop` reports variables which are not the number of the round: a use after the increment isn't seen when its parent isn't
  an expression, as in `let y = x;`, `S { f: x }`, the value of a block or an arm of `match` (`Counter.Witness.use_in_let`), nor when it is in a
  closure (`use_in_closure`); the increment may be behind `&&` or `||` (`inc_lazy`) or in a labelled block left by `break` (`inc_labelled`); methods
  which borrow the variable mutably don't count as changes (`autoref_before`, `init_autoref`). The initial value is taken from assignments which
  aren't executed: in a closure that isn't called (`init_closure`), in the `else` of `let … else` (`init_letElse`; the other visitor handles it),
  behind `&&` (`init_lazy`), in a labelled block (`init_labelled`). `(init..).zip(iter)` asks the range first and so panics (with overflow checks)
  when the counter is the largest number of its type in the end, e.g. with 255 elements and `0_u8` (`Counter.zip_panics`). Not in the model: without
  an annotation at the declaration the counter is taken for `usize`, even if it is used as another type or initialised by `0_u8`; then the
  suggestion (`MaybeIncorrect`) doesn't compile.
* C69 — `manual_swap` (machine applicable) drops `let t = a;` although `t` is used later, always for `mem::swap` (`Swap.Witness.mem_used_later`,
  `mem_used_index`), and for slices if the use is in an index other than a sum (`v[t as usize]`: `slice_cast`), in a closure (`slice_closure`) or in
  the value of the block (`slice_tail`); then it doesn't compile, or means another variable of this name. For `let mut t` it suggests `let t = t;`
  (`slice_mut`). If the second index depends on the first place, as in `v[v[0]]`, the statements don't swap (`dependent_index`, `xor_dependent`,
  `almost_dependent`). `v[i] ^= v[j]; …` sets `v[i]` to zero for `i = j`, while `v.swap(i, j)` has no effect (`xor_same`). `can_mut_borrow_both`
  takes `(*v)[0]` and `v[1]` for places in different variables, so `mem::swap` is suggested which doesn't pass the borrow checker (`deref_same`).
* C70 — the machine applicable suggestions of `missing_asserts_for_indexing` change behaviour: if the indices are in a conditional branch, the
  assertion panics although the branch isn't taken (`Asserts.Witness.conditional`); `if !(v.len() > 1) { return }` is taken for an assertion and
  replaced by one that panics (`leaves`), together with its `else` branch (`else_dropped`); assertions of equality and of upper bounds are replaced
  by other conditions (`equality`, `upper_bound`). A second assertion is ignored, even if it covers all indices (`second_ignored`). Not in the
  model: `debug_assert!(v.len() > n)` becomes `assert!`, and messages are dropped.
* C71 — `never_loop` (deny by default) reports loops that do loop (`Ctrl.Never.lazy_loops`, `guard_loops`, `chain_loops`, `assign_loops`). `never_loop_expr` looks only at the left side of `&&` and `||`, hence `loop { read() && { continue }; break; }` is reported although it runs as often as `read()` is true; for the same reason only the first condition of a `let` chain counts. Guards of match arms are not visited at all, so a `continue` in a guard is missed. For an assignment the left side is taken to run first, so a diverging left side hides a `continue` on the right, which in fact runs first.
* C72 — `needless_continue` shows wrong code in its help when the first branch declares a variable: in `if c { let y = f(); } else { continue; } show(y);` the last statement moves into the branch and shows the inner `y` (`merge_captures`, `merge_not_same`). When the branch ends in an expression without semicolon the code shown is no program (`merge_no_program`).
* C73 — `redundant_else` offers as applicable by machine a change of meaning when the `else` block declares an item: `f(); if c { return } else { fn f() {…} f(); }` becomes `f(); if c { return } fn f() {…} f();`, where the first call now means the inner function, because items are visible in their whole block (`Ctrl.Else.item_captured`, `machine_not_same`). With `let f = …;` around, the moved code calls the variable instead (`item_hidden`). Only `let` statements make the lint careful (`let_captured`).
* C74 — `collapsible_else_if` loses a semicolon: `else { if b { 5 } else { 6 }; }` becomes `else if b { 5 } else { 6 }`, whose value is no longer `()` (`Ctrl.Collapse.semi_value`, `else_if_not_same`); the change is offered as applicable by machine. `collapsible_if` breaks the text when whitespace follows the parenthesis of an inner `if`: `peel_parens_str` leaves that whitespace in place, and of `( if b { x(); } )` the two characters ` i` are replaced by `&&`, giving `&&f b { x(); }` (`space_breaks`).
* C75 — `needless_return` removes the semicolon of the last statement although its branches need it: `fn f() { if c { return; } else { 5 }; }` becomes `if c { } else { 5 }`, which has no type (`Ctrl.Return.edit_changes_type`); `match x { 0 => return (), _ => 5 };` likewise, since only a `return` without a value looks at the type of the `match`. The parentheses of `binary_expr_needs_parentheses` do not cover `return match x { … }[0]`, `return { f }(x)` and `return { a }..b`: the text left is read as two statements (`text_breaks`).
* C76 — as found for C41, `switch_to_eager_eval` calls things cheap that are not harmless: a field of a union (`is_flag.then(|| unsafe { u.flag })` becomes a read of an invalid `bool`; `Lazily.union_not_harmless`), `unsafe` functions of the standard library named `as_…` (`ok.then(|| unsafe { p.as_ref() })`, although `*p` is excluded; `unsafe_not_harmless`), and constants whose type has a destructor (`unwrap_or_else(|| CONST)`, although a constructor is excluded; the destructor then runs when the value is not needed; `const_not_harmless`).
* C76 — `switch_to_lazy_eval` does not look below an expression that goes through an overloaded `Deref`, so `or_fun_call` moves the `.await` (or `break`) of `opt.unwrap_or(f().await.trim())` into a closure, where it is not allowed; only `return` is looked for once more (`await_moved`).
* C77 — `arithmetic_side_effects` is silent about operations that panic: `literal_integer` looks through unary operators, so `x * -1`, `x / -1` and `x % -1` pass as operations with `1`, although they overflow for `MIN` (`SideFx.Witness.mul_minus_one`, `div_minus_one`); `0 - x` passes as an operation with zero, and a UI test has it so (`zero_sub`); shifts of integers are never reported (`shift_any`); a method call on a constant, `10i32.wrapping_div(y)`, passes whatever `y` is (`const_receiver`); closures and functions inside of constants and statics are skipped, so `static X: LazyLock<u32> = LazyLock::new(|| f() + 1)` is never looked at (`lazy_static`); `1usize + x as usize` for `x: u32` is compared with the `usize` of the machine clippy runs on (`host_size`); `1u64 + Wrapper::from(3u8)` passes although the operator is the user's (`user_operator`). The methods `shl`, `wrapping_div_euclid` and `overflowing_…` are not in the list; after a report at the argument, `(a + b).wrapping_div(c)`, the receiver is not checked.
* C78 — `only_used_in_recursion` treats `&&` and `||` like other operators, so in `f(n - 1, ok && log(n))` or `ok && log(n);` the parameter `ok` is reported although it decides whether `log` is called (`Recur.Witness.and_effect`, `and_statement`). It also reports parameters in operations that can panic, `f(n - 1, 10 / p)` (`div_panics`), and parameters with `p += 1` where `+=` is the user's and can have effects; only binary operators are checked for primitive types (`user_assign`).
* C79 — `infinite_iter` (deny by default) reports calls that return: `v.iter().cycle().count()` is `0` for an empty `v` (`Endless.Witness.empty_cycle`); `sum` and `product` into an `Option` or `Result` stop at the first `None` or `Err` (`option_sum`, unlike `collect`, whose type is looked at); methods are known by name only (`user_cycle`). On the other hand three entries of the table have wrong numbers of arguments, so that `inspect`, `skip_while` and `peekable` hide infinite iterators (`inspect_missed`, `skipWhile_missed`, `peekable_missed`); the code for closures in `flat_map` is never reached, since the table has an entry for it (`flatMap_missed`; the test file has such a line, without an expected error); and `zip` counts as finite with one finite iterator even if the other is filtered (`zip_filter`).
* C80 — where both bounds of a range are constants inside of the array, the code returns with the comment that they are proven to be in bounds, but `x[3..1]` always panics and is not reported (`Indexing.Witness.reversed`). Nothing is reported for arrays whose size is a generic constant (`x[0]` panics for `N = 0`, `generic`), for constants that are ranges (`x[R]` with `const R: Range<usize> = 2..9`: the evaluator gives a value, and the code leaves all constants to rustc, which only looks at items, `const_range`), and for `const` blocks (`const_block`). `indexing_slicing` reports `v[0..]` and `v[..0]`, which never panic (`harmless`).
* C81 — `match opt { _ => None, Some(x) => Some(x + 1) }` is replaced by `opt.map(|x| x + 1)` although its result is always `None` (`OptMatch.Witness.wild_first_changes`). `Some(x) => Some(get()(x))` is replaced by `.map(get())`, which calls `get` for `None` too (`function_called_changes`), and `Some((x.f)(x))` by `.map(x.f)`, where `x` is not bound (`function_of_variable`). `match &opt { Some(&x) => … }` for an `Option<&u32>` becomes `opt.as_ref().map(|&x| …)`, where `x` has one reference more (`amp_changes`). `manual_filter`: `if odd(x) { Some(x) } else { None }` becomes `.filter(o&dd)`, since the `&` is put after the first character of the text (`function_garbage`); if the type is not `Copy` the name of the function is passed as it is, and a negation is lost: `if odd(x) { None } else { Some(x) }` becomes `.filter(odd)` (`negation_lost`). `if let` conditions become closures with `let` as body (`let_condition`), `Some(mut x)` becomes `|&mut x|` (`mut_changes`), `match &mut opt` becomes `opt.as_mut().filter(|&x| …)`, which moves a mutable reference out of a shared one (`as_mut_changes`), and without `Copy` the closure gets a reference where the code had a value (`borrowed_changes`). For `and_then`, nobody asks whether the condition may be moved to a closure of another type: `?` and `return` are kept (`return_changes`).
* C82 — `get_some` accepts `Some(x @ p)` with any `p`: `match opt { Some(x @ 1..=5) => x, _ => 0 }` (and the same with `if let`) is replaced by `opt.unwrap_or(0)`, which is 9 for `Some(9)` (`OptMatch.Witness.sub_pattern_changes`). Outside of the model: a `Result` in a field is not protected by `safe_to_move_scrutinee`, so that `match self.res { Ok(n) => n, Err(_) => 0 }` becomes `self.res.unwrap_or(0)`, which moves the error out of `self`.
* C83 — `needless_match` changes code: `if let Some(1) = x { Some(1) } else { None }` becomes `x` although `Some(2)` gives `None` (`Needless.Witness.else_none_changes`: for an `Option`, `else { None }` is accepted after any pattern); `if let Some(a) = it.next() { Some(a) } else if let Some(b) = it.next() { Some(b) } else { None }` becomes `it.next()` (`chain_changes`: the expressions are compared with side effects allowed); `match x { 0.0 => 0.0, y => y }` loses a sign (`zero_changes`); `m => m::K` counts as the variable `m` (`path_changes`); and the search for a type that must agree goes on through calls, so that an operand of another type is replaced (`operand_changes`).
* C84 — `match x { Some(_) if g => false, _ => true }` is replaced by `x.is_none()`, and in the same way for all eight variants: for bodies `false` and `true` the guard of the second arm is taken, not that of the first, so that the guard is lost, in a suggestion marked as machine applicable (`BoolMatch.Witness.guard_dropped`).
* C85 — `question_mark` changes code: no `return` is asked for in `if`, so that `let y = if o.is_none() { None } else { o };` becomes `Some(o?)` (`TryOp.Witness.no_return`, and `no_return_stmt` for `{ None; }`); for a `Result` the first branch is dropped, `if let Ok(x) = r { 42 } else { return r; }` becomes `r?` (`branch_lost`); in the `else` of `if let Ok(x)` the name in `Err(x)` is compared as text, and is another variable (`outer_variable`, `no_return_err`); `if let Some(ref mut x) = o { *x = 5; } else { return None; }` becomes `let ref mut x = o?;`, which writes to a copy (`ref_mut_copy`), and so does `match &mut o { Some(x) => …, None => return None }`, which becomes `&mut o?` (`addr_copy`), and `let Some((ref x, _)) = o else …` (`hidden_ref`); a reference is matched through, but `?` does not take one (`reference_stuck`); `if r.is_err() { return r; } else { r }` becomes `Some(r?)` (`some_result`); `r.as_ref()?` returns a reference to the error (`err_reference`).
* C86 — `manual_let_else` proposes wrong patterns: variables in nested field patterns, slices and below `&` are not replaced, so that `P` is not declared (`LetElse.Witness.nested_field`, `in_slice`, `below_ref`); unused variables of the old pattern become visible (`more_variables`); `let mut v` with `Some(ref x)` becomes `Some(ref mut v)` (`ref_mut`), with `Some(mut x)` it becomes `Some(mut mut v)` (`mut_mut`), and `ref (v, w)` is written (`ref_tuple`); `let mut v = if let Some(x) = &o { x }` becomes `Some(mut v)`, which copies instead of borrowing (`mut_copies`); `let ref mut v` borrows `o` instead of a copy (`ref_in_place`); parentheses are lost in `x @ (1 | 2)` (`at_or`), the comma in `(x,)` (`one_tuple`), and `S { .. }` is printed as `S { , .. }` (`only_dots`); with the leaving arm first, the same variant in both arms no longer leaves (`same_variant`).
* C87 — `is_never_expr` walks through `&&` and `||` as if both sides ran: `{ ask || return }` counts as an expression without value (`Never.Witness.lazy_return`), and a `break` after `ask && return;` as code that is not reached (`lazy_break`). `manual_let_else` therefore proposes `let Some(v) = o else { ask || return };`, which is not accepted by the compiler.
* C88 — `infinite_loop` reports loops that are left: by `break 'outer` from an inner loop, because only `continue` is compared with the labels seen (`InfLoop.Witness.outer_label`: the middle of three loops); by `loop { break return }`, because the value of `break` is not visited (`break_value`); and by `become f()` (`become_leaves`).
* C89 — `[0; N]` counts as a local constant although its length is that of another definition (`Local.Witness.named_length`), and so do `[1, #[cfg(x)] 2]` (`cfg_element`), `m!()()` (`macro_callee`) and, when the evaluation starts in a macro, blocks with removed statements (`hidden_in_macro`). `[1.0, 1.0][0..1]` evaluates to the number `1.0`, because the type of the index is not looked at (`range_index`).
* C90 — the analysis calls types certain that are not (its documentation calls every such case a bug). `Certain.shift`: `1 << 2u8` (one operand of known type is enough for every operator), so `(1 << 2u8) % n == 0` becomes `(1 << 2u8).is_multiple_of(n)`, which does not compile. `Certain.number_argument`: `id(1)`. `Certain.exported_variant`: variants and constructors named through a module (`std::prelude::v1::None`, `std::marker::PhantomData`, `std::num::Wrapping(1)`) are certain because the module is. `Certain.generic_function` and `Certain.generic_method`: for functions found by `update_res`, `res_generics_def_id` is asked about the old resolution (`Res::Err`), so generic parameters are never looked at (`Foo::build()` with `fn build<T: Default>() -> T`). `Certain.trait_self`: `FromIterator::from_iter::<Vec<u8>>(v)`, the arguments say nothing of `Self`. `Certain.lifetime_argument`: `get::<'static>()`. `Certain.projection`: a parameter that appears only in `I::Item` counts as inferable. `Certain.index_type`: the index is not looked at.
* C91 — `redundant_guards` (suggestion `MaybeIncorrect`) changes behaviour in these cases, each with a witness in `Guard.Witness`. `subpattern`: `x @ (5 | 7) if x == 1` becomes `1`, the subpattern is dropped. `other_method`: `needles.is_empty()` is tested before the method, so `arr if arr.eq(&[])` (any method with `&[]`) becomes `[..]`, which matches everything. `user_equality`: a hand-written `PartialEq` is replaced by structural matching. `captured`: the variables of `matches!(x, Some(y))` become visible in the body and hide outer variables of the same name. `inner_guard`: in `matches!(x, 0 | 1 if x == 1)` the inner guard uses the removed variable. `field`: `Foo { f: x } if x == 1` becomes `Foo { f: x: 1 }`. `bound_twice`: `(y, x) if let Some(y) = x` becomes `(y, Some(y))`.
* C92 — `collapsible_match`. `Collapse.Witness.not_exhaustive`: `None` counts as a wildcard, so `match o { None => E, Some(n) => if c { A } else { E } }` is rewritten (MachineApplicable) to `Some(n) if c => A`, which is not exhaustive. `falls_to_none`: `None if g => if c { A } else { E }, None => N, _ => E` now runs `N` where it ran `E`. `falls_to_subpattern`: `x @ (1 | 2)` counts as a wildcard, so `1 => if c { A } else { E }, x @ (1 | 2) => X, _ => E` now runs `X`. `falls_between`: the help text for inner `match`es is shown although an arm between matches the same values. `subpattern`: `n @ (1 | 2)` loses its subpattern. `field_after_wildcard`, `behind_struct`, `renamed_field`: the flag for struct patterns is overwritten by every pattern the walk visits, so the described text is no pattern (`Foo { a: _, Some(1) }`, `(Foo { .. }, x: 1)`, `Foo { f: x: 1 }`).
* C93 — `needless_late_init` (machine applicable): (1) the check for ordered drops stops the search among the statements, but the expression at the end of the block is tried anyway, so `let x; let y = Guard; if c { x = Guard; } else { x = Guard; }` at the end of a block changes the order of drops (`tail_drop_order`); for the same reason a usage inside a `let` is skipped (`used_in_let`). (2) Bindings with a subpattern are not looked at by `stmt_needs_ordered_drop` (`sub_drop_order`). (3) `{ let x; x = 1 }` becomes `{ let x = 1 }` without a semicolon (`no_semicolon`; `needs_semi` is not used for plain assignments). (4) Branches that never end are skipped but may use the variable, which is then used in its own declaration (`used_before_declared`). (5) With several variables, a value that leaves the block changes the order of drops (`group_drop_order`).
* C94 — `useless_let_if_seq` (nursery, with placeholders): the initialiser is not looked at, so it is no longer evaluated if the condition holds (`init_lost`), is evaluated after the condition (`init_reordered`), and its value is no longer dropped (`drop_lost`). The `else` branch may use the variable: `else { x += 1; }` falls back to the initialiser (`else_uses`), and `else { x = x + 1; }` gives `let x = if c { 5 } else { x + 1 };` (`else_value_uses`; only the value of the first branch is checked).
* C95 — `map_entry` (perf, machine applicable): `if !m.contains_key(&f()) { f(); }` crashes the lint: the first edit is the removal of the semicolon, but it is unwrapped as an insertion (`crashes`, `crashes_map`). `if !m.contains_key(&f()) { g(); f(); }`, without any insertion, is reported, and the suggestion inserts the value of `f()` (`never_inserted`). A path that ends with `let x;` does not prevent the closure (`declared`, `declared_inserts`). The key may have side effects, which then happen once instead of twice (`key_twice`), and may be changed before the insertion: `k += 1; m.insert(k, v)` then inserts at the old key (`key_changed`). `or_insert(v[i])` evaluates the value in any case and may panic (`value_panics`). Without `else` nobody checks whether the key is used after it was moved (`key_used_after_move`).
* C96 — `branches_sharing_code`: (a) a moved declaration may shadow a variable that the condition reads, `if x == 1 { let x = f(); .. }` (`shadows_condition`); the warning about renaming only looks behind the `if`.  (b) The statements at the start move in front of a condition with effects, or with effects on what it reads other than through local variables (`before_condition`).  (c) `{ a(); b(); a() } else { a() }`: the single statement of the second block is both start and end; with both suggestions it runs twice (`start_end_overlap`).  (d) Variables with an ordered drop are only looked for until the first difference: `{ x(); let g = m.lock(); .. ; f() } else { y(); f() }` still suggests to move `f()` behind the drop of `g` (`guard_unseen`).  (e) If the start is shortened to the boundary of a macro call, the correspondence of variables declared in that call remains, and a use of them is said to be movable behind the `if` although the declaration stays inside (`macro_leaves_use`).  (f) By reading only: `check_match` does not consider drops of variables bound by the patterns of the arms.  All suggestions are `Unspecified`, so none is applied automatically.
* C98 — `needless_lifetimes` overlooks the lifetime of a trait object inside of a function pointer or `Fn` bound.  `fn f<'a>(x: &'a u8, g: fn(Box<dyn Foo + 'a>))` becomes `fn f(x: &u8, g: fn(Box<dyn Foo + 'a>))`, with an undeclared lifetime: `RefVisitor` visits a function pointer with a visitor of its own and drops its `unelided_trait_object_lifetime` (`dyn_hidden`); for bounds, `F: Fn(Box<dyn Foo + 'a>)`, the flag is never read (`dyn_bound`).  The edits are computed for lifetimes in the order of the declaration, but a function's are listed in the order of their use: for `fn f<'a, 'b, 'c>(x: &'c u8, y: &'b u8, z: &'a u8, w: &'a u8)` the spans deleted for `'b` and `'c` overlap, and the suggestion cannot be applied (`cuts_overlap`).
* C99 — with `allow-mixed-uninlined-format-args = false`, `uninlined_format_args` turns `format!("{} {y}", y, y = 5)` into `format!("{y} {y}", y = 5)`: the variable `y` is written into the string although an argument of that name stays, and the argument is printed instead of the variable (`name_clash`).
* C100 — `while_let_on_iterator`: (1) `while let Some(x) = its[i].next() { i = (i + 1) % n; }` is rewritten to `for x in
  its[i].by_ref()`, which looks at `i` only once (`index_changes`). (2) A field selected through an implicit `deref_mut`
  of the owner of the iterator (`w.n` while `w.it` is borrowed) is not seen as a use; the result does not compile
  (`deref_missed`). (3) In a loop, a use after the loop in the `else` block of a `let`-`else` is missed, as `visit_local`
  does not visit it; the iterator is moved (`else_missed`). (4) In a closure of kind `FnOnce` only the body of the
  closure is searched for later uses; the iterator is moved into it although the function uses it later
  (`closure_missed`).
* C101 — `needless_range_loop` suggests loops that do something else, or do not compile: `for i in 0..a.len() { a[0][i] }` gets no `take`, as the length is compared with the name of the root and not with the sequence (`row_len`); `m[i].f[i]` gets `m[i].f.iter()` without an `i` (`uses_index`); `a[j][i]` where `j` changes (`operand_changes`); a range longer than the container whose elements are only used under a condition (`stops_early`); `for mut i` with an assignment to `i` (`index_changes`); `let ref mut x = a[i]` gets `iter` (`ref_mut_missed`); `m[i][m[0].f] = 1` borrows `m` twice (`operand_borrow`). The suggestion has placeholders, so it is not applied automatically.
* C102 — `unnecessary_fold`: `let x = 7; opt.into_iter().fold(x, |acc, x| acc + x)` gets the machine-applicable `opt.map_or(x, |x| x + x)` (`captured`), and `fold(n, |acc, x| { n = x; acc })` gets `map_or(n, |x| { n = x; n })` (`init_changes`): the value changes. `S { acc }` becomes `S { 0 }` (`shorthand`), `|&acc, x|` loses its reference (`acc_ref`), `|acc, &x| acc || x > 2` becomes `any(|x| x > 2)` (`ref_lost`), `acc && (x > 2 && acc)` keeps a name that is gone (`acc_left`), `fold(0, |acc, &x| acc + x)` over `&&i32` becomes `sum` (`sum_refs`): these do not compile. `f(x) || acc` calls `f` less often, although the note only speaks of effects of the iterator (`left_effects`).
* C103 — `manual_strip`: (1) the new variable is visible in the whole block, but the only test is that its name is bound once in the block: `if s.starts_with("a") { f(s); let s = &s[1..]; f(s) }` becomes `if let Some(s) = s.strip_prefix("a") { f(s); f(s) }`, which is machine-applicable and passes the stripped string to the first call (`shadowed`; `captured` for another outer variable). (2) `&s[..=s.len() - 1]` is taken for `&s[..s.len() - 1]`, since the kind of the range is ignored (`inclusive`). (3) The variable of the pattern may be assigned to before the slice is made (`pattern_assigned`). (4) In a closure, any assignment to a captured variable makes `mutated_variables` return `None`, and then the target counts as unchanged although it is assigned to (`upvar_assigned`).
* C104 — `while_immutable_condition`: `while *p < 2 { step(p) }` with a raw pointer is reported although the function changes `*p` (passing a pointer is no mutation of `p`), and so is `while *p < 2 { *q += 1 }` with two pointers to the same place (`pointer_changed`, `alias_changed`). Operators implemented by traits are not taken for calls, so a condition like `counter < 2` on a type with interior mutability is reported (`operator_changed`). `continue 'outer` leaves the loop as `break` does, but the note about `break` and `return` is not given (`outer_continued`).
* C105 — `find_all_ret_expressions` does not look for `break` out of a labelled block: `'a: { if c { break 'a None; } Some(1) }` counts as always `Some`, so `unnecessary_wraps` and `bind_instead_of_map` report a body that returns `None` (`label_none`). For a `match` at the end it visits the arms but not their guards, so a guard with `return None` is missed (`guard_none`). With `Result<(), E>`, `unnecessary_wraps` replaces every `Ok(..)` by nothing, so `Ok(g(5))` loses the call (`unit_effect`).
* C106 — `print_literal`/`write_literal` (machine-applicable): (1) a width or precision by number is renumbered only if the placeholder itself has a number, so `println!("{} {:2$} {} {3}", "a", x, w, y)` becomes `println!("a {:2$} {} {2}", x, w, y)` with another width (`width_shifted`). (2) Arguments that are reported but not replaced (`"\""` in a raw format string) still count as removed, so `r"{0}{1}{2}"` with `"\""`, `"a"`, `x` becomes `r"{0}a{0}"` and does not compile (`lint_counted`). (3) Braces written as escapes are not doubled: `println!("{}", "\x7bx\x7d")` becomes `println!("\x7bx\x7d")`, which is a placeholder for `x` (`brace_escape`). (4) After a backslash at the end of a line, the blanks at the beginning of the literal are lost (`blank_lost`). (5) An empty literal between a quote and a hash ends a raw string (`string_ends`).
* C107 — lintcheck's recursive mode: (1) invocations of the compiler are told apart by package and version only, so of a package with a build script, a library and programs just the one which asks first is checked — normally the build script, and otherwise depending on the schedule (`schedule_decides`). (2) A diagnostic without a place, or without a rendered form, makes the thread of the connection panic; the remaining warnings about the package are lost, and since nobody joins these threads, lintcheck writes its results as usual (`spanless_lost`). (3) The same happens to all warnings about a package if Clippy's output is not UTF-8 (`not_text_lost`).
* C108 — lintcheck's cache of sources: (1) whether a crate was unpacked is decided by the existence of its directory, so an interruption while the archive is unpacked leaves a part of the sources, which all later runs check without a message (`torn`). (2) The directory of a repository is named after the crate alone: two entries with different commits share it and are both checked at the second commit, since all sources are prepared before any is checked (`same_repo`), and if the list later names another repository, the old one is kept, `git checkout` fails with just a message, and the old sources are checked (`other_url`). (3) A local crate named like another directory (`a-1`) deletes and replaces it (`same_dir`). (4) The check that an entry has only one of `path`, `version` and `git_*` is inside of a condition that is false for an entry with `path` and `version`, so such an entry is accepted and the version ignored (`path_and_version`).
* C109 — `used_exactly_once` (used by `needless_borrows_for_generic_args`) undercounts: (1) it asks for uses after statement 0 of the start block, so a use by that very first statement is not counted (`first_missed`). (2) Uses as an index (`a[i]`) are not visited at all (`index_missed`). (3) All uses at a position that assigns the local are dropped, so `r = next(r)` counts as no use of `r` (`update_missed`). (4) `is_local_assignment` looks at `out` operands of inline assembly, but not at `inout` ones, so `local_assignments` misses them (`inout_missed`).
* C110 — `PossibleBorrowerMap` follows mutable references only from `&mut`, moves and casts to calls: what is stored by an assignment through a reference (`*r = &a`, `through_deref`), through a mutable reference that a call returned (`through_call`) or through one inside a struct (`in_struct`) is not among the borrowers.
* C111 — `redundant_clone`: (1) an assignment to a part of the clone (`y.f = 1`) is not counted as a mutation, as only moves, mutable borrows and inspections are (`store_missed`). (2) Changes through shared references (`x.clone().set(1)` for a `Cell`) are not counted either (`cell_missed`). (3) Only the first use in the list is compared with the storage of the clone; an assignment in another branch is missed (`branch_missed`). (4) For `to_path_buf` and `to_os_string`, `ret_local` is the reference returned by `deref`, not the clone, so `let mut q = p.to_path_buf(); q.push("a"); use(p)` is reported (`deref_missed`).
* C112 — `same_item_push` visits only expression statements: `visit_block` drops the last expression of a block (`tail_missed`: `for _ in … { v.push(7); if y { v.push(8) } }` is reported), `visit_stmt` drops `let`s (`let_missed`), bodies of closures are not entered (`closure_missed`), and `continue` is not looked for (`continue_missed`). An immutable local that is initialised by a constant with interior mutability may hold something else when it is pushed (`cell_missed`).
* C113 — `mixed_read_write_in_expression`: (1) for a write in the `else` block of a `let … else`, `check_stmt` walks the initialiser, although it is always evaluated before: `let Some(_) = f(x) else { x = 1; return }` is reported (`else_reported`). (2) Reads behind `&` are never counted, also when a temporary is borrowed (`addr_missed`; the comment in the code mentions a variant), nor are captures of `move` closures (`closure_missed`). (3) Two unsequenced writes are not looked for (`twice_missed`).
* C115 — `manual_is_ascii_check`: `check_expr` doesn't look at the guard of `matches!(c, 'a'..='z' if g)`; the machine-applicable suggestion `c.is_ascii_lowercase()` drops it (`guard_missed`).
* C116 — `no_effect` and `unnecessary_operation`: (1) only the operator at the root is tested for an overload, and only unary and binary ones: `&*LAZY;`, which runs an initialisation, and `x[0];` with a user's `Index` are reported to have no effect (`deref_missed`, `index_missed`), and `-(f() + x);` is reduced to `f(); x;` without the user's `add` (`nested_overload`). (2) Tuples, arrays, and structs without a destructor of their own are taken apart although their parts have destructors: `(guard(), work());` becomes `guard(); work();`, machine-applicably, where the guard is dropped before the work (`tuple_drop`). (3) `&x;` and `x.field;` for a variable with a destructor become `x;`, which moves and drops it (`borrow_drop`). (4) A `move` closure that takes a value with a destructor is reported to have no effect, but drops it (`closure_missed`).
* C117 — `octal_escapes`: for an escape with one digit, such as `"\03"`, the suggestion for an intended null is `"\x0003"`, with a digit `0` that wasn't there, since `c_hi` was set to `0` for the computation of the number (`null_wrong`; the expected output in `tests/ui/octal_escapes.stderr:80` has it, too).
* C118 — `needless_bool`: `check_block` looks at all blocks, not only at those at the end of a function. `let x = { if c { return true; } false };` becomes `let x = { c };`, machine-applicably, which no longer returns (`inner_block`).
* C119 — `x.checked_add(1).unwrap_or(-127)` for `i8` (and likewise `-2147483647` for `i32`, for every signed type) is replaced by `x.saturating_add(1)`, marked machine-applicable, though the default is `-MAX` and not `MAX`: the literal below a minus is compared with the largest value, too (`manual_saturating_arithmetic.rs:178-199`; `neg_max_wrong`). `T::max_value()` is taken for the largest value whatever `T` is, also if it is not the type of the numbers (`other_type_wrong`).
* C120 — `r.map(f) == Err(true)` (with errors that are booleans) is replaced by `r.is_ok_and(f)`: the constructor on the other side isn't looked at (`manual_is_variant_and.rs:222-233`; `err_wrong`). When the function has to be inverted, a closure with an early `return` gets a `!` before its block, and the returned value isn't inverted: `o.map(|x| { if x > 5 { return true } x == 3 }) == Some(false)` (`manual_is_variant_and.rs:151-157`; `return_wrong`, for all five forms that invert). `it.next().is_none() || it.next().is_some_and(f)` is replaced by `it.next().is_none_or(f)`, which evaluates the receiver only once (`manual_is_variant_and.rs:269`; `twice_wrong`). All are marked machine-applicable.
* C121 — `c.then(|| { if d { return 1 } 2 }).unwrap_or(3)` is replaced by `if c { { if d { return 1 } 2 } } else { 3 }`, marked machine-applicable: the closure is called eager without a look at its body, and the `return` leaves the function now (`obfuscated_if_else.rs:24-37`; `return_wrong`; the same with `?`). `o.map(f).unwrap_or(a)` is replaced by `o.map_or(a, f)` also if `a` has effects, which then come before those of `f` (`map_unwrap_or.rs:38-83`, nothing is asked about `a` if it is copied; `order_wrong`). `it.next().and_then(|a| it.seen.map(|b| (b, a)))` is replaced by `it.seen.zip(it.next())`, which reads the field before the call changes it (`manual_option_zip.rs:80-81`; `swapped_wrong`). `if let Some(x) = o { f(x) } else { u32::max_value() }` gets `o.map_or(u32::max_value, |x| f(x))`, with the function instead of its value (`option_if_let_else.rs:227-253`; `omitted_wrong`), and in `match o { _ => 0, Some(x) => x }` the dead arm gets alive (`option_if_let_else.rs:370-371`; `wild_wrong`).
* C122 — `manual_while_let_some` moves the pop before the other arguments: `f(v.len(), v.pop().unwrap())` in `while !v.is_empty()` becomes `while let Some(element) = v.pop() { f(v.len(), element) }` (`argument_wrong`). The `else` of a `let` isn't looked at, so `let Some(x) = v.pop().unwrap() else { continue };` becomes a loop that ends at the first `None` (`else_wrong`). A variable `element` of the program is hidden (`element_wrong`), and a receiver with effects is evaluated once per round instead of twice (`receiver_wrong`).
* C122 — `manual_pop_if` drops what follows the inner condition, `if let Some(x) = v.last() { if *x > 5 { v.pop().unwrap(); } other() }` (`tail_wrong`), because a block with one statement is accepted with any final expression. It drops patterns below the variable, `Some(x @ 1..=3)` (`sub_wrong`), and moves a `return` in the condition into a closure (`closure_wrong`).
* C122 — `manual_slice_fill` doesn't compare the index with the variable of the loop: `for _ in 0..s.len() { s[j] = 7; }` becomes `s.fill(7);` (`other_index_wrong`).
* C123 — `collapsible_str_replace` merges replacements whose later characters occur in the new text: `s.replace('a', "bb").replace('b', "bb")` turns `a` into `bbbb`, the suggested `s.replace(['a', 'b'], "bb")` into `bb` (`later_wrong`, `collapse_iff`). Its visitor goes on below other methods, which get lost: `s.replace('a', "-").trim_start().replace('b', "-").replace('c', "-")` becomes `s.replace(['a', 'b', 'c'], "-")` (`method_lost`).
* C123 — `needless_character_iteration` doesn't put its negated suggestion in parentheses when it is a receiver: `s.chars().any(|c| !c.is_ascii()).le(&true)` becomes `!s.is_ascii().le(&true)` (`receiver_wrong`).
* C123 — `str_literal_to_char_literal` copies line breaks and continued lines into character literals, where they aren't allowed (`line_break_wrong`, `continued_wrong`). `string_lit_chars_any` suggests `matches!(x, )` for an empty literal (`empty_wrong`). `no_effect_replace` reports equal arguments with effects (`next_wrong`).
* C124 — redundant_closure_call replaces the whole chain of calls by the body of the last closure it entered, even when calls are left over: `(|| f)()()` becomes `f` (`calls_left_over`), `(|| || return 1)()()` becomes `|| return 1` (`return_left_over`). Only the parameters of the innermost closure are looked at: `(|x| move || x)(5)()` becomes `x` (`argument_lost`).
* C124 — unnecessary_literal_unwrap takes the content of `Err` for `unwrap_or`, `unwrap_or_default` and `unwrap_or_else`: `Err(1).unwrap_or(2)` becomes `1` (`error_taken`, `error_taken_also`). `None.unwrap_or_else(|| return 3)` becomes `return 3` (`return_escapes`). `Some(1).unwrap_or(f())` becomes `1` without the call (`effect_lost`).
* C124 — unnecessary_min_or_max drops the operand that is not a constant: `i8::MIN.min(f())` becomes `i8::MIN` (`operand_lost`).
* C124 — all three write the suggestion without parentheses: `(|| a + b)() * c`, `Some(a + b).unwrap() * c` and `i32::MIN.max(a + b) * c` become `a + b * c` (`bare_misread`).
* C125 — unnecessary_filter_map does not look at the values of `break 'label`: `filter_map(|x| 'l: { if x == 1 { break 'l None } Some(f(x)) })` is said to be for `map`, although it drops items (`label_lost`). Nor at a `return` inside the operand of another `return` (`return_lost`). `filter_map(|_| Some(K))` is said to be unnecessary: any path counts, not only the parameter (`constant_lost`).
* C125 — filter_map_bool_then moves the condition into `filter`, where an assignment to a `mut` part of the parameter is lost for the body: `filter_map(|(mut a, b)| { a += 1; a > b }.then(|| a))` (`assignment_lost`).
* C125 — search_is_some replaces `rposition(f).is_some()`, which tests from the end, by `any(f)`, which tests from the start: with effects in `f` they differ (`order_changed`).
* C126 — `for_each_unconsumed_temporary` does not visit the operand of `[e; n]` (`repeat_unseen`), nor constants (`f(&C)` makes a temporary, `constant_unseen`), nor `Self` used as a value (`self_unseen`); so while_let_loop moves the drop of such a temporary behind the rest of the body (`while_let_constant`). A `let … else` without further statements in the loop is not tested at all (`last_let_else`).
* C126 — semicolon_inside_block and semicolon_outside_block do not look at drops: in edition 2021 the temporaries of the tail are dropped before the variables of the block instead of after them (`inside_2021`), in edition 2024 the value is (`inside_2024_value`). semicolon_outside_block does not ask whether the label is used: `'a: { if c { break 'a } f(); }` becomes a block whose tail has the type of `f()` (`outside_label`).
* C126 — let_and_return asks in edition 2021 only for lifetimes in signatures: a temporary with a `Drop` then outlives the variables of the block (`let_return_2021`).
* C127 — unnecessary_sort_by takes sides for mirrored that differ in the types of inner casts (`cast_lost`), in generic arguments (`generics_lost`), in inner borrows (`size_of_val(a)` and `size_of_val(&b)`, `borrow_lost`), in the lengths of arrays and tuples (`length_lost`) or of paths (`m(a)` and `m::f(b)`, `prefix_lost`); the suggestion is machine-applicable and sorts differently. All of these come from `iter::zip` without a comparison of lengths and from parts of the expressions that are not compared.
* C127 — the pattern behind `@` is not looked at, so its variables count as variables from outside: `|x @ &(k, _), y| k.abs().cmp(&k.abs())` becomes a sort by `k.abs()` (`subpattern_lost`).
* C128 — clippy itself panics (`Times.clippy_panics`, `clippy_panics_new`): `Duration::from_secs_f64(-1.0) - d`, `Duration::new(u64::MAX, 1_000_000_000) - d` and `Duration::from_mins(u64::MAX) - d` are evaluated by calling the panicking constructors within clippy.
* C128 — days and weeks wrap around in a build without checks for overflow (`Times.days_wrapped`): `Duration::from_days(1 << 61)` is taken for zero.
* C128 — functions of other types (`Times.other_type`): `Ticks::from_secs(5)` that returns a `Duration` is evaluated as `Duration::from_secs(5)`, so that a subtraction that underflows is said to be fine.
* C128 — the clock is read later (`Times.elapsed_later`): `Instant::now() - f()` becomes `f().elapsed()`, which includes the time that `f` takes; the suggestion is machine-applicable.
* C129 — the pattern and guard of `matches!` are lost (`Merge.subpattern_lost`, `guard_lost`): `.filter(|x| matches!(x, K(1))).map(|x| match x { K(v) => v, _ => unreachable!() })` becomes a `filter_map` that keeps every `K(v)`; machine-applicable.
* C129 — a guard or pattern in the map is lost, too (`Merge.map_guard_lost`): a panic becomes an item or a skipped item.
* C129 — names only (`Merge.name_only`, `type_only`): any function whose path ends in `is_some`, any method call of that name that returns a function, and methods of other types lead to `flatten()`.
* C129 — the argument of `unwrap_or` or `expect` is no longer evaluated (`Merge.default_lost`), although only the receiver is checked for effects.
* C129 — errors are cloned that were not cloned before (`Merge.error_cloned`): `.map(|x| x.clone().unwrap())` after `is_ok` becomes `.filter_map(|x| x.clone().ok())`.
* C130 — casts that wrap (`Widths.sign_extended`, `truncated`): `(x as u32) > 200` with `x: i8` is said to be always false although -1 becomes 4294967295, and `(x as i8) >= 0` with `x: u32` is said to be always true although 200 becomes -56; only casts between types of the same size are excluded.
* C130 — the bounds of `usize` and `isize` are those of the machine that clippy runs on, not of the target (`Widths.host_width`).
* C130 — `x & -x` panics for the least number with overflow checks, the machine-applicable `x.isolate_lowest_one()` does not (`Widths.neg_min`).
* C130 — incomplete: `x % ONE` with a signed constant one is not found (`Widths.signed_one_missed`), since the pattern only accepts the unsigned form.
* C131 — `Fill.other_capacity`: any method named `capacity` counts as the vector's own: `let mut v = Vec::with_capacity(3); v.resize(w.capacity(), 0);` becomes `vec![0; 3]`.
* C131 — `Fill.own_capacity`: `with_capacity(n)` may allocate more than `n`; `v.resize(v.capacity(), 0)` then is longer than `vec![0; n]`.
* C131 — `Fill.call_once`: a call in both places (`with_capacity(f())`, `resize(f(), 0)`) is made only once afterwards.
* C131 — `Fill.old_length`: `v = Vec::new(); v.resize(v.len() + k, 0)` becomes `v = vec![0; v.len() + k]`, with the length of the old vector (or of another variable of that name for `let`).
* C131 — `Fill.cut_last`: if the block ends in an expression with a block (`if c { v.resize(10, 0); … }`, `unsafe { … }`) its first statement counts as the next one; the replaced text then contains `if c {`.
* C131 — `Fill.cut_arm`: the same for an allocation in an arm of a `match` that is followed by the `resize`: the end of the `match` is removed.
* C132 — `Assign.order_changed`: `self.x = self.x + self.next()` reads `self.x` before the call; `self.x += self.next()` (machine applicable) reads it after the call, for built-in types.
* C132 — `Assign.index_moved`: with an operand that changes the index (`a[i] = a[i] + next(&mut i)`) the element that is read changes.
* C132 — `Assign.trait_differs`: nothing says that `AddAssign` of another type does what `Add` does; the suggestion is machine applicable.
* C132 — `Assign.foreign_swapped`: for `a = b op a` only the type of `a` is checked; with `b` of a type with its own operator the swap need not be right.
* C133 — `BoolText.parens_lost`: `(a || b) == true && c` becomes `a || b && c` (machine applicable): the parentheses belong to the operand and are dropped with the comparison.
* C133 — `BoolText.negation_lost`: `!(a || b) == false && c` becomes `a || b && c` as well.
* C133 — `BoolText.nan_negated`: `(x < y) == false` for floating-point numbers becomes `x >= y`, which is false for NaN.
* C133 — `BoolText.lazy_under_or`, `lazy_under_eq`, `lazy_under_and`: `needless_bitwise_bool` replaces only the operator: `a | b & !c` becomes `a | b && !c`, `a == b & !c` becomes `a == b && !c`, `a && b | !c` becomes `a && b || !c`, all read differently (machine applicable).
* C134 — `len_zero.rs` hands comparisons of sequences with `""` or `[]` to `check_empty_expr` for every operator, with the sign meant for lengths compared with 0 or 1. So `x < ""` (always false) becomes `x.is_empty()`, `x >= ""` (always true) becomes `!x.is_empty()`, and the same for `"" > x` and `"" <= x`, all machine applicable (`Empty.order_wrong`, `Empty.order_wrong_value`).
* C134 — `x.len() <= 0` and `0 >= x.len()` are not reported (`Empty.at_most_zero_missed`), nor is `x.trim() == ""`, because a method call next to a literal is only looked at as a length next to a number; `x.trim() == []`-like comparisons are (`Empty.method_missed`).
* C135 — `needless_for_each.rs` replaces the whole of `return e` by `continue`, so that the effects of `e` are lost (`ForEach.effect_lost`).
* C135 — `needless_for_each.rs` does not look at `move`: `for_each(move |x: &i32| n += x)` changes a copy of `n`, the loop suggested (machine applicable) changes `n` itself (`ForEach.move_wrong`).
* C135 — the comment in `needless_for_each.rs` says that a written type of the parameter makes the suggestion uncertain, because it is dropped; the code tests for `TyKind::Infer`, so that the suggestion is machine applicable exactly when a type is written (`ForEach.typed_machine`). The tests do not show it because they apply suggestions of every applicability.
* C136 — exemptions in `non_expressive_names.rs` are looked for at the beginning and the end of names: two names beginning with `set` (or `lit`, `tx`, …) are never too similar, for example `settings` and `settinge` (`Names.prefix_exempt`, `Names.prefix_exempt_example`).
* C136 — whether `lspath` and `lhspath` are reported depends on their order, because only the first list an older name belongs to is kept, although names can belong to several (`Names.order_matters`).
* C136 — a reported name is not kept, so that a third name that is similar only to it is not reported (`Names.chain_missed`); digits count as equal next to a real difference, so that `foo1x` and `foo2y` are "similar" (`Names.digits_alike`).
* C137 — `doc_markdown` computes the position of a word from the number of bytes cut off, and counts a single colon cut off at the end as if it were cut off in front; for `Foo::bar(a:)` the backticks are put after the first letter: F`` `oo::bar(a:)` `` (`DocWords.shifted`, `DocWords.shifted_not_whole`). When the bytes do not fall between characters the parenthesis is left outside instead.
* C138 — `text_has_safety_comment` takes `//` or `/*` in a text in quotes for a comment: `let s = "// safety: ";` documents the unsafe block in the next line (`Safety.string_taken`); so does the comment of the statement in the line above, also if code follows the comment (`Safety.other_statement`).
* C138 — with `accept-comment-above-attributes` a line comment above an attribute is accepted, a block comment of several lines is not, because what follows it is tokenised with the attribute (`Safety.block_above_attribute`).
* C138 — a comment nested in a block comment hides the outer one if it begins a line (`Safety.nested_hides`).
* C139 — `implicit_return` does not report values of `break` to a labelled block in final position: `'a: { if c { break 'a 4 } 5 }` gets `return 5` only (`Returns.labelled_missed`); for a final `break 'a 4` it suggests `return break 'a 4`, in which the `return` is never reached (`Returns.return_break`).
* C140 — in the aggressive mode `upper_case_acronyms` keeps the last letter of an acronym large when a digit or underscore follows: it suggests `HttP2Server` for `HTTP2Server` and `FoO_Bar` for `FOO_Bar` (`Acronyms.before_digit`).
* C141 — `match_str_case_mismatch` looks for the method anywhere in the matched expression: in `match f(&s.to_lowercase()) { "A" => … }` the arm is reported although it can be taken, and the machine-applicable suggestion changes what the match does (`StrCase.false_alarm`). The suggestion is not escaped: `"A\""` becomes `"a""`, which does not parse, and `"A\\n"` becomes `"a\n"`, another text (`StrCase.not_escaped`). Texts in alternatives (`"A" | "b"`) are not checked.
* C142 — `comparison_chain` reports `if a < b {…} else if b > a {…} else {…}`, whose second block is never executed (`CmpChain.dead_block`), and chains whose operands have side effects, which are not a match on one comparison (`CmpChain.side_effects`).
* C143 — `modulo_arithmetic` misses remainders whose first operand is a reference, `&x % 3` (`Modulo.ref_missed`), and reports constants although the remainder is zero in every convention, `-4 % 2` (`Modulo.no_remainder`).
* C144 — `map_container_to_text` slices a text of 18 spaces and panics for an item whose text starts farther from its marker when a line of a quote lacks a marker (`LazyDoc.wide_panics`); a marker followed by many trailing spaces and a quote on the next line gives such a distance. A backslash before the text is part of the range: the suggestion for too many spaces removes it, that for too few separates it from the escaped character (`LazyDoc.escape_lost`). A suggestion after ` >` takes the space that belongs to the marker, and the line does not continue the item (`LazyDoc.space_taken`). Lists inside quotes are not checked (`LazyDoc.lazy_missed`).
* C145 — `current_paragraph` is not reset at the end of a paragraph. A paragraph followed by a list whose items are separated by blank lines (so they contain paragraphs) is reported although a list follows (`DocEnd.loose_list`); one followed by a footnote or by a paragraph of a footnote reference only is reported twice (`DocEnd.reported_twice`).
* C146 — `literal_string_with_formatting_args` takes the position of the colon, which is relative to the brace, for a position in the text. The name in `{name:?}` is never right (`FmtLit.never_the_name`): at the start of the text its end is lost, so that variables are not recognised (`FmtLit.name_cut`); later it is ignored, so that there are reports without a variable (`FmtLit.name_not_checked`); and `"{é:?}"` lets the linter panic (`FmtLit.slice_panics`).
* C147 — `lint_groups_priority` does not compare groups with each other (`Prio.groups_not_compared`), reports a group also if the lint is not in it (`Prio.not_a_member`), and suggests the same priority again if a lint has the lowest one (`Prio.lowest_priority`).
* C149 — other NULs are not asked for: `CStr::from_ptr(b"a\0b\0".as_ptr().cast())` gets the suggestion `c"a\0b"`, marked as applicable by machine, but a C string literal must not contain NUL (`inner_nul`); the call itself is valid and gives `"a"`.
* C151 — the test that shall limit the lint to web links looks for `(http` in the text after the parenthesis, and returns if it is found: links to any place are reported (`not_only_urls`), and only destinations that begin with a second parenthesis are excluded (`second_paren`). The length of the range counts characters of the destination, not bytes, so with `é` it ends too early and in the middle of a character (`range_short`).
* C152 — a reference at the very start of the text makes the linter compute `start - 1` with `start = 0`, a panic where overflow is checked (`start_overflow`); after an escaped backslash, as in `\\[^1]`, nothing is reported (`escaped_backslash`); references with 64 digits or more are missed; and the fragment is found by the lengths of the texts of comments, though a comment gives its text without indentation and with an end of line: after four comments like `///a`, the definition is added to the comment after the right one (`other_fragment`).
* C153 — the calls are collected from the last to the first and each overwrites the one before in the map, so of repeated calls the first is believed, though at run time the last decides: `.read(true).truncate(true).truncate(false)` is reported as truncating (`later_call`). `create_new` is never asked for: with it, `append` and `truncate` are valid together and `create` is ignored, but both are reported (`new_file`).
- C155: the names of all inline modules around are added to the folder, also of those outside of the file that is read; for `mod a { mod b; }` and an inline `mod c` in `a/b.rs` the folder is `a/b/a`, where the compiler does not look (`ModFile.inline_before_file`, in general `ModFile.right_folder_only`).
