import Verif.Config.Model

/-!
# The concrete key table
-/

namespace Verif.Config

/-- The entries of `define_Conf! { .. }` — clippy_config/src/conf.rs:221-830, in source order: toml name,
`#[rename]` target (as a toml name), and whether the entry has a type. -/
def confSchema : Schema := [
  ⟨"absolute-paths-allowed-crates", none, true⟩,
  ⟨"absolute-paths-max-segments", none, true⟩,
  ⟨"accept-comment-above-attributes", none, true⟩,
  ⟨"accept-comment-above-statement", none, true⟩,
  ⟨"allow-comparison-to-zero", none, true⟩,
  ⟨"allow-dbg-in-tests", none, true⟩,
  ⟨"allow-exact-repetitions", none, true⟩,
  ⟨"allow-expect-in-consts", none, true⟩,
  ⟨"allow-expect-in-tests", none, true⟩,
  ⟨"allow-indexing-slicing-in-tests", none, true⟩,
  ⟨"allow-large-stack-frames-in-tests", none, true⟩,
  ⟨"allow-mixed-uninlined-format-args", none, true⟩,
  ⟨"allow-one-hash-in-raw-strings", none, true⟩,
  ⟨"allow-panic-in-tests", none, true⟩,
  ⟨"allow-print-in-tests", none, true⟩,
  ⟨"allow-private-module-inception", none, true⟩,
  ⟨"allow-renamed-params-for", none, true⟩,
  ⟨"allow-unwrap-in-consts", none, true⟩,
  ⟨"allow-unwrap-in-tests", none, true⟩,
  ⟨"allow-unwrap-types", none, true⟩,
  ⟨"allow-useless-vec-in-tests", none, true⟩,
  ⟨"allowed-dotfiles", none, true⟩,
  ⟨"allowed-duplicate-crates", none, true⟩,
  ⟨"allowed-idents-below-min-chars", none, true⟩,
  ⟨"allowed-prefixes", none, true⟩,
  ⟨"allowed-scripts", none, true⟩,
  ⟨"allowed-wildcard-imports", none, true⟩,
  ⟨"arithmetic-side-effects-allowed", none, true⟩,
  ⟨"arithmetic-side-effects-allowed-binary", none, true⟩,
  ⟨"arithmetic-side-effects-allowed-unary", none, true⟩,
  ⟨"array-size-threshold", none, true⟩,
  ⟨"avoid-breaking-exported-api", none, true⟩,
  ⟨"await-holding-invalid-types", none, true⟩,
  ⟨"blacklisted-names", some "disallowed-names", false⟩,
  ⟨"cargo-ignore-publish", none, true⟩,
  ⟨"check-grouped-late-init", none, true⟩,
  ⟨"check-incompatible-msrv-in-tests", none, true⟩,
  ⟨"check-inconsistent-struct-field-initializers", none, true⟩,
  ⟨"check-private-items", none, true⟩,
  ⟨"cognitive-complexity-threshold", none, true⟩,
  ⟨"const-literal-digits-threshold", none, true⟩,
  ⟨"cyclomatic-complexity-threshold", some "cognitive-complexity-threshold", false⟩,
  ⟨"disallowed-fields", none, true⟩,
  ⟨"disallowed-macros", none, true⟩,
  ⟨"disallowed-methods", none, true⟩,
  ⟨"disallowed-names", none, true⟩,
  ⟨"disallowed-types", none, true⟩,
  ⟨"doc-valid-idents", none, true⟩,
  ⟨"enable-raw-pointer-heuristic-for-send", none, true⟩,
  ⟨"enforce-iter-loop-reborrow", none, true⟩,
  ⟨"enforced-import-renames", none, true⟩,
  ⟨"enum-variant-name-threshold", none, true⟩,
  ⟨"enum-variant-size-threshold", none, true⟩,
  ⟨"excessive-nesting-threshold", none, true⟩,
  ⟨"future-size-threshold", none, true⟩,
  ⟨"ignore-interior-mutability", none, true⟩,
  ⟨"inherent-impl-lint-scope", none, true⟩,
  ⟨"large-error-ignored", none, true⟩,
  ⟨"large-error-threshold", none, true⟩,
  ⟨"lint-commented-code", none, true⟩,
  ⟨"lint-inconsistent-struct-field-initializers", some "check-inconsistent-struct-field-initializers", true⟩,
  ⟨"literal-representation-threshold", none, true⟩,
  ⟨"matches-for-let-else", none, true⟩,
  ⟨"max-fn-params-bools", none, true⟩,
  ⟨"max-include-file-size", none, true⟩,
  ⟨"max-struct-bools", none, true⟩,
  ⟨"max-suggested-slice-pattern-length", none, true⟩,
  ⟨"max-trait-bounds", none, true⟩,
  ⟨"min-ident-chars-lint-trait-impl", none, true⟩,
  ⟨"min-ident-chars-threshold", none, true⟩,
  ⟨"missing-docs-allow-unused", none, true⟩,
  ⟨"missing-docs-in-crate-items", none, true⟩,
  ⟨"module-item-order-groupings", none, true⟩,
  ⟨"module-items-ordered-within-groupings", none, true⟩,
  ⟨"msrv", none, true⟩,
  ⟨"pass-by-value-size-limit", none, true⟩,
  ⟨"pub-underscore-fields-behavior", none, true⟩,
  ⟨"recursive-self-in-type-definitions", none, true⟩,
  ⟨"semicolon-inside-block-ignore-singleline", none, true⟩,
  ⟨"semicolon-outside-block-ignore-multiline", none, true⟩,
  ⟨"single-char-binding-names-threshold", none, true⟩,
  ⟨"source-item-ordering", none, true⟩,
  ⟨"stack-size-threshold", none, true⟩,
  ⟨"standard-macro-braces", none, true⟩,
  ⟨"struct-field-name-threshold", none, true⟩,
  ⟨"suppress-restriction-lint-in-const", none, true⟩,
  ⟨"too-large-for-stack", none, true⟩,
  ⟨"too-many-arguments-threshold", none, true⟩,
  ⟨"too-many-lines-threshold", none, true⟩,
  ⟨"trait-assoc-item-kinds-order", none, true⟩,
  ⟨"trait-impl-item-order", none, true⟩,
  ⟨"trivial-copy-size-limit", none, true⟩,
  ⟨"type-complexity-threshold", none, true⟩,
  ⟨"unnecessary-box-size", none, true⟩,
  ⟨"unreadable-literal-lint-fractions", none, true⟩,
  ⟨"upper-case-acronyms-aggressive", none, true⟩,
  ⟨"vec-box-size-threshold", none, true⟩,
  ⟨"verbose-bit-mask-threshold", none, true⟩,
  ⟨"warn-on-all-wildcard-imports", none, true⟩,
  ⟨"warn-unsafe-macro-metavars-in-private-macros", none, true⟩]

end Verif.Config
