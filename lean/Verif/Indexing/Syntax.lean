/-!
# Indices

What the lints of `/repo/clippy_lints/src/indexing_slicing.rs` see of an index.
-/

namespace Verif.Indexing

/-- The type of the indexed expression, without references,
`/repo/clippy_lints/src/indexing_slicing.rs:115-121`, `:125`. -/
inductive Base where
  /-- An array; the number of items, where it is known. -/
  | array (size : Option Nat)
  /-- A slice, or a type from which one gets to a slice or an array with `Deref`, or with a fitting
  method `get`. -/
  | sliceLike
  /-- Any other type. -/
  | other
  deriving DecidableEq

/-- A value of the constant evaluator: an integer or something else. -/
inductive Const where
  | int (n : Nat)
  | other
  deriving DecidableEq

/-- An expression for a bound or an index: what the constant evaluator says about it. -/
structure Bound where
  const : Option Const
  deriving DecidableEq

/-- `higher::Range`: the expressions for the bounds, and whether it is written with `..=`. -/
structure Range where
  start : Option Bound
  end_ : Option Bound
  closed : Bool
  deriving DecidableEq

/-- The index. -/
inductive Index where
  | range (r : Range)
  /-- Anything but a range; whether it is a `const` block, and whether its type is `usize`. -/
  | single (e : Bound) (constBlock usize : Bool)
  deriving DecidableEq

end Verif.Indexing
