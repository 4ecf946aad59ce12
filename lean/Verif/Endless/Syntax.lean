/-!
# Expressions that make and use iterators

What `infinite_iter`, `/repo/clippy_lints/src/infinite_iter.rs`, sees of an expression.
-/

namespace Verif.Endless

/-- The names of methods, `/repo/clippy_lints/src/infinite_iter.rs:124-144`, `:188-212`, `:228`,
`:236`; all others are numbers. -/
inductive Name where
  | zip | chain | cycle | map | byRef | cloned | rev | inspect | enumerate | peekable | fuse
  | skip | skipWhile | filter | filterMap | flatMap | unzip | takeWhile | scan
  | find | rfind | position | rposition | any | all
  | count | fold | forEach | partition | max | maxBy | maxByKey | min | minBy | minByKey
  | sum | product | last | collect
  | other (n : Nat)
  deriving DecidableEq

/-- The type of the result of a call, as far as it matters. -/
inductive Res where
  /-- One of the collections of the standard library. -/
  | collection
  /-- A primitive number. -/
  | number
  /-- `Option` or `Result`. -/
  | option
  | other
  deriving DecidableEq

mutual

inductive Ex where
  /-- A call of a method.  `std`: it is the method of `Iterator`; `de`: the receiver is a
  `DoubleEndedIterator`. -/
  | call (m : Name) (std de : Bool) (res : Res) (recv : Ex) (args : Exs)
  /-- A block with a last expression. -/
  | block (e : Ex)
  /-- A block without. -/
  | unit
  /-- `&e` and `&mut e`. -/
  | addr (e : Ex)
  /-- `std::iter::repeat(e)`. -/
  | rep (e : Ex)
  /-- A call of another function. -/
  | fn (n : Nat)
  /-- `e..`. -/
  | rangeFrom (e : Ex)
  /-- `..`. -/
  | rangeFull
  /-- A closure. -/
  | closure (body : Ex)
  /-- A comparison. -/
  | cmp (l r : Ex)
  /-- Any other expression. -/
  | leaf (n : Nat)

inductive Exs where
  | nil
  | cons (e : Ex) (es : Exs)

end

def Exs.len : Exs → Nat
  | .nil => 0
  | .cons _ es => es.len + 1

end Verif.Endless
