/-!
# Syntax: loops over a range and their bodies
-/

namespace Verif.RangeLoop

abbrev Var := Nat
abbrev Field := Nat

inductive One where
  | addr
  | addrMut
  /-- a call of a method that takes `&mut self` -/
  | callMut
  /-- `let ref mut x = e`, or such a pattern, and an assignment to `*x` -/
  | refMut
  | bind (x : Var)
  | loop
  deriving DecidableEq, Repr

/-- With two operands, evaluated in this order. -/
inductive Two where
  | seq
  /-- the second operand is only evaluated if the first one is not zero -/
  | lazily
  /-- an assignment: the value, the place -/
  | set
  deriving DecidableEq, Repr

inductive Expr where
  | lit (n : Nat)
  | brk
  | path (x : Var)
  /-- the variable of the new loop that stands for an element, dereferenced -/
  | item
  | field (e : Expr) (f : Field)
  | index (e j : Expr)
  | one (k : One) (e : Expr)
  | two (k : Two) (a b : Expr)
  deriving DecidableEq, Repr

/-- The ends of ranges. -/
inductive Num where
  | lit (n : Nat)
  | var (x : Var)
  /-- `x.len()` -/
  | len (x : Var)
  | add (a b : Num)
  deriving DecidableEq, Repr

/-- `for i in start..stop { body }`, or with `..=`. -/
structure Loop where
  i : Var
  start : Num
  stop : Num
  closed : Bool
  body : Expr
  deriving DecidableEq, Repr

/-- An adapter of an iterator. -/
inductive Adapter where
  | skip (n : Num)
  | take (n : Num)
  /-- `.take(n + 1)` -/
  | takeSucc (n : Num)
  deriving DecidableEq, Repr

/-- The new loop: `for (i, <item>) in seq.iter().enumerate()…`, without `i` if `enumerate` is not set. -/
structure Sugg where
  seq : Expr
  enumerate : Bool
  mutbl : Bool
  adapters : List Adapter
  deriving DecidableEq, Repr

end Verif.RangeLoop
