/-!
# Syntax: chains of calls behind a call that splits a string, and blocks
-/

namespace Verif.Splitn

/-- The first call. -/
inductive Base where
  | splitn (n : Nat)
  | rsplitn (n : Nat)
  | split
  | rsplit
  | splitOnce
  | rsplitOnce
  deriving DecidableEq, Repr

/-- What is done with the result. -/
inductive Node where
  /-- `.next()` of an iterator -/
  | next
  /-- `.nth(k)` with a constant -/
  | nth (k : Nat)
  /-- `.skip(k)` with a constant -/
  | skip (k : Nat)
  /-- `.next_tuple()` with so many elements -/
  | tuple (n : Nat)
  /-- `.unwrap()` of an option -/
  | unwrap
  /-- `?` -/
  | try_
  /-- `.0`, `.1` -/
  | field (i : Nat)
  /-- `.map(|x| x.0)` -/
  | mapField (i : Nat)
  /-- `.map(|(x, y)| (y, x))` -/
  | mapSwap
  /-- anything else -/
  | other (tag : Nat)
  deriving DecidableEq, Repr

/-- Something is done with the result; is it written where the first call is, or does it come from a macro? -/
structure Parent where
  node : Node
  same : Bool
  deriving DecidableEq, Repr

/-- A whole expression. -/
structure Chain where
  base : Base
  nodes : List Node
  deriving DecidableEq, Repr

abbrev Name := Nat

/-- Statements of a block. -/
inductive Stmt where
  /-- `let name = recv.…;`; is the pattern just a name (without `mut` or `ref`)? -/
  | use (name : Name) (simple : Bool) (recv : Name) (nodes : List Parent)
  /-- Anything else: the names it mentions and those it declares. -/
  | code (tag : Nat) (uses binds : List Name)
  /-- `let (a, b) = chain;` -/
  | pair (a b : Name) (c : Chain)
  deriving DecidableEq, Repr

end Verif.Splitn
