/-!
# Syntax: calls of `fold`
-/

namespace Verif.Fold

abbrev Name := Nat

inductive Mut where
  | shared
  | mutable
  deriving DecidableEq, Repr

inductive Op where
  | or
  | and
  | add
  | mul
  | gt
  deriving DecidableEq, Repr

inductive Expr where
  | bool (b : Bool)
  | num (n : Nat)
  | var (x : Name)
  /-- the field `x` in `S { x }` -/
  | short (x : Name)
  /-- such a field with other text in its place -/
  | broken
  | deref (e : Expr)
  /-- a call of some function -/
  | call (e : Expr)
  | bin (o : Op) (a b : Expr)
  | set (x : Name) (e : Expr)
  /-- `let x = a; b` -/
  | letIn (x : Name) (a b : Expr)
  /-- a block without statements -/
  | block (e : Expr)
  deriving DecidableEq, Repr

/-- A pattern: references, and then a name or `_`. -/
structure Pat where
  refs : List Mut
  isMut : Bool
  name : Option Name
  deriving DecidableEq, Repr

/-- The function that is given to `fold`. -/
inductive Fun where
  | closure (acc item : Pat) (body : Expr)
  /-- `Add::add`, `Mul::mul` -/
  | method (o : Op)
  | other
  deriving DecidableEq, Repr

/-- How the iterator was made from an option. -/
inductive Recv where
  | iter
  | iterMut
  | intoIter
  | other
  deriving DecidableEq, Repr

inductive Adapter where
  | asRef
  | asMut
  | none
  deriving DecidableEq, Repr

/-- `recv.fold(init, f)`. -/
structure Call where
  /-- whether the receiver is made from an option -/
  isOption : Bool
  recv : Recv
  init : Expr
  /-- the type of `init` is `Copy` -/
  copy : Bool
  /-- `init` is a parameter of a closure -/
  param : Bool
  f : Fun
  deriving DecidableEq, Repr

inductive Sugg where
  | any (x : Name) (body : Expr)
  | all (x : Name) (body : Expr)
  | sum
  | product
  /-- `.as_ref().map_or(init, |item| body)` -/
  | mapOr (ad : Adapter) (init : Expr) (item : Pat) (body : Expr)
  deriving DecidableEq, Repr

end Verif.Fold
