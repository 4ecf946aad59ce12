/-!
# Syntax: expressions with places, loops and closures
-/

namespace Verif.WhileIter

abbrev Var := Nat
abbrev Field := Nat

/-- Expressions with two operands, evaluated in this order. -/
inductive Two where
  /-- calls, blocks, operators -/
  | seq
  /-- the second operand is only evaluated if the first one is not zero: `if`, `&&`, `match` -/
  | lazily
  /-- an assignment: first the value, then the place -/
  | set
  /-- `let x = a else { b }` -/
  | letElse (x : Var)
  deriving DecidableEq, Repr

/-- Expressions with one operand. -/
inductive One where
  /-- `a.next()` -/
  | next
  /-- `let x = a` -/
  | bind (x : Var)
  | loop
  /-- a closure that is called where it stands; `once` if its kind is `FnOnce` -/
  | closure (once : Bool)
  deriving DecidableEq, Repr

inductive Expr where
  | lit (n : Nat)
  | brk
  | path (x : Var)
  | field (e : Expr) (f : Field)
  /-- `*e`; whether `e` is a plain reference -/
  | deref (ref : Bool) (e : Expr)
  | index (e i : Expr)
  /-- a type ascription, or a node of the compiler's without effect -/
  | wrap (e : Expr)
  | addr (e : Expr)
  /-- `e` where the compiler puts in a call of `Deref::deref`; no node of its own -/
  | auto (e : Expr)
  | one (k : One) (e : Expr)
  | two (k : Two) (a b : Expr)
  /-- the loop in question: `while let Some(x) = p.next() { body }` -/
  | here (x : Var) (p body : Expr)
  deriving DecidableEq, Repr

end Verif.WhileIter
