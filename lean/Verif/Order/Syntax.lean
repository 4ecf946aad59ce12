/-!
# Expressions with reads of and writes to locals

Locals, reads, writes and operations have numbers. Expressions and lists of operands are in one type.
-/

namespace Verif.Order

inductive Code
  | lit (n : Nat)
  /-- The read `r` of a local. -/
  | read (r x : Nat)
  /-- `x = e`, the write `w`. -/
  | assign (w x : Nat) (e : Code)
  /-- `x += e`, the read `r` and the write `w`. -/
  | assignOp (r w x : Nat) (e : Code)
  /-- Calls, methods, operators, tuples, arrays, structs, indexing, and assignments to anything but locals. -/
  | op (k : Nat) (args : Code)
  | seq (a b : Code)
  /-- `if`, `match`, `&&` and `||`. -/
  | ite (c t e : Code)
  | while_ (c b : Code)
  /-- `&e` -/
  | addr (e : Code)
  /-- A closure that captures a local by value. -/
  | closure (x : Nat) (body : Code)
  /-- `let pat = init else { els }` -/
  | letElse (init els : Code)
  | nil
  | cons (e es : Code)
deriving DecidableEq, Repr

end Verif.Order
