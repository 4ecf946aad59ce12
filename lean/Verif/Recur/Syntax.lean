/-!
# Function bodies, as the lint about parameters only used in recursion sees them

One function that may call itself.  Its parameters are the variables `0`, `1`, …; other variables
come after them.
-/

namespace Verif.Recur

mutual

inductive Ex where
  /-- A literal or constant. -/
  | const (c : Nat)
  | var (x : Nat)
  /-- An operator other than `&&` and `||`; `prim`: both operands have primitive types. -/
  | bin (op : Nat) (prim : Bool) (a b : Ex)
  /-- `a && b` (`isAnd`) or `a || b`. -/
  | logic (isAnd : Bool) (a b : Ex)
  | un (op : Nat) (prim : Bool) (a : Ex)
  | addr (a : Ex)
  | cast (n : Nat) (a : Ex)
  /-- A field; `adj`: there is an automatic dereference. -/
  | field (adj : Bool) (n : Nat) (a : Ex)
  /-- A call of the function itself, as a function or a method. -/
  | call (args : Exs)
  /-- Anything else that evaluates its parts and then does something: other calls, dereferences,
  indexing, macros, structs. -/
  | other (n : Nat) (args : Exs)
  | assign (l r : Ex)
  /-- `l op= r` -/
  | assignOp (op : Nat) (prim : Bool) (l r : Ex)
  | ifElse (c a b : Ex)
  | ifThen (c a : Ex)
  /-- `match s { x => body }` -/
  | matchOne (x : Nat) (s body : Ex)
  /-- `{ …; tail }` -/
  | block (ss : Stmts) (tail : Ex)
  | loop (body : Ex)
  | brk
  | ret (e : Ex)

inductive Exs where
  | nil
  | cons (e : Ex) (es : Exs)

inductive Stmts where
  | nil
  /-- `e;` -/
  | expr (e : Ex) (ss : Stmts)
  | bind (x : Nat) (e : Ex) (ss : Stmts)

end

/-- A function: the number of its parameters, which of them have a name without `_` at the start and
may be removed, and the body. -/
structure Fn where
  arity : Nat
  named : Nat → Bool
  body : Ex

end Verif.Recur
