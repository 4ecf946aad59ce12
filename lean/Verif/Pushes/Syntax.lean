/-!
# The body of a `for` loop

Expressions, lists of arguments and blocks are all in one type. Locals, constants and operations have numbers; two locals with one name have
different numbers.
-/

namespace Verif.Pushes

/-- How a block can be left early. -/
inductive Jump
  | brk
  | cont
  | ret
deriving DecidableEq, Repr

/-- Code: expressions (`lit` to `push`), arguments (`nil`, `cons`), and the inside of blocks (`stmt` to `done`). -/
inductive Code
  | lit (n : Nat)
  | const (k : Nat)
  | path (x : Nat)
  /-- Any other expression: calls, operators, assignments, fields, … -/
  | op (k : Nat) (args : Code)
  | jmp (j : Jump) (args : Code)
  | closure (body : Code)
  | ite (c t e : Code)
  | loop (body : Code)
  | mat (scrut a b : Code)
  | block (body : Code)
  /-- `recv.push(item)`, where `recv` is a `Vec`. -/
  | push (recv item : Code)
  | nil
  | cons (e es : Code)
  /-- An expression as a statement, with `;` or without. -/
  | stmt (semi : Bool) (e rest : Code)
  /-- `let x = init;` -/
  | bind (x : Nat) (init rest : Code)
  /-- The last expression of a block. -/
  | tail (e : Code)
  | done
deriving DecidableEq, Repr

/-- What is known about locals: whether they are declared `mut`, whether their type has interior mutability, and their initialiser if they are
the whole pattern of a `let`. -/
structure Decls where
  isMut : Nat → Bool
  isCell : Nat → Bool
  init : Nat → Option Code

end Verif.Pushes
