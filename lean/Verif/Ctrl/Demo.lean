import Verif.Ctrl.Spec

/-!
# A concrete language for examples

Operations: `0` reads a truth value, `1` prints the variables it mentions and its operands, `2`
panics, `n + 3` is the number `n`.  Patterns: `0` binds, `1` matches what is not zero and binds
it.  The next element of any iterator comes from the input.
-/

namespace Verif.Ctrl

/-- The language of the examples: the state is the output and the input that is left. -/
def demo : Sem where
  W := List Nat × List Nat
  V := Nat
  unit := 0
  truth := fun v => v != 0
  prim := fun n us vs w =>
    match n with
    | 0 => (some w.2.head!, (w.1, w.2.tail))
    | 1 => (some 0, (w.1 ++ us ++ vs, w.2))
    | 2 => (none, w)
    | n + 3 => (some n, w)
  pat := fun p v =>
    match p with
    | 0 => some [v]
    | _ => if v = 0 then none else some [v]
  next := fun _ w =>
    match w.2 with
    | [] => (some none, w)
    | 0 :: r => (some none, (w.1, r))
    | v :: r => (some (some v), (w.1, r))
  item := fun n => n

/-- No variables. -/
def demoEnv : Env demo := fun _ => (0 : Nat)

/-- Read from the input. -/
def readE : Expr := .prim 0 [] .nil

/-- Print a number. -/
def sayE (n : Nat) : Expr := .prim 1 [] (.cons (.prim (n + 3) [] .nil) .nil)

/-- Print a variable. -/
def showE (x : Name) : Expr := .prim 1 [x] .nil

/-- What a program prints. -/
def output (k : Nat) (e : Expr) (input : List Nat) : List Nat :=
  (eval (S := demo) k e demoEnv ([], input)).2.1

/-- How a program ends. -/
def outcome (k : Nat) (e : Expr) (input : List Nat) : Except (Exit Nat) Nat :=
  (eval (S := demo) k e demoEnv ([], input)).1

deriving instance DecidableEq for Except

end Verif.Ctrl
