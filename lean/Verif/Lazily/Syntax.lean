/-!
# Expressions, as the test for cheap expressions sees them

The kinds of expressions that `expr_eagerness` tells apart, with what it asks the compiler about
them.
-/

namespace Verif.Lazily

/-- Types, as far as they are asked for. -/
inductive Ty where
  | int (signed : Bool) (bits : Nat)
  | bool
  | float
  | char
  | adt
  deriving DecidableEq

inductive BinOp where
  | add | sub | mul | div | rem | shl | shr | and | or
  /-- Comparisons and bit operations. -/
  | other (n : Nat)
  deriving DecidableEq

/-- What a path means. -/
inductive PathRes where
  | loc | const | static | ctor
  deriving DecidableEq

/-- What `*` is applied to. -/
inductive DerefKind where
  | builtin | user | raw
  deriving DecidableEq

/-- What is known about a function that is called. -/
structure FnInfo where
  /-- It belongs to an implementation (`impl_of_assoc`). -/
  inImpl : Bool
  /-- `is_empty`, `len` or `as_…`. -/
  accessor : Bool
  /-- The standard library defines it. -/
  std : Bool
  /-- A test `(self) -> bool` of a type with only generic fields. -/
  cheapTest : Bool
  /-- It is a stable `const fn`. -/
  constFn : Bool
  /-- It is an `unsafe fn`.  The code does not ask. -/
  isUnsafe : Bool

mutual

/-- Expressions. -/
inductive Ex where
  /-- Array, tuple, literal, cast, type ascription, reference, repetition, field. -/
  | plain (k : Nat) (es : Exs)
  /-- A closure; its body is not run. -/
  | closure (k : Nat)
  /-- A field of a union. -/
  | union (k : Nat) (e : Ex)
  /-- A name; `drops`: its type has a destructor with effects. -/
  | path (r : PathRes) (drops : Bool) (x : Nat)
  /-- A struct, or a call of a constructor. -/
  | ctor (drops : Bool) (k : Nat) (es : Exs)
  /-- A call of a function that can be promoted to a constant. -/
  | promo (f : Nat) (es : Exs)
  | call (f : Nat) (info : FnInfo) (es : Exs)
  /-- A call of a value. -/
  | callVal (f : Ex) (es : Exs)
  /-- A method; the receiver is the first operand. -/
  | method (f : Nat) (info : FnInfo) (e : Ex) (es : Exs)
  /-- `slice`: of a slice or an array; `copyIdx`: the index is `Copy` and no reference. -/
  | index (slice copyIdx : Bool) (a i : Ex)
  | neg (t : Ty) (e : Ex)
  | not (t : Ty) (e : Ex)
  | deref (d : DerefKind) (e : Ex)
  /-- `ta`, `tb` are the types of the operands, `t` that of the result. -/
  | bin (op : BinOp) (ta tb t : Ty) (a b : Ex)
  /-- `break`, `continue`, `return`, `yield` (`.await`), inline assembly. -/
  | leave (isRet : Bool) (es : Exs)
  | lp (e : Ex)
  /-- `if`, `match`, `let`. -/
  | branch (k : Nat) (c : Ex) (a : Ex) (rest : Exs)
  /-- A block without statements. -/
  | block (e : Ex)
  /-- A block with statements. -/
  | stmts (es : Exs) (e : Ex)
  | assign (l r : Ex)
  /-- An expression that the compiler sends through a user's `Deref`. -/
  | adj (e : Ex)

/-- Operands. -/
inductive Exs where
  | nil
  | cons (e : Ex) (es : Exs)

end

/-- Values. -/
inductive V where
  | num (n : Int)
  | obj (n : Nat)
  deriving DecidableEq

end Verif.Lazily
