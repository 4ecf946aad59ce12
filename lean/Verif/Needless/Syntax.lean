/-!
# Matches that give back what they match on

Patterns and the expressions that look like them.
-/

namespace Verif.Needless

abbrev Name := Nat

/-- Literals: integers, and floating point numbers by their digits (0 is zero). -/
inductive Lit where
  | int (n : Nat)
  | float (n : Nat)
  deriving DecidableEq

mutual

inductive Pat where
  | wild
  /-- A name, perhaps with `ref`. -/
  | bind (byRef : Bool) (x : Name)
  /-- `x @ p` -/
  | bindAt (byRef : Bool) (x : Name) (p : Pat)
  /-- `C(p, …)` -/
  | ctor (c : Nat) (ps : Pats)
  /-- A constant, or a constructor without fields. -/
  | path (k : Nat)
  | lit (l : Lit)
  /-- Any other pattern, without names. -/
  | other (n : Nat)

inductive Pats where
  | nil
  | cons (p : Pat) (ps : Pats)

end

mutual

/-- Bodies of arms. -/
inductive Ex where
  | var (x : Name)
  /-- `x::K`: a path that begins with this name. -/
  | varPath (x : Name) (k : Nat)
  | path (k : Nat)
  | lit (l : Lit)
  | call (c : Nat) (es : Exs)
  /-- Any other expression, as those which are matched on; equal numbers for equal code. -/
  | scr (n : Nat)
  /-- A block with an expression. -/
  | blk (e : Ex)
  /-- A block with one statement: its value is `()`. -/
  | semi (e : Ex)
  /-- Any other block. -/
  | stmts (n : Nat)

inductive Exs where
  | nil
  | cons (e : Ex) (es : Exs)

end

structure Arm where
  pat : Pat
  /-- A guard. -/
  guard : Option Nat
  body : Ex

/-- `if let p = scrut { body } else …`. -/
inductive IfLet where
  /-- Without `else`. -/
  | noElse (p : Pat) (scrut : Nat) (body : Ex)
  | elseBlock (p : Pat) (scrut : Nat) (body : Ex) (e : Ex)
  | elseIf (p : Pat) (scrut : Nat) (body : Ex) (next : IfLet)

/-- The path `None`. -/
def noneK : Nat := 0

/-- The constructors of `Option`. -/
def noneC : Nat := 0
def someC : Nat := 1

/-- Types; enums and structures, with their arguments, by number. -/
inductive Ty where
  | unit
  | int
  | float
  | adt (n : Nat)
  | ref (t : Ty)
  deriving DecidableEq

/-- What is around the code, from the inside to the outside. -/
inductive Parent where
  /-- `let x: t = …;` -/
  | letStmt (t : Ty)
  /-- The body of a function. -/
  | fn (t : Ty)
  | block
  /-- An expression; `operand`: its value is another one, as that of a call. -/
  | expr (operand : Bool)
  | other

end Verif.Needless
