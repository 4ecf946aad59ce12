import Verif.Ctrl.Syntax

/-!
# Matches on `Option` and `Result`

What the lints about such matches look at: patterns, the bodies of the two arms, and the edits.  The
expressions inside are those of `Verif.Ctrl`.
-/

namespace Verif.OptMatch
open Ctrl (Name Expr Cond)

/-- Types, as far as patterns take them apart. -/
inductive Ty where
  | atom
  | opt (t : Ty)
  | res (t e : Ty)
  | pair (a b : Ty)
  /-- `&t` or `&mut t`. -/
  | ref (mt : Bool) (t : Ty)
  deriving DecidableEq

/-- How a name in a pattern is written: `ref`, `ref mut`, `mut`. -/
structure Bind where
  /-- `ref` (`some false`) or `ref mut` (`some true`). -/
  byRef : Option Bool
  mt : Bool
  deriving DecidableEq

/-- `x` -/
def Bind.plain : Bind := ⟨none, false⟩

/-- Patterns. -/
inductive Pat where
  | wild
  | bind (b : Bind) (x : Name)
  /-- `x @ p` -/
  | bindAt (b : Bind) (x : Name) (p : Pat)
  /-- `&p` or `&mut p`. -/
  | ref (mt : Bool) (p : Pat)
  | none
  | some (p : Pat)
  /-- `Some(..)` -/
  | someRest
  | ok (p : Pat)
  | err (p : Pat)
  /-- A tuple; longer ones are nested. -/
  | pair (p q : Pat)
  /-- A constant. -/
  | lit (n : Nat)
  | or (p q : Pat)
  deriving DecidableEq

/-- An operand. -/
inductive Arg where
  | plain (e : Expr)
  /-- `f(a)`; whether the compiler adjusts `a`, and whether `f` is an `unsafe` function. -/
  | call (f a : Expr) (adj unsafeFn : Bool)

/-- The condition of an `if`. -/
inductive Test where
  | arg (a : Arg)
  | cond (c : Cond)

/-- The body of an arm. -/
inductive Body where
  | none
  | some (a : Arg)
  /-- A block without statements. -/
  | block (uns : Bool) (b : Body)
  | ite (c : Test) (t e : Body)
  | other (e : Expr)

structure Arm where
  pat : Pat
  guard : Option Cond
  body : Body

/-- What is matched on: `base` below some `&` and `&mut`, from the outside to the inside. -/
structure Scrut where
  addrs : List Bool
  base : Expr
  /-- Whether `base` is a place (a variable, a field, …). -/
  isPlace : Bool
  /-- The type of `base`. -/
  ty : Ty

/-- The type of the whole expression. -/
def Scrut.fullTy (s : Scrut) : Ty := s.addrs.foldr .ref s.ty

/-- The code the lints look at. -/
inductive Form where
  | mtch (arms : List Arm)
  | ifLet (p : Pat) (t e : Body)

/-- `.as_ref()` or `.as_mut()`. -/
inductive Adaptor where
  | asIs | asRef | asMut
  deriving DecidableEq

/-- What is passed to the method. -/
inductive Fun where
  /-- `|p| body`, or `|p| !body`. -/
  | closure (p : Pat) (neg : Bool) (body : Test)
  /-- An expression that is a function. -/
  | func (f : Expr)
  /-- Text which is not an expression. -/
  | garbage

/-- `base.as_ref().METHOD(fn)`. -/
structure Edit where
  base : Expr
  isPlace : Bool
  ty : Ty
  adaptor : Adaptor
  fn : Fun

/-- Other method calls that are suggested. -/
inductive Call where
  | unwrapOr (b : Body)
  | unwrapOrDefault
  | ok (ad : Adaptor)
  | err (ad : Adaptor)

end Verif.OptMatch
