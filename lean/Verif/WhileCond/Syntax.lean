/-!
# Syntax: `while` loops

Every binding has its own name, as with `HirId`s.  Loops that are left or continued are counted from the inside.
-/

namespace Verif.WhileCond

abbrev Name := Nat

inductive Val where
  | unit
  | bool (b : Bool)
  | num (n : Int)
  | ptr (a : Nat)
  deriving DecidableEq, Repr

inductive Expr where
  | lit (v : Val)
  | var (x : Name)
  /-- a static variable -/
  | stat (mutbl : Bool) (s : Name)
  | deref (e : Expr)
  /-- an operator of the language -/
  | op (f : Nat) (a b : Expr)
  /-- an operator that is implemented by a trait -/
  | overOp (f : Nat) (a b : Expr)
  | call (f : Nat) (e : Expr)
  /-- a call that is passed `&mut x` -/
  | callMut (f : Nat) (x : Name)
  | set (x : Name) (e : Expr)
  | setStat (mutbl : Bool) (s : Name) (e : Expr)
  /-- `*p = e` -/
  | setDeref (p e : Expr)
  | seq (a b : Expr)
  | letIn (x : Name) (a b : Expr)
  | ite (c a b : Expr)
  | brk (n : Nat)
  | cont (n : Nat)
  | ret (e : Expr)
  | loop (e : Expr)
  deriving DecidableEq, Repr

/-- `while cond { body }`; `upvars` are the variables that the enclosing closure captures. -/
structure Loop where
  cond : Expr
  body : Expr
  upvars : List Name
  deriving DecidableEq, Repr

end Verif.WhileCond
