/-!
# Syntax: bodies of functions and closures that return an option or a result
-/

namespace Verif.Wraps

abbrev Name := Nat

/-- The variants. -/
inductive Tag where
  | some
  | ok
  | err
  deriving DecidableEq, Repr

inductive Expr where
  | unit
  | num (n : Nat)
  | var (x : Name)
  | none
  /-- `Some(e)`, `Ok(e)` or `Err(e)` -/
  | ctor (t : Tag) (e : Expr)
  /-- a call of some other function -/
  | call (e : Expr)
  | ite (c a b : Expr)
  /-- `match s { _ if g => a, _ => b }` -/
  | mtch (s g a b : Expr)
  /-- `{ a; b }` -/
  | seq (a b : Expr)
  /-- `{ a; }`, where the end is not reached -/
  | stop (a : Expr)
  /-- `{ let x = a; b }` -/
  | letIn (x : Name) (a b : Expr)
  | block (e : Expr)
  /-- `'a: { e }` -/
  | labelled (e : Expr)
  /-- `break 'a e`; the loops and labelled blocks are counted from the inside -/
  | brk (k : Nat) (e : Expr)
  | loop (e : Expr)
  | ret (e : Expr)
  /-- `e?` -/
  | tri (e : Expr)
  /-- the expansion of a macro -/
  | mac (e : Expr)
  deriving DecidableEq, Repr

end Verif.Wraps
