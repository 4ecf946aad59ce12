/-!
# Syntax: `if s.starts_with(p) { … }`
-/

namespace Verif.Strip

abbrev Name := Nat

inductive Kind where
  | pre
  | suf
  deriving DecidableEq, Repr

/-- Strings and characters are given by their bytes in UTF-8. -/
inductive Expr where
  | num (n : Nat)
  | str (bs : List Nat)
  | chr (bs : List Nat)
  | var (x : Name)
  /-- `e.len()` -/
  | len (e : Expr)
  | sub (a b : Expr)
  /-- `e[a..]` -/
  | sliceFrom (e a : Expr)
  /-- `e[..b]`, or `e[..=b]` -/
  | sliceTo (closed : Bool) (e b : Expr)
  | addr (e : Expr)
  /-- a call of some function -/
  | call (e : Expr)
  | seq (a b : Expr)
  /-- `let x = a; b`, or `let mut x = a; b` -/
  | letIn (mutbl : Bool) (x : Name) (a b : Expr)
  | set (x : Name) (e : Expr)
  deriving DecidableEq, Repr

/-- `if target.starts_with(pattern) { body } else { other }`, or `ends_with`.  If the code is in a closure,
`upvars` are the variables from outside of it. -/
structure Test where
  kind : Kind
  target : Name
  pattern : Expr
  body : Expr
  other : Expr
  upvars : List Name
  deriving DecidableEq, Repr

end Verif.Strip
