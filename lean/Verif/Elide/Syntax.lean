/-!
# Syntax: function signatures with lifetimes
-/

namespace Verif.Elide

/-- A declared lifetime parameter, as the compiler resolves its name. -/
abbrev Id := Nat

/-- A lifetime as it is written. -/
inductive Lt where
  /-- `'a` -/
  | named (a : Id)
  /-- `'_`, or nothing at all where a lifetime is expected -/
  | anon
  /-- `'static` -/
  | static
  deriving DecidableEq, Repr

/-- A type, or a list of bounds, whose lifetimes are taken from `L`. -/
inductive Ty (L : Type) where
  /-- a name without arguments -/
  | con (c : Nat)
  /-- a lifetime that is an argument (`Foo<'a>`) or a bound (`impl Foo + 'a`) -/
  | lt (l : L)
  /-- `&'a T` -/
  | ref (l : L) (t : Ty L)
  /-- a name or a list of bounds, and one more argument or bound -/
  | app (t u : Ty L)
  /-- a function pointer or a bound `Fn(..) -> ..`: a scope of its own for lifetimes not written -/
  | site (t : Ty L)
  /-- `dyn T + 'a`, or `dyn T` -/
  | dyn (l : Option L) (t : Ty L)
  deriving DecidableEq, Repr

/-- A predicate on the parameters of a function. -/
inductive Pred where
  /-- `'a: 'b` -/
  | region (a b : Lt)
  /-- `for<..> T: B`, in a `where` clause or behind the parameter -/
  | bound (ty : Ty Lt) (binders : List Id) (bounds : Ty Lt) (clause : Bool)
  deriving DecidableEq, Repr

/-- A function. -/
structure Sig where
  /-- the lifetime parameters -/
  params : List Id
  preds : List Pred
  inputs : List (Ty Lt)
  output : Ty Lt
  /-- the first input is `self` and is a reference, `&'a self` -/
  selfRef : Bool
  /-- the first input is `self: T`, and the supported compilers do not elide lifetimes there -/
  oldSelf : Bool
  /-- the lifetimes that the body mentions -/
  body : List Lt
  deriving DecidableEq, Repr

end Verif.Elide
