/-!
# Types, definitions and expressions, for the analysis of types that need no context

A definition (a function, a method, a variant, a type) has type parameters: those of what surrounds it (the `impl`, the
trait, the `enum` of a variant), and its own.  A path is a row of segments; each may carry type arguments.
-/

namespace Verif.Certain

/-- The heads of types. -/
inductive Con where
  /-- A `struct`, `enum` or `union`, or a trait at the front of a path. -/
  | adt (d : Nat)
  /-- The type of the function or constructor itself. -/
  | fnDef (d : Nat)
  | tuple
  | array
  | ref
  | other (n : Nat)
  deriving DecidableEq

/-- Types. -/
inductive Ty where
  | con (c : Con) (args : List Ty)

/-- Types over the parameters of a definition. -/
inductive Sch where
  | var (i : Nat)
  | con (c : Con) (args : List Sch)
  /-- `<s as Trait>::p` -/
  | proj (p : Nat) (s : Sch)

/-- A definition. -/
structure Def where
  /-- The number of type parameters of what surrounds it. -/
  parents : Nat
  /-- The number of its own type parameters. -/
  own : Nat
  /-- The number of its own lifetime parameters (those that may be written down). -/
  lifetimes : Nat
  /-- A variant or constructor: type arguments behind it are those of the type. -/
  variant : Bool
  /-- It is part of an `impl` without trait. -/
  inherent : Bool
  /-- What the path in front of it stands for: the type of the `impl`, the `enum`. -/
  head : Sch
  /-- The type it stands for, or its own type if it is a value. -/
  out : Sch
  /-- The types of the parameters of a function. -/
  inputs : List Sch
  /-- The type returned by a function. -/
  output : Sch

mutual
/-- Written types. -/
inductive HTy where
  /-- `_` -/
  | infer
  | path (s : Start) (segs : Segs)
  | app (c : Con) (args : HTys)
/-- The type in `<T>::a::b`, `<T as Trait>::a` and `T::a`, if there is one; also the type in `let x: T`. -/
inductive Start where
  | none
  | ty (h : HTy)
/-- The segments of a path. -/
inductive Segs where
  | nil
  /-- A module or crate. -/
  | modl (rest : Segs)
  /-- A primitive type, `Self`, or a type parameter in scope. -/
  | fixed (t : Ty) (rest : Segs)
  /-- A definition.  `err`: name resolution leaves it to the type checker. -/
  | defn (err : Bool) (d : Nat) (args : Args) (rest : Segs)
  | unknown (rest : Segs)
/-- The type arguments of a segment, if there are any; `f::<'static>` has arguments, but none that is a type. -/
inductive Args where
  | absent
  | given (tys : HTys)
/-- Rows of written types. -/
inductive HTys where
  | nil
  | cons (h : HTy) (hs : HTys)
end

/-- No more segments. -/
def Segs.isNil : Segs → Bool
  | .nil => true
  | _ => false

mutual
/-- Expressions. -/
inductive Ex where
  | un (op : Nat) (e : Ex)
  | field (e : Ex) (f : Nat)
  | idx (a i : Ex)
  | addr (e : Ex)
  | arr (es : Exs)
  /-- The definition that is called, if it is one. -/
  | call (d : Option Nat) (f : Ex) (es : Exs)
  /-- A call of the method `d`. -/
  | method (r : Ex) (d : Nat) (args : Args) (es : Exs)
  | tup (es : Exs)
  | bin (op : Nat) (l r : Ex)
  /-- A number without suffix. -/
  | num
  /-- Any other literal. -/
  | lit (t : Ty)
  | cast (e : Ex) (h : HTy)
  | ifElse (c t e : Ex)
  /-- A variable declared by `let x: ann = init;` -/
  | loc (ann : Start) (init : Init)
  /-- A parameter of a function or closure. -/
  | param (ann : Start)
  | path (s : Start) (segs : Segs)
  /-- `path { .. }` -/
  | strct (s : Start) (segs : Segs)
  | other
/-- The initial value of a variable. -/
inductive Init where
  | none
  | some (e : Ex)
/-- Rows of expressions. -/
inductive Exs where
  | nil
  | cons (e : Ex) (es : Exs)
end

end Verif.Certain
