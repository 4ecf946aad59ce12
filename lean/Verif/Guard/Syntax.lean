/-!
# Arms of a `match`: patterns, guards and values
-/

namespace Verif.Guard

/-- Names of variables and of fields. -/
abbrev Id := Nat

mutual
/-- Patterns. -/
inductive Pat where
  | wild
  /-- `x`, `ref x` -/
  | bind (byref : Bool) (x : Id)
  /-- `x @ p` -/
  | bindAt (byref : Bool) (x : Id) (p : Pat)
  | lit (n : Int)
  /-- A constructor with arguments, or a tuple. -/
  | con (c : Nat) (ps : Pats)
  | strct (c : Nat) (fs : Fields)
  | ref (p : Pat)
  | or (ps : Pats)
  /-- `[a, b]` -/
  | slice (ps : Pats)
  /-- `[a, b, ..]` -/
  | front (ps : Pats)
  /-- `[.., a, b]` -/
  | back (ps : Pats)
/-- Rows of patterns. -/
inductive Pats where
  | nil
  | cons (p : Pat) (ps : Pats)
/-- The fields of a struct pattern: `x`, `f: p`; fields which are not listed match anything. -/
inductive Fields where
  | nil
  | short (byref : Bool) (x : Id) (fs : Fields)
  | named (f : Id) (p : Pat) (fs : Fields)
end

mutual
/-- Values; references are not told apart from what they refer to. -/
inductive Val where
  | lit (n : Int)
  | con (c : Nat) (vs : Vals)
  | strct (c : Nat) (fs : FVals)
  | slice (vs : Vals)
/-- Rows of values. -/
inductive Vals where
  | nil
  | cons (v : Val) (vs : Vals)
/-- Fields with values. -/
inductive FVals where
  | nil
  | cons (f : Id) (v : Val) (fs : FVals)
end

mutual
/-- Expressions in guards. -/
inductive Ex where
  | loc (x : Id)
  | lit (n : Int)
  /-- `-n` -/
  | neg (n : Int)
  /-- A constructor with arguments, or a tuple. -/
  | con (c : Nat) (es : Exs)
  | strct (c : Nat) (fs : EFields)
  | arr (es : Exs)
  | addr (e : Ex)
  /-- Anything else, with the variables it uses. -/
  | other (k : Nat) (uses : List Id)
/-- Rows of expressions. -/
inductive Exs where
  | nil
  | cons (e : Ex) (es : Exs)
/-- Fields with expressions. -/
inductive EFields where
  | nil
  | cons (f : Id) (e : Ex) (fs : EFields)
end

/-- A condition or a body, by the variables it uses. -/
structure Code where
  uses : List Id
  k : Nat

/-- Guards. -/
inductive Grd where
  /-- `matches!(e, p if g)` -/
  | matches (e : Ex) (p : Pat) (g : Option Code)
  /-- `let p = e` -/
  | let_ (p : Pat) (e : Ex)
  /-- `l == r` -/
  | eq (l r : Ex)
  /-- `recv.m(args)` -/
  | method (recv : Ex) (m : Nat) (args : List Ex)
  | other (c : Code)

/-- Arms. -/
structure Arm where
  pat : Pat
  guard : Option Grd
  body : Code

/-- The method `is_empty`. -/
abbrev isEmpty : Nat := 0
/-- The method `starts_with`. -/
abbrev startsWith : Nat := 1
/-- The method `ends_with`. -/
abbrev endsWith : Nat := 2

/-- The number for the literal `""`. -/
abbrev emptyStr : Int := 0

/-- The types of receivers, without references: `str`, arrays and slices, others. -/
inductive RTy where
  | str
  | slice
  | other
  deriving DecidableEq

end Verif.Guard
