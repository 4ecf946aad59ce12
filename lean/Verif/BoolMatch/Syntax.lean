import Verif.Needless.Syntax

/-!
# Matches with the values `true` and `false`
-/

namespace Verif.BoolMatch
open Needless (Pat Pats Name)

/-- The variants there are methods for. -/
inductive Variant where
  | ok | err | some | none | ready | pending | v4 | v6
  deriving DecidableEq

/-- Their constructors. -/
def Variant.ctor : Variant → Nat
  | .none => 0
  | .some => 1
  | .ok => 2
  | .err => 3
  | .ready => 4
  | .pending => 5
  | .v4 => 6
  | .v6 => 7

/-- The path `Pending`. -/
def pendingK : Nat := 5

/-- The body of an arm: `b`, `{ b }`, or anything else. -/
inductive Body where
  | lit (b : Bool)
  | blk (b : Bool)
  | other (n : Nat)

structure BArm where
  pat : Pat
  guard : Option Nat
  body : Body

/-- The pattern of `if let`: also `&p` and `C(..)`. -/
inductive LetPat where
  | plain (p : Pat)
  | rest (c : Nat)
  | ref (p : LetPat)

/-- What is matched on: an expression, `&` or `*` of one. -/
inductive Scrut where
  | plain (n : Nat)
  | addrOf (n : Nat)
  | deref (n : Nat)

/-- `e.is_…()`, perhaps `&& guard`. -/
structure Call where
  recv : Scrut
  method : Variant
  guard : Option Nat

/-- `matches!(e, p | … if guard)`, perhaps with `!`. -/
structure Macro where
  recv : Scrut
  neg : Bool
  pats : List Pat
  guard : Option Nat

end Verif.BoolMatch
