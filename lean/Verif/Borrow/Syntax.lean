import Verif.Mir.Syntax

/-! The instructions of a body, as far as references are concerned. -/

namespace Verif.Borrow

open Verif.Mir (Local Place Elem)

/-- An operand. -/
inductive Operand
  | copy (p : Place)
  | move (p : Place)
  | const
  deriving DecidableEq, Repr

/-- The place of an operand. -/
def Operand.place : Operand → Option Place
  | .copy p => some p
  | .move p => some p
  | .const => none

/-- What is assigned. -/
inductive Rvalue
  /-- `&p`, or `&mut p` -/
  | ref (m : Bool) (p : Place)
  /-- the copy of a reference that is dereferenced next -/
  | derefCopy (p : Place)
  | use (o : Operand)
  | cast (o : Operand)
  /-- repeated elements, operators and aggregates -/
  | ops (os : List Operand)
  /-- lengths, discriminants, raw pointers and the like -/
  | plain
  deriving DecidableEq, Repr

/-- A statement or a terminator. -/
inductive Instr
  /-- an assignment, with whether the type of the target mentions a lifetime -/
  | assign (dest : Place) (region : Bool) (v : Rvalue)
  | call (args : List Operand) (dest : Place)
  | other
  deriving DecidableEq, Repr

/-- What the types of the locals say. -/
structure Types where
  /-- the type is `Copy` -/
  copy : Local → Bool
  /-- the type is `&mut T` -/
  mutRef : Local → Bool
  /-- the type mentions a lifetime -/
  region : Local → Bool
  /-- values of the type contain a mutable reference -/
  holdsMut : Local → Bool

end Verif.Borrow
