import Verif.Common.RInt

/-!
# Remainders of numbers with signs: what is meant

The sign of a remainder is that of the first operand in Rust (`Int.tmod`), and that of the second in other languages (`Int.fmod`).
-/

namespace Verif.Modulo
open Verif.RInt

/-- Types. -/
inductive Ty
  | int (bits : Nat)
  | uint (bits : Nat)
  | float
  | ref (t : Ty)
  | other
deriving DecidableEq, Repr

/-- Values of a type of integers. -/
def Ty.Has : Ty → Int → Prop
  | .int w, v => IT.In ⟨true, w⟩ v
  | .uint w, v => IT.In ⟨false, w⟩ v
  | _, _ => False

/-- Types of integers of Rust. -/
def Ty.Integer : Ty → Prop
  | .int w => 0 < w ∧ w ≤ 128
  | .uint w => 0 < w ∧ w ≤ 128
  | _ => False

/-- Constants: the bits of an integer, a float (negative or not), another one. -/
inductive Const
  | int (bits : Nat)
  | float (neg : Bool)
  | other
deriving DecidableEq, Repr

/-- What is known about an expression of type `t` is true of its value. -/
def Fits (t : Ty) (v : Int) : Option Const → Prop
  | none => True
  | some (.int b) => match t with
    | .int w => b = IT.toBits ⟨true, w⟩ v
    | .uint w => b = IT.toBits ⟨false, w⟩ v
    | _ => False
  | some _ => False

/-- An operand: its type, and what is known about it. -/
structure Operand where
  ty : Ty
  known : Option Const
deriving DecidableEq, Repr

/-- The operators around a remainder. -/
inductive Op
  | eq | ne
  | other (k : Nat)
deriving DecidableEq, Repr

/-- The expression around a remainder, if it is a binary operation: the operator, whether the remainder is its left operand, and what is known about the
remainder and the other operand. -/
structure Around where
  op : Op
  left : Bool
  self : Option Const
  oth : Option Const
deriving DecidableEq, Repr

/-- The remainder `lhs % rhs`, of type `ty`, in what is around it. -/
structure Rem where
  ty : Ty
  lhs : Operand
  rhs : Operand
  around : Option Around
deriving DecidableEq, Repr

/-- What the program sees of the remainder `m`: the number, or whether it is equal to the other operand `z` of a comparison. -/
inductive Seen
  | num (m : Int)
  | same (b : Bool)
deriving DecidableEq, Repr

/-- What the program sees of a remainder `m`. -/
def Rem.seen (e : Rem) (z m : Int) : Seen :=
  match e.around with
  | some ⟨.eq, _, _, _⟩ => .same (decide (m = z))
  | some ⟨.ne, _, _, _⟩ => .same (decide (m ≠ z))
  | _ => .num m

/-- `a`, `b`, `z` are values the operands and the other operand of a comparison can have. -/
structure Rem.Can (e : Rem) (a b z : Int) : Prop where
  lhs : e.ty.Has a
  rhs : e.ty.Has b
  knownL : Fits e.ty a e.lhs.known
  knownR : Fits e.ty b e.rhs.known
  self : ∀ p, e.around = some p → e.ty.Has (a.tmod b) ∧ Fits e.ty (a.tmod b) p.self
  oth : ∀ p, e.around = some p → e.ty.Has z ∧ Fits e.ty z p.oth

/-- What is reported: whether both operands are constants (and which, if the message shows them), and whether `rem_euclid` is mentioned. -/
structure Report where
  consts : Option (Int × Int)
  euclid : Bool
deriving DecidableEq, Repr

end Verif.Modulo
