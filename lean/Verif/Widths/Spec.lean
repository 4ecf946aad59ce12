/-!
# Specification: integers of a certain width
-/

namespace Verif.Widths

/-- The width of a type: fixed, or that of pointers. -/
inductive W
  | fixed (bits : Nat)
  | ptr
  deriving DecidableEq, Repr

structure Ty where
  signed : Bool
  width : W
  deriving DecidableEq, Repr

/-- The number of bits, on a machine whose pointers have `p` bits. -/
def Ty.bits (p : Nat) (t : Ty) : Nat :=
  match t.width with
  | .fixed b => b
  | .ptr => p

/-- The numbers of a type. -/
def Ty.has (p : Nat) (t : Ty) (x : Int) : Prop :=
  if t.signed then -(2 : Int) ^ (t.bits p - 1) ≤ x ∧ x < (2 : Int) ^ (t.bits p - 1)
  else 0 ≤ x ∧ x < (2 : Int) ^ t.bits p

/-- `x as t`: the number of the type that has the same lowest bits. -/
def castTo (p : Nat) (t : Ty) (x : Int) : Int :=
  let r := x % (2 : Int) ^ t.bits p
  if t.signed ∧ (2 : Int) ^ (t.bits p - 1) ≤ r then r - (2 : Int) ^ t.bits p else r

inductive Op
  | lt | le | gt | ge | eq | ne
  deriving DecidableEq, Repr

/-- A comparison. -/
def Op.holds (a b : Int) : Op → Prop
  | .lt => a < b
  | .le => a ≤ b
  | .gt => b < a
  | .ge => b ≤ a
  | .eq => a = b
  | .ne => a ≠ b

/-! ## Bits -/

/-- How many zeros there are before the first one, in `b` bits. -/
def leadingZeros : Nat → Nat → Nat
  | 0, _ => 0
  | b + 1, n => if n.testBit b then 0 else 1 + leadingZeros b n

/-- How many bits are needed: the least `k` with `n < 2 ^ k`. -/
def IsWidth (n k : Nat) : Prop := n < 2 ^ k ∧ ∀ j, n < 2 ^ j → k ≤ j

/-- The number in which only the lowest one of `n` is left. -/
def IsLowest (n m : Nat) : Prop :=
  (n = 0 ∧ m = 0) ∨ ∃ k, m = 2 ^ k ∧ n.testBit k = true ∧ ∀ j, j < k → n.testBit j = false

/-- `x.wrapping_neg()` as an unsigned number of `b` bits. -/
def wrappingNeg (b n : Nat) : Nat := (2 ^ b - n) % 2 ^ b

/-- `-x` for a signed number of `b` bits (given by its bits): a panic (`none`) for the least one. -/
def neg (b n : Nat) : Option Nat := if n = 2 ^ (b - 1) then none else some (wrappingNeg b n)

end Verif.Widths
