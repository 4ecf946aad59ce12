/-!
# Checked and saturating arithmetic
-/

namespace Verif.Satur

/-- The widths of integers. -/
inductive Width
  | w8 | w16 | w32 | w64 | w128
deriving DecidableEq, Repr

/-- The number of bits. -/
def Width.bits : Width → Nat
  | .w8 => 8 | .w16 => 16 | .w32 => 32 | .w64 => 64 | .w128 => 128

/-- Types of integers. -/
structure Ty where
  signed : Bool
  width : Width
deriving DecidableEq, Repr

/-- The smallest value. -/
def Ty.min (t : Ty) : Int := if t.signed then -2 ^ (t.width.bits - 1) else 0

/-- The largest value. -/
def Ty.max (t : Ty) : Int := if t.signed then 2 ^ (t.width.bits - 1) - 1 else 2 ^ t.width.bits - 1

/-- Values of the type. -/
def Ty.Has (t : Ty) (v : Int) : Prop := t.min ≤ v ∧ v ≤ t.max

/-- Operations. -/
inductive Op
  | add | sub | mul
deriving DecidableEq, Repr

/-- The exact result. -/
def Op.exact : Op → Int → Int → Int
  | .add, a, b => a + b
  | .sub, a, b => a - b
  | .mul, a, b => a * b

/-- `a.checked_op(b).unwrap_or(d)`. -/
def checkedOr (t : Ty) (o : Op) (a b d : Int) : Int :=
  if t.min ≤ o.exact a b ∧ o.exact a b ≤ t.max then o.exact a b else d

/-- `a.saturating_op(b)`. -/
def saturating (t : Ty) (o : Op) (a b : Int) : Int :=
  if o.exact a b < t.min then t.min else if t.max < o.exact a b then t.max else o.exact a b

/-- Expressions for values: literals, negated literals, `T::max_value()`, `T::MAX` and the like, where `own` says that `T` is the type of the
value, and others. -/
inductive Expr
  | lit (n : Nat)
  | neg (n : Nat)
  | maxValue (own : Bool) (k : Nat)
  | minValue (own : Bool) (k : Nat)
  | maxConst
  | minConst
  | other (k : Nat)
deriving DecidableEq, Repr

/-- The value; `K` has the values of what isn't known. -/
def Expr.val (K : Nat → Int) (t : Ty) : Expr → Int
  | .lit n => n
  | .neg n => -n
  | .maxValue true _ => t.max
  | .maxValue false k => K k
  | .minValue true _ => t.min
  | .minValue false k => K k
  | .maxConst => t.max
  | .minConst => t.min
  | .other k => K k

end Verif.Satur
