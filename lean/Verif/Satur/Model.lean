import Verif.Satur.Spec

/-! Model of `clippy_lints/src/methods/manual_saturating_arithmetic.rs`. -/

namespace Verif.Satur.Model

open Verif.Satur

/-- `MinMax` (`clippy_lints/src/methods/manual_saturating_arithmetic.rs:134-138`). -/
inductive MinMax
  | min | max
deriving DecidableEq, Repr

/-- `Sign` (`clippy_lints/src/methods/manual_saturating_arithmetic.rs:207-211`). -/
inductive Sign
  | pos | neg
deriving DecidableEq, Repr

/-- `minval` (`clippy_lints/src/methods/manual_saturating_arithmetic.rs:166-176`). -/
def minval (t : Ty) : Nat := if t.signed then 1 <<< (t.width.bits - 1) else 0

/-- `maxval` (`clippy_lints/src/methods/manual_saturating_arithmetic.rs:166-176`), a `u128`. -/
def maxval (t : Ty) : Nat :=
  if t.signed then
    let m := 2 ^ 128 - 1 - (1 <<< (t.width.bits - 1))
    if t.width.bits ≠ 128 then m &&& ((1 <<< t.width.bits) - 1) else m
  else if t.width.bits = 128 then 2 ^ 128 - 1 else (1 <<< t.width.bits) - 1

/-- `check_lit` (`clippy_lints/src/methods/manual_saturating_arithmetic.rs:178-192`). -/
def checkLit (t : Ty) (value : Nat) (checkMin : Bool) : Option MinMax :=
  if value = maxval t then some .max else if checkMin && value == minval t then some .min else none

/-- `is_min_or_max` (`clippy_lints/src/methods/manual_saturating_arithmetic.rs:140-205`). -/
def isMinOrMax (t : Ty) : Expr → Option MinMax
  | .maxValue _ _ => some .max
  | .minValue _ _ => some .min
  | .maxConst => some .max
  | .minConst => some .min
  | .lit n => checkLit t n (!t.signed)
  | .neg n => if t.signed then checkLit t n true else none
  | .other _ => none

/-- `lit_sign` (`clippy_lints/src/methods/manual_saturating_arithmetic.rs:213-223`). -/
def litSign : Expr → Option Sign
  | .neg _ => some .neg
  | .lit _ => some .pos
  | .maxValue _ _ | .minValue _ _ | .maxConst | .minConst | .other _ => none

/-- The conditions of `check` (`clippy_lints/src/methods/manual_saturating_arithmetic.rs:73-89`). -/
def allowed (t : Ty) (o : Op) (rhs : Expr) (mm : MinMax) : Bool :=
  if t.signed then
    match litSign rhs with
    | none => false
    | some sign =>
      match o, sign, mm with
      | .add, .pos, .max | .add, .neg, .min | .sub, .neg, .max | .sub, .pos, .min => true
      | _, _, _ => false
  else
    match mm, o with
    | .max, .add | .max, .mul | .min, .sub => true
    | _, _ => false

/-- `check_unwrap_or` (`clippy_lints/src/methods/manual_saturating_arithmetic.rs:14-36`) with `check` (`:60-105`) and `as_saturating` (`:125-131`):
the saturating operation. -/
def checkUnwrapOr (t : Ty) (o : Op) (rhs arg : Expr) : Option Op :=
  match isMinOrMax t arg with
  | none => none
  | some mm => if allowed t o rhs mm then some o else none

/-- `check_sub_unwrap_or_default` (`clippy_lints/src/methods/manual_saturating_arithmetic.rs:38-58`). -/
def checkSubDefault (t : Ty) (rhs : Expr) : Option Op :=
  if t.signed then none else if allowed t .sub rhs .min then some .sub else none

end Verif.Satur.Model
