import Verif.Modulo.Spec
import Verif.Consts.Lemmas

/-!
# Remainders of numbers with signs: the linter
-/

namespace Verif.Modulo
open Verif.RInt

/-- `Some(Constant::Int(0))`; clippy_lints/src/operators/modulo_arithmetic.rs:43-44. -/
def isZero : Option Const → Bool
  | some (.int 0) => true
  | _ => false

/-- `used_in_comparison_with_zero`: both sides of the comparison are looked at; clippy_lints/src/operators/modulo_arithmetic.rs:36-48. -/
def usedWithZero : Option Around → Bool
  | some ⟨.eq, l, s, o⟩ => isZero (if l then s else o) || isZero (if l then o else s)
  | some ⟨.ne, l, s, o⟩ => isZero (if l then s else o) || isZero (if l then o else s)
  | _ => false

/-- `OperandInfo`; clippy_lints/src/operators/modulo_arithmetic.rs:50-54. The text is the number it shows (for floats, 0). -/
structure Info where
  text : Option Int
  isNegative : Bool
  isIntegral : Bool
deriving DecidableEq, Repr

/-- `analyze_operand` for the constant of an operand and the type of the remainder; clippy_lints/src/operators/modulo_arithmetic.rs:56-87. -/
def analyze (t : Ty) : Option Const → Option Info
  | some (.int b) => match t with
    | .int w => some ⟨some (Consts.sextW w b), decide (Consts.sextW w b < 0), true⟩
    | .uint _ => some ⟨none, false, true⟩
    | _ => none
  | some (.float n) => some ⟨some 0, n, false⟩
  | _ => none

/-- `might_have_negative_value`; clippy_lints/src/operators/modulo_arithmetic.rs:89-91. A reference is neither. -/
def mightBeNegative : Ty → Bool
  | .int _ => true
  | .float => true
  | _ => false

/-- `Ty::is_integral`; clippy_lints/src/operators/modulo_arithmetic.rs:129. -/
def isIntegral : Ty → Bool
  | .int _ => true
  | .uint _ => true
  | _ => false

/-- What happens: nothing, a report, or the panic of `unwrap`; clippy_lints/src/operators/modulo_arithmetic.rs:99-116. -/
inductive Outcome
  | silent
  | report (r : Report)
  | panic
deriving DecidableEq, Repr

/-- `check_const_operands`; clippy_lints/src/operators/modulo_arithmetic.rs:93-117. -/
def checkConst (l r : Info) : Outcome :=
  if l.isNegative ^^ r.isNegative then
    match l.text, r.text with
    | some a, some b => .report ⟨some (a, b), l.isIntegral⟩
    | _, _ => .panic
  else .silent

/-- `check_non_const_operands`; clippy_lints/src/operators/modulo_arithmetic.rs:119-135. -/
def checkNonConst (t : Ty) : Outcome :=
  if mightBeNegative t then .report ⟨none, isIntegral t⟩ else .silent

/-- `check` for a remainder; clippy_lints/src/operators/modulo_arithmetic.rs:19-33. -/
def check (allowZero : Bool) (e : Rem) : Outcome :=
  if allowZero && usedWithZero e.around then .silent
  else match analyze e.ty e.lhs.known, analyze e.ty e.rhs.known with
    | some l, some r => checkConst l r
    | _, _ => checkNonConst e.lhs.ty

end Verif.Modulo
