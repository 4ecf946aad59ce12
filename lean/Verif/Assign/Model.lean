import Verif.Assign.Spec

/-!
# Model: operators/assign_op_pattern.rs, misrefactored_assign_op.rs, self_assignment.rs
-/

namespace Verif.Assign

/-- What the type checker says — clippy_lints/src/operators/assign_op_pattern.rs:28-69: whether both types are primitive and that of
the place is, whether the trait is implemented, whether this is the implementation of that trait, whether the borrows of both sides collide, and
whether the operator is not stable in this constant context. -/
structure Info where
  prim : Bool
  assigneePrim : Bool
  impl : Op → Bool
  inImpl : Op → Bool
  conflict : E → Bool
  unstable : Bool

/-- `binop_traits` (whether there is an assigning operator) — clippy_utils/src/lib.rs:2951-2971. -/
def hasTrait : Op → Bool
  | .land | .lor | .cmp => false
  | _ => true

/-- `eq_expr_value` of the place and an expression — clippy_lints/src/operators/assign_op_pattern.rs:95, 107, 112. Places here have no
effects, so they are equal when they are written the same way. -/
def isPlace (p : Place) : E → Bool
  | .read q => q == p
  | _ => false

/-- The number of equal expressions found, in `q` as a place: itself and its index —
clippy_lints/src/operators/assign_op_pattern.rs:94-103. -/
def placeCount (p q : Place) : Nat :=
  (if q == p then 1 else 0) + (match q with | .idx _ i => if Place.cell i == p then 1 else 0 | .cell _ => 0)

/-- `found` and `found_multiple` — clippy_lints/src/operators/assign_op_pattern.rs:93-103: the number of equal expressions. -/
def count (p : Place) : E → Nat
  | .lit _ => 0
  | .read q => placeCount p q
  | .call _ a => count p a
  | .bin _ a b => count p a + count p b

/-- The closure `lint` — clippy_lints/src/operators/assign_op_pattern.rs:27-90. -/
def lint (t : Info) (op : Op) (rhs : E) : List (Op × E) :=
  if hasTrait op && !t.inImpl op && t.impl op then
    if !t.prim && t.conflict rhs then [] else if t.unstable then [] else [(op, rhs)]
  else []

/-- The operators that are known to be commutative — clippy_lints/src/operators/assign_op_pattern.rs:114-120. -/
def swaps : Op → Bool
  | .add | .mul | .land | .lor | .xor | .band | .bor => true
  | _ => false

/-- `a = a op b` — clippy_lints/src/operators/assign_op_pattern.rs:106-109. -/
def lintLeft (t : Info) (p : Place) (op : Op) (l r : E) : List (Op × E) :=
  if isPlace p l then lint t op r else []

/-- `a = b op a` — clippy_lints/src/operators/assign_op_pattern.rs:112-125. -/
def lintRight (t : Info) (p : Place) (op : Op) (l r : E) : List (Op × E) :=
  if isPlace p r && t.assigneePrim && swaps op then lint t op l else []

/-- `check` for `p = e` — clippy_lints/src/operators/assign_op_pattern.rs:19-128: the operators and operands suggested. -/
def check (t : Info) (p : Place) : E → List (Op × E)
  | .bin op l r => if count p (.bin op l r) == 1 then lintLeft t p op l r ++ lintRight t p op l r else []
  | _ => []

/-- `is_commutative` — clippy_lints/src/operators/misrefactored_assign_op.rs:72-81. -/
def isCommutative : Op → Bool
  | .add | .mul | .land | .lor | .xor | .band | .bor => true
  | .cmp | .sub | .div | .rem | .shl | .shr => false

/-- The two suggestions: the operand of `p op= …`, and the right side of `p = …` —
clippy_lints/src/operators/misrefactored_assign_op.rs:32-70. -/
def both (p : Place) (op : Op) (rhs other : E) : Option (E × E) := some (other, .bin op (.read p) rhs)

/-- `check` for `p op= rhs` — clippy_lints/src/operators/misrefactored_assign_op.rs:10-30. -/
def misrefactored (p : Place) (op : Op) : E → Option (E × E)
  | .bin op' l r =>
      if op ≠ op' then none
      else if isPlace p l then both p op (.bin op' l r) r
      else if isCommutative op && isPlace p r then both p op (.bin op' l r) l
      else none
  | _ => none

/-- `self_assignment::check` — clippy_lints/src/operators/self_assignment.rs:9-20. -/
def selfAssignment (p : Place) (e : E) : Bool := isPlace p e

end Verif.Assign
