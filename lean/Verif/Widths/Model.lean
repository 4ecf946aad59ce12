import Verif.Widths.Spec

/-!
# Model: operators/invalid_upcast_comparisons.rs, bit_width.rs, operators/manual_isolate_lowest_one.rs,
operators/modulo_one.rs
-/

namespace Verif.Widths

/-- `Rel` — clippy_utils/src/comparisons.rs:9-18. -/
inductive Rel
  | lt | le | eq | ne
  deriving DecidableEq, Repr

/-- A side of a comparison: a cast of a value of another type, a constant, or anything else —
clippy_lints/src/operators/invalid_upcast_comparisons.rs:36-38, 77. -/
inductive Side
  | cast (pre to : Ty)
  | const (c : Int)
  | other
  deriving DecidableEq, Repr

/-- `normalize_comparison` — clippy_utils/src/comparisons.rs:22-36. -/
def normalize (op : Op) (l r : Side) : Rel × Side × Side :=
  match op with
  | .lt => (.lt, l, r)
  | .le => (.le, l, r)
  | .gt => (.lt, r, l)
  | .ge => (.le, r, l)
  | .eq => (.eq, r, l)
  | .ne => (.ne, r, l)

/-- The bounds of a type, computed on the machine where clippy was built (`host`: the bits of its pointers) —
clippy_lints/src/operators/invalid_upcast_comparisons.rs:43-61. -/
def bounds (host : Nat) (t : Ty) : Int × Int :=
  if t.signed then (-(2 : Int) ^ (t.bits host - 1), (2 : Int) ^ (t.bits host - 1) - 1)
  else (0, (2 : Int) ^ t.bits host - 1)

/-- `numeric_cast_precast_bounds` — clippy_lints/src/operators/invalid_upcast_comparisons.rs:35-65: not for types of the
same size. -/
def precast (host target : Nat) : Side → Option (Int × Int)
  | .cast pre to => if pre.bits target = to.bits target then none else some (bounds host pre)
  | _ => none

/-- `eval_full_int` — clippy_lints/src/operators/invalid_upcast_comparisons.rs:77; the order of `FullInt`s is that of the
numbers (C19). -/
def constant : Side → Option Int
  | .const c => some c
  | _ => none

/-- The cases of `upcast_comparison_bounds_err` — clippy_lints/src/operators/invalid_upcast_comparisons.rs:79-104: what the
comparison always is. -/
def claim (rel : Rel) (lb ub c : Int) (invert : Bool) : Option Bool :=
  match rel with
  | .eq => if c < lb ∨ ub < c then some false else none
  | .ne => if c < lb ∨ ub < c then some true else none
  | .lt =>
      if (invert = true ∧ c < lb) ∨ (invert = false ∧ ub < c) then some true
      else if (invert = false ∧ c ≤ lb) ∨ (invert = true ∧ ub ≤ c) then some false else none
  | .le =>
      if (invert = true ∧ c ≤ lb) ∨ (invert = false ∧ ub ≤ c) then some true
      else if (invert = false ∧ c < lb) ∨ (invert = true ∧ ub < c) then some false else none

/-- `upcast_comparison_bounds_err` — clippy_lints/src/operators/invalid_upcast_comparisons.rs:67-106. -/
def boundsErr (rel : Rel) (b : Option (Int × Int)) (c : Option Int) (invert : Bool) : Option Bool :=
  match b, c with
  | some (lb, ub), some c => claim rel lb ub c invert
  | _, _ => none

/-- `check` — clippy_lints/src/operators/invalid_upcast_comparisons.rs:16-33: the claims about the left and the right side. -/
def check (host target : Nat) (op : Op) (l r : Side) : Option Bool × Option Bool :=
  let n := normalize op l r
  (boundsErr n.1 (precast host target n.2.1) (constant n.2.2) false,
   boundsErr n.1 (precast host target n.2.2) (constant n.2.1) true)

/-! ## bit_width.rs -/

/-- `IntKind` — clippy_lints/src/bit_width.rs:61-69. -/
inductive Kind
  | int (w : W)
  | uint (w : W)
  | nonZero (w : W)
  | nonZeroU (w : W)
  deriving DecidableEq, Repr

/-- The suggested methods — clippy_lints/src/bit_width.rs:80-87. -/
structure Methods where
  castUnsigned : Bool
  get : Bool
  deriving DecidableEq, Repr

/-- `IntKind::suggestion` — clippy_lints/src/bit_width.rs:80-87. -/
def Kind.methods : Kind → Methods
  | .int _ => ⟨true, false⟩
  | .uint _ => ⟨false, false⟩
  | .nonZero _ => ⟨true, true⟩
  | .nonZeroU _ => ⟨false, true⟩

/-- `check_expr` — clippy_lints/src/bit_width.rs:101-127, for `L::BITS - x.leading_zeros()` with `x` of type `R`: the methods, and
whether the suggestion is machine-applicable. -/
def bitWidth (l r : Kind) : Methods × Bool := (r.methods, decide (l = r))

/-! ## operators/manual_isolate_lowest_one.rs -/

/-- Operands of `&` — clippy_lints/src/operators/manual_isolate_lowest_one.rs:75-126. -/
inductive E
  /-- A local variable that is an integer. -/
  | var (v : Nat)
  /-- A local variable that is a `NonZero`. -/
  | nz (v : Nat)
  | get (e : E)
  | wrappingNeg (e : E)
  | neg (e : E)
  | other
  deriving DecidableEq, Repr

/-- `is_same_local_path` — clippy_lints/src/operators/manual_isolate_lowest_one.rs:128-132. -/
def sameVar : E → E → Bool
  | .var a, .var b => a == b
  | .nz a, .nz b => a == b
  | _, _ => false

/-- `wrapping_neg_receiver` — clippy_lints/src/operators/manual_isolate_lowest_one.rs:107-115. -/
def negReceiver : E → Option E
  | .wrappingNeg e => some e
  | _ => none

/-- `ExprKind::Unary(UnOp::Neg, inner)` — clippy_lints/src/operators/manual_isolate_lowest_one.rs:81, 99. -/
def negInner : E → Option E
  | .neg e => some e
  | _ => none

/-- `get_receiver` — clippy_lints/src/operators/manual_isolate_lowest_one.rs:117-126. -/
def getReceiver : E → Option E
  | .get (.var v) => some (.var v)
  | .get (.nz v) => some (.nz v)
  | _ => none

/-- `.then_some(base)` — clippy_lints/src/operators/manual_isolate_lowest_one.rs:77, 94, 101. -/
def thenSome (a b : E) : Option E := if sameVar a b then some a else none

/-- `matching_wrapping_neg` — clippy_lints/src/operators/manual_isolate_lowest_one.rs:75-78. -/
def matchWrapping (base n : E) : Option E := (negReceiver n).bind (thenSome base)

/-- `matching_neg` — clippy_lints/src/operators/manual_isolate_lowest_one.rs:80-88. -/
def matchNeg (base n : E) : Option E := (negInner n).bind (thenSome base)

/-- `matching_nonzero_wrapping_neg` — clippy_lints/src/operators/manual_isolate_lowest_one.rs:90-95. -/
def matchNzWrapping (base n : E) : Option E :=
  (getReceiver base).bind (fun b => (negReceiver n).bind (fun r => (getReceiver r).bind (thenSome b)))

/-- `matching_nonzero_neg` — clippy_lints/src/operators/manual_isolate_lowest_one.rs:97-105. -/
def matchNzNeg (base n : E) : Option E :=
  (getReceiver base).bind (fun b => (negInner n).bind (fun r => (getReceiver r).bind (thenSome b)))

/-- `is_primitive_int` — clippy_lints/src/operators/manual_isolate_lowest_one.rs:138-143. -/
def isInt : Option E → Bool
  | some (.var _) => true
  | _ => false

/-- `is_nonzero_int` — clippy_lints/src/operators/manual_isolate_lowest_one.rs:149-157. -/
def isNz : Option E → Bool
  | some (.nz _) => true
  | _ => false

/-- `check` — clippy_lints/src/operators/manual_isolate_lowest_one.rs:15-53: the variable, and whether `.get()` is added.
`signed`: the variable has a signed type. -/
def isolate (signed : Bool) (l r : E) : Option (E × Bool) :=
  if isInt ((matchWrapping l r).or (matchWrapping r l)) then ((matchWrapping l r).or (matchWrapping r l)).map (·, false)
  else if signed && isInt ((matchNeg l r).or (matchNeg r l)) then ((matchNeg l r).or (matchNeg r l)).map (·, false)
  else if isNz ((matchNzWrapping l r).or (matchNzWrapping r l)) then
    ((matchNzWrapping l r).or (matchNzWrapping r l)).map (·, true)
  else if signed && isNz ((matchNzNeg l r).or (matchNzNeg r l)) then ((matchNzNeg l r).or (matchNzNeg r l)).map (·, true)
  else none

/-! ## operators/modulo_one.rs -/

/-- `FullInt` — clippy_utils/src/consts.rs:459-463. -/
inductive Full
  | s (n : Int)
  | u (n : Nat)
  deriving DecidableEq, Repr

/-- The right operand: a literal, a literal with a minus, another constant of a type —
clippy_utils/src/consts.rs:502-516. -/
inductive Right
  | lit (n : Nat)
  | neg (n : Nat)
  | const (signed : Bool) (n : Int)
  | unknown
  deriving DecidableEq, Repr

/-- `eval_int` — clippy_utils/src/consts.rs:501-517, without the wrapping at 128 bits. -/
def evalInt : Right → Option Full
  | .lit n => some (.u n)
  | .neg n => some (.s (-n))
  | .const true n => some (.s n)
  | .const false n => some (.u n.toNat)
  | .unknown => none

/-- What is said about `x % r` — clippy_lints/src/operators/modulo_one.rs:8-17. -/
inductive Said
  | minusOne | one
  deriving DecidableEq, Repr

/-- `check` — clippy_lints/src/operators/modulo_one.rs:8-17. -/
def moduloOne (r : Right) : Option Said :=
  match evalInt r with
  | some (.s (-1)) => some .minusOne
  | some (.u 1) => some .one
  | _ => none

end Verif.Widths
