import Verif.Consts.Model

/-
Model of the comparison and bit-operation lints of `clippy_lints/src/operators/`.
The expressions being compared are represented by what the lint looks at: operators, types, and the
constants the evaluator (`Verif.Consts`) finds for the operands.
-/

namespace Verif.Ops
open Verif.RInt Verif.Consts

/-! ### `absurd_extreme_comparisons` -/

/-- `Rel` (clippy_utils/src/comparisons.rs:8-18). -/
inductive Rel | lt | le | eq | ne
  deriving DecidableEq, Repr

/-- `normalize_comparison` (clippy_utils/src/comparisons.rs:22-36). -/
def normalizeComparison {α} (op : BinOp) (l r : α) : Option (Rel × α × α) :=
  match op with
  | .lt => some (.lt, l, r)
  | .le => some (.le, l, r)
  | .gt => some (.lt, r, l)
  | .ge => some (.le, r, l)
  | .eq => some (.eq, r, l)
  | .ne => some (.ne, r, l)
  | _ => none

/-- `AbsurdComparisonResult` (absurd_extreme_comparisons.rs:59-63). -/
inductive Absurd | alwaysFalse | alwaysTrue | inequalityImpossible
  deriving DecidableEq, Repr

/-- The final `match` of `detect_absurd_comparison` (absurd_extreme_comparisons.rs:100-118). -/
def absurdVerdict : Rel → Option Extreme → Option Extreme → Option Absurd
  | .lt, some .maximum, _ => some .alwaysFalse
  | .lt, _, some .minimum => some .alwaysFalse
  | .le, some .minimum, _ => some .alwaysTrue
  | .le, some .maximum, _ => some .inequalityImpossible
  | .le, _, some .minimum => some .inequalityImpossible
  | .le, _, some .maximum => some .alwaysTrue
  | _, _, _ => none

/-- `detect_absurd_comparison` (absurd_extreme_comparisons.rs:76-119) for operands of the same type
`ty` that are not casts between fixed and target sized types; `l` and `r` are the constants the
evaluator finds for the two operands. -/
def detectAbsurd (S : Sess) (ty : Ty) (op : BinOp) (l r : Option Constant) : Option Absurd :=
  (normalizeComparison op l r).bind fun (rel, l, r) =>
    absurdVerdict rel (l.bind (detectExtreme S ty)) (r.bind (detectExtreme S ty))

/-! ### `redundant_comparisons`, `impossible_comparisons` -/

/-- `CmpOp` (operators/const_comparisons.rs:167-173). -/
inductive COp | lt | le | ge | gt
  deriving DecidableEq, Repr

/-- `CmpOpDirection` (const_comparisons.rs:161-165). -/
inductive Dir | lesser | greater
  deriving DecidableEq, Repr

/-- `TryFrom<BinOpKind> for CmpOp` (const_comparisons.rs:195-207). -/
def COp.ofBinOp : BinOp → Option COp
  | .lt => some .lt | .le => some .le | .ge => some .ge | .gt => some .gt | _ => none

/-- `CmpOp::reverse` (const_comparisons.rs:176-183). -/
def COp.reverse : COp → COp
  | .lt => .gt | .le => .ge | .ge => .le | .gt => .lt

/-- `CmpOp::direction` (const_comparisons.rs:185-192). -/
def COp.direction : COp → Dir
  | .lt | .le => .lesser
  | .ge | .gt => .greater

/-- An operand as `comparison_to_const` sees it: a constant, or the common non-constant expression. -/
inductive Operand (α : Type) | const (c : α) | var
  deriving DecidableEq, Repr

/-- `comparison_to_const` (const_comparisons.rs:20-38): the operator with the constant on the right. -/
def comparisonToConst {α} (op : BinOp) (l r : Operand α) : Option (COp × α) :=
  (COp.ofBinOp op).bind fun o =>
    match l, r with
    | .const _, .const _ => none
    | .var, .const c => some (o, c)
    | .const c, .var => some (o.reverse, c)
    | .var, .var => none

/-- The second `match` of `left_side_is_useless` (const_comparisons.rs:141-148). -/
def uselessDir : Dir → Ordering → Bool
  | .lesser, .lt => false
  | .lesser, .eq => false
  | .lesser, .gt => true
  | .greater, .lt => true
  | .greater, .eq => false
  | .greater, .gt => false

/-- `left_side_is_useless` (const_comparisons.rs:133-150). -/
def leftUseless (o : COp) (ord : Ordering) : Bool :=
  if ord = .eq then
    match o with
    | .lt | .gt => false
    | .le | .ge => true
  else uselessDir o.direction ord

/-- `comparison_is_possible` (const_comparisons.rs:152-159). -/
def comparisonPossible (d : Dir) (ord : Ordering) : Bool :=
  match d, ord with
  | .lesser, .lt | .lesser, .eq => false
  | .lesser, .gt => true
  | .greater, .gt | .greater, .eq => false
  | .greater, .lt => true

/-- The three verdicts of the lint. -/
inductive ConstCmp | leftUseless | rightUseless | impossible
  deriving DecidableEq, Repr

/-- `check` (const_comparisons.rs:40-131) for `left_cond && right_cond` comparing the same
side-effect-free expression; `pcmp` is `Constant::partial_cmp` for the type of the constants. -/
def constCmpCheck {α} (pcmp : α → α → Option Ordering) (lop : BinOp) (ll lr : Operand α)
    (rop : BinOp) (rl rr : Operand α) : Option ConstCmp :=
  match comparisonToConst lop ll lr, comparisonToConst rop rl rr with
  | some (lo, lc), some (ro, rc) =>
    match pcmp lc rc with
    | none => none
    | some ord =>
      if (lo = .le ∨ lo = .ge) ∧ (ro = .le ∨ ro = .ge) ∧ ord = .eq then none
      else if lo.direction = ro.direction then
        if leftUseless lo ord then some .leftUseless else some .rightUseless
      else if !comparisonPossible lo.direction ord then some .impossible
      else none
  | _, _ => none

/-! ### `double_comparisons` -/

/-- The `match` of `check` (operators/double_comparison.rs:18-56): the operator of the replacement. -/
def doubleComparison : BinOp → BinOp → BinOp → Option BinOp
  | .or, .eq, .lt | .or, .lt, .eq => some .le
  | .or, .eq, .gt | .or, .gt, .eq => some .ge
  | .or, .lt, .gt | .or, .gt, .lt => some .ne
  | .and, .le, .ge | .and, .ge, .le => some .eq
  | .and, .ne, .ge | .and, .ge, .ne => some .gt
  | .and, .ne, .le | .and, .le, .ne => some .lt
  | _, _, _ => none

/-! ### `bad_bit_mask`, `ineffective_bit_mask` -/

/-- `CmpOpKind` (operators/bit_mask.rs:185-190). -/
inductive MKind | eq | lt | gt
  deriving DecidableEq, Repr

/-- `CmpOp` (bit_mask.rs:133-137). -/
structure MCmp where
  kind : MKind
  negate : Bool
  deriving DecidableEq, Repr

/-- `CmpOp::from_bin_op` (bit_mask.rs:139-167). -/
def MCmp.ofBinOp : BinOp → Option MCmp
  | .eq => some ⟨.eq, false⟩
  | .lt => some ⟨.lt, false⟩
  | .le => some ⟨.gt, true⟩
  | .ne => some ⟨.eq, true⟩
  | .ge => some ⟨.lt, true⟩
  | .gt => some ⟨.gt, false⟩
  | _ => none

/-- `CmpOpKind::swap_operands`, `CmpOp::swap_operands` (bit_mask.rs:169-174, 191-199). -/
def MCmp.swapOperands (c : MCmp) : MCmp :=
  ⟨match c.kind with | .eq => .eq | .lt => .gt | .gt => .lt, c.negate⟩

/-- `CmpOp::matches_ordering` (bit_mask.rs:176-182). -/
def MCmp.matchesOrdering (c : MCmp) (o : Ordering) : Bool :=
  let res := match c.kind, o with
    | .lt, .lt | .eq, .eq | .gt, .gt => true
    | _, _ => false
  if c.negate then !res else res

/-- `BitOp` (bit_mask.rs:201-216). -/
inductive BitOp | xor | and | or
  deriving DecidableEq, Repr

/-- `LintMsg` (bit_mask.rs:260-265). -/
inductive MaskMsg | alwaysTrue | alwaysFalse | ineffective
  deriving DecidableEq, Repr

/-- `LintMsg::from_cmp_result` (bit_mask.rs:267-269). -/
def MaskMsg.ofResult (b : Bool) : MaskMsg := if b then .alwaysTrue else .alwaysFalse

/-- `u128::trailing_zeros` (128 for 0), counting at most `fuel` bits. -/
def tz : Nat → Nat → Nat
  | 0, _ => 0
  | f + 1, n => if n % 2 = 0 then tz f (n / 2) + 1 else 0

/-- `u128::trailing_ones`. -/
def to : Nat → Nat → Nat
  | 0, _ => 0
  | f + 1, n => if n % 2 = 1 then to f (n / 2) + 1 else 0

def trailingZeros (n : Nat) : Nat := tz 128 n
def trailingOnes (n : Nat) : Nat := to 128 n

/-- `u128::MAX.wrapping_shl(k)`: the amount is taken modulo 128. -/
def maxWrappingShl (k : Nat) : Nat := (2 ^ 128 - 1) * 2 ^ (k % 128) % 2 ^ 128

/-- `u128::MAX.unbounded_shl(k)`: 0 when `k` is at least 128. -/
def maxUnboundedShl (k : Nat) : Nat := if k < 128 then (2 ^ 128 - 1) * 2 ^ k % 2 ^ 128 else 0

/-- The verdict of `check` (bit_mask.rs:60-109) for `(_ bit_op op_val) cmp_op cmp_val`, the constants
being given as the evaluator keeps them; `uint`: the type of the left operand is unsigned. -/
def maskVerdict (uint : Bool) (c : MCmp) (b : BitOp) (opVal cmpVal : Nat) : Option MaskMsg :=
  if b = .and ∧ opVal = 0 then
    some (.ofResult (c.matchesOrdering (compare 0 cmpVal)))
  else
    match c.kind with
    | .eq =>
      match b with
      | .and => if opVal &&& cmpVal ≠ cmpVal then some (.ofResult c.negate) else none
      | .or => if opVal ||| cmpVal ≠ cmpVal then some (.ofResult c.negate) else none
      | .xor => none
    | .lt =>
      if uint then
        match b with
        | .and => if opVal < cmpVal then some (.ofResult (!c.negate)) else none
        | .or =>
          if opVal ≥ cmpVal then some (.ofResult c.negate)
          else if maxWrappingShl (trailingZeros cmpVal) &&& opVal = 0 then some .ineffective else none
        | .xor =>
          if opVal = 0 ∧ cmpVal = 0 then some (.ofResult c.negate)
          else if maxWrappingShl (trailingZeros cmpVal) &&& opVal = 0 then some .ineffective else none
      else none
    | .gt =>
      if uint then
        match b with
        | .and => if opVal ≤ cmpVal then some (.ofResult (!c.negate)) else none
        | .or =>
          if opVal > cmpVal then some (.ofResult c.negate)
          else if maxUnboundedShl (trailingOnes cmpVal) &&& opVal = 0 then some .ineffective else none
        | .xor =>
          if maxUnboundedShl (trailingOnes cmpVal) &&& opVal = 0 then some .ineffective else none
      else none

/-- The operator of the lint: `cmp_op` read with the bit operation on the left
(`try_maybe_swap`, bit_mask.rs:28-48, 120-131); `swapped`: it was on the right. -/
def maskCheck (uint : Bool) (op : BinOp) (swapped : Bool) (b : BitOp) (opVal cmpVal : Nat) :
    Option MaskMsg :=
  (MCmp.ofBinOp op).bind fun c =>
    maskVerdict uint (if swapped then c.swapOperands else c) b opVal cmpVal

/-! ### `identity_op`, `erasing_op` -/

/-- Which operand an operation is reduced to. -/
inductive Side | left | right
  deriving DecidableEq, Repr

/-- `is_redundant_op` (operators/identity_op.rs:203-220) on the evaluated operand. -/
def isRedundant (S : Sess) (ty : Ty) (c : Option Constant) (m : Int) : Bool :=
  match c with
  | some (.int v) =>
    match ty with
    | .int t => if m = 0 then v = 0 else if m = -1 then v = unsext S (-1) t else v = 1
    | .uint t => if m = 0 then v = 0 else if m = -1 then v = clip S (2 ^ 128 - 1) t else v = 1
    | _ => false
  | _ => false

/-- `i128::abs` without overflow checks (as in release builds): wraps at `i128::MIN`. -/
def i128Abs (v : Int) : Int := I128.wrap (if v < 0 then -v else v)

/-- `check_remainder` (identity_op.rs:191-201). -/
def remainderRedundant (l r : Option FullInt) : Bool :=
  match l, r with
  | some (.s lv), some (.s rv) => i128Abs lv < i128Abs rv
  | some (.u lv), some (.u rv) => lv < rv
  | _, _ => false

/-- The `match` of `check` (identity_op.rs:45-83) on operands of integer types `lt` and `rt` whose local
constant values are `l` and `r`; the exception for `1 << 0` (identity_op.rs:185-188) is included, the
one for associated functions is not. -/
def identityOp (S : Sess) (op : BinOp) (lt rt : Ty) (l r : Option Constant) : Option Side :=
  let either (m : Int) : Option Side :=
    if isRedundant S lt l m then some .right
    else if isRedundant S rt r m then some .left else none
  match op with
  | .add | .bitOr | .bitXor => either 0
  | .shl =>
    if isRedundant S rt r 0 && isRedundant S lt l 1 then none
    else if isRedundant S rt r 0 then some .left else none
  | .shr | .sub => if isRedundant S rt r 0 then some .left else none
  | .mul => either 1
  | .div => if isRedundant S rt r 1 then some .left else none
  | .bitAnd => either (-1)
  | .rem =>
    if remainderRedundant (l.bind (intValue S · lt)) (r.bind (intValue S · rt)) then some .left else none
  | _ => none

/-- `erasing_op::check` (operators/erasing_op.rs:11-55) on operands and result of the same integer
type: the lint says the operation is always zero. -/
def isZero : Option Constant → Bool
  | some (.int 0) => true
  | _ => false

def erasingOp (op : BinOp) (l r : Option Constant) : Bool :=
  match op with
  | .mul | .bitAnd => isZero l || isZero r
  | .div => isZero l
  | _ => false

end Verif.Ops
