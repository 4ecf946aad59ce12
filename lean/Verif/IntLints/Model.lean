import Verif.Common.RInt
import Verif.Common.POrd

/-
Models of lints that recognise integer idioms: checked_conversions.rs, minmax.rs,
implicit_saturating_add.rs, implicit_saturating_sub.rs, manual_rotate.rs, operators/manual_div_ceil.rs,
operators/manual_midpoint.rs, operators/manual_is_multiple_of.rs, operators/verbose_bit_mask.rs,
manual_rem_euclid.rs, manual_abs_diff.rs, manual_is_power_of_two.rs and manual_ilog2.rs
(all in clippy_lints/src).
-/

namespace Verif.IntLints
open Verif.RInt

/-! ### checked_conversions -/

/-- The types in `INTS` (checked_conversions.rs:303-316). -/
inductive ITy | u8 | u16 | u32 | u64 | usize | i8 | i16 | i32 | i64 | isize
  deriving DecidableEq, Repr

/-- Membership in `UINTS` / `SINTS` (checked_conversions.rs:303-304). -/
def ITy.signed : ITy → Bool
  | .u8 | .u16 | .u32 | .u64 | .usize => false
  | .i8 | .i16 | .i32 | .i64 | .isize => true

/-- Operands as `get_types_from_cast` and `is_integer_literal` see them (checked_conversions.rs:209-276):
`to::MAX as from` or `from::from(to::MAX)` (also `max_value()`), the same with `MIN`, the literal `0`, and
anything else. -/
inductive COperand
  | limit (max : Bool) (to fr : ITy) | zero | atom (i : Nat)
  deriving DecidableEq, Repr

/-- `ConversionType` (checked_conversions.rs:109-113). -/
inductive ConvType | signedToUnsigned | signedToSigned | fromUnsigned
  deriving DecidableEq, Repr

/-- `Conversion` (checked_conversions.rs:101-105). -/
structure Conversion where
  cvt : ConvType
  e : COperand
  to : Option ITy
  deriving DecidableEq, Repr

/-- `ConversionType::try_new` (checked_conversions.rs:177-191). -/
def ConvType.tryNew (fr to : ITy) : ConvType :=
  if fr.signed = false then .fromUnsigned
  else if to.signed = false then .signedToUnsigned else .signedToSigned

/-- `check_upper_bound` (checked_conversions.rs:195-201). -/
def upperBound (lt gt : COperand) : Option Conversion :=
  match gt with
  | .limit true to fr => some ⟨.tryNew fr to, lt, some to⟩
  | _ => none

/-- `check_lower_bound` (checked_conversions.rs:204-220); `MIN` is only looked up for signed types. -/
def lowerBound (lt gt : COperand) : Option Conversion :=
  match lt with
  | .zero => some ⟨.signedToUnsigned, gt, none⟩
  | .limit false to fr => if to.signed then some ⟨.tryNew fr to, gt, some to⟩ else none
  | _ => none

/-- `has_compatible_to_type` (checked_conversions.rs:148-153). -/
def compatibleTo : Option ITy → Option ITy → Bool
  | some l, some r => l = r
  | _, _ => true

/-- `Conversion::combine`, `is_compatible` (checked_conversions.rs:130-145). -/
def Conversion.combine (a b : Conversion) : Option Conversion :=
  if a.cvt = b.cvt ∧ a.e = b.e ∧ compatibleTo a.to b.to = true then some (if a.to.isSome then a else b) else none

/-- The conditions the lint looks at, with `>=` already read as `<=` (`read_le_ge`,
checked_conversions.rs:116-126): `lt <= gt` or the conjunction of two of them. -/
inductive CItem
  | le (lt gt : COperand) | and (lt1 gt1 lt2 gt2 : COperand)
  deriving DecidableEq, Repr

/-- `CheckedConversions::check_expr` (checked_conversions.rs:50-96): the expression and the type of the
suggested `to::try_from(e).is_ok()`. -/
def checkedConversion : CItem → Option (COperand × ITy)
  | .le lt gt =>
    match upperBound lt gt with
    | some cv => if cv.cvt = .fromUnsigned then cv.to.map fun t => (cv.e, t) else none
    | none => none
  | .and lt1 gt1 lt2 gt2 =>
    let upperLower (l1 g1 l2 g2 : COperand) : Option Conversion :=
      match upperBound l1 g1, lowerBound l2 g2 with
      | some l, some r => l.combine r
      | _, _ => none
    let cv := match upperLower lt1 gt1 lt2 gt2 with
      | some c => some c
      | none => upperLower lt2 gt2 lt1 gt1
    match cv with
    | some cv => cv.to.map fun t => (cv.e, t)
    | none => none

/-! ### min_max -/

/-- `MinMax` (minmax.rs:60-63). -/
inductive MinMax | min | max
  deriving DecidableEq, Repr

/-- `min(a, b)`, `a.max(b)`, ... over constants and other expressions. -/
inductive MExpr (α : Type)
  | const (v : α) | atom (i : Nat) | call (m : MinMax) (a b : MExpr α)

/-- `ConstEvalCtxt::eval_local` on these expressions: calls are not evaluated. -/
def MExpr.const? {α} : MExpr α → Option α
  | .const v => some v
  | _ => none

/-- `min_max` with `fetch_const` (minmax.rs:65-119). -/
def minMax {α} : MExpr α → Option (MinMax × α × MExpr α)
  | .call m a b =>
    match a.const?, b.const? with
    | some c, none => some (m, c, b)
    | none, some c => some (m, c, a)
    | _, _ => none
  | _ => none

/-- `MinMaxPass::check_expr` (minmax.rs:39-56). -/
def minMaxLint {α} (cmp : α → α → Option Ordering) (e : MExpr α) : Bool :=
  match minMax e with
  | some (om, oc, oe) =>
    match minMax oe with
    | some (im, ic, _) =>
      if om ≠ im then
        match om, cmp oc ic with
        | .max, some .eq | .max, some .gt | .min, some .eq | .min, some .lt => true
        | _, _ => false
      else false
    | none => false
  | none => false

/-! ### Integer expressions -/

inductive Op | add | sub | mul | div | rem | shl | shr | bitAnd | bitOr | bitXor
  deriving DecidableEq, Repr

/-- The expressions the idiom lints look into. -/
inductive E
  | atom (i : Nat) | lit (n : Nat) | neg (e : E) | bin (op : Op) (l r : E)
  | nextMultipleOf (x y : E) | leadingZeros (x : E) | countOnes (x : E) | ilog (x b : E)
  | castUnsigned (x : E)
  deriving DecidableEq, Repr

/-- `is_integer_literal(e, n)`. -/
def E.isLit (e : E) (n : Nat) : Bool := e = .lit n

/-! ### implicit_saturating_add, implicit_saturating_sub -/

/-- `if l op r { target += 1 }` with a constant on one side: `get_const` with `invert_op`, and the test of
`check_expr` (implicit_saturating_add.rs:43-96, 118-142). `constant` is the constant
evaluator, `max` is `get_int_max` of the type of the target (lines 99-116; `usize` and `isize` have the width
of the host there). The shape of the block, the literal `1` and macro contexts are not modelled. -/
def saturatingAdd (constant : E → Option Nat) (max : Nat) (op : Cmp) (l r target : E) : Bool :=
  let found : Option (Nat × Cmp × E) :=
    match constant r with
    | some c => some (c, op, l)
    | none =>
      match constant l with
      | some c =>
        match op with
        | .lt => some (c, .gt, r)
        | .le => some (c, .ge, r)
        | .ne => some (c, .ne, r)
        | .ge => some (c, .le, r)
        | .gt => some (c, .lt, r)
        | .eq => none
      | none => none
  match found with
  | some (c, op, v) => (op = .ne ∨ op = .lt) ∧ c = max ∧ v = target
  | none => false

/-- What `check_subtraction` reports. -/
inductive SubLint
  | saturating (big little : E) | inverted (big little : E)
  deriving DecidableEq, Repr

/-- The second half of `check_subtraction` (implicit_saturating_sub.rs:237-302). -/
def checkSub (big little ifB elseB : E) : Option SubLint :=
  if elseB.isLit 0 then
    match ifB with
    | .bin .sub l r =>
      if l = big ∧ r = little then some (.saturating big little)
      else if l = little ∧ r = big then some (.inverted big little)
      else none
    | _ => none
  else none

/-- `check_subtraction` (implicit_saturating_sub.rs:203-303); the recursion happens at most once. -/
def checkSubtraction (big little ifB elseB : E) : Option SubLint :=
  if ifB.isLit 0 then
    if elseB.isLit 0 then none else checkSub little big elseB ifB
  else checkSub big little ifB elseB

/-- `check_manual_check` (implicit_saturating_sub.rs:123-200) on `if l op r { ifB } else { elseB }`. -/
def manualCheck (signed : Bool) (op : Cmp) (l r ifB elseB : E) : Option SubLint :=
  if signed then none
  else match op with
    | .gt | .ge => checkSubtraction l r ifB elseB
    | .lt | .le => checkSubtraction r l ifB elseB
    | _ => none

/-- What the variable of `if var op num { var -= 1 }` is compared with: a literal, `T::MIN`, or other. -/
inductive Num | lit (n : Nat) | min | other
  deriving DecidableEq, Repr

/-- The final `match` of `check_with_condition` (implicit_saturating_sub.rs:352-392). -/
def numCheck (signed : Bool) : Num → Bool
  | .lit 0 => !signed
  | .min => true
  | _ => false

/-- `check_with_condition` (implicit_saturating_sub.rs:305-394); `varLeft` says on which side the variable
is. -/
def condCheck (signed : Bool) (op : Cmp) (varLeft : Bool) (num : Num) : Bool :=
  (if varLeft then op = .gt ∨ op = .ne else op = .lt ∨ op = .ne) && numCheck signed num

/-- `print_lint_and_sugg` (implicit_saturating_sub.rs:351, 417-427): the path printed in the suggestion, given
the segments of the path of the target. -/
def printedPath : List String → Option String
  | s :: _ => some s
  | [] => none

/-! ### manual_rotate -/

inductive Dir | left | right
  deriving DecidableEq, Repr

/-- The amounts of the shifts: binary operations are looked into, everything else is opaque. -/
inductive Amount
  | lit (n : Nat) | var (i : Nat) | sub (m o : Amount) | xor (m o : Amount) | add (m o : Amount)
  deriving DecidableEq, Repr

inductive AOp | sub | xor | add
  deriving DecidableEq, Repr

/-- `ExprKind::Binary(binop, minuend, other)` of an amount (`+` stands for every other operator). -/
def Amount.bin? : Amount → Option (AOp × Amount × Amount)
  | .sub m o => some (.sub, m, o)
  | .xor m o => some (.xor, m, o)
  | .add m o => some (.add, m, o)
  | _ => none

/-- The test of `minuend op a2` (manual_rotate.rs:105-116). `constant` is `ConstEvalCtxt::eval_local`. -/
def rotateMinuend (constant : Amount → Option Nat) (bits : Nat) (a1 : Amount) (op : AOp) (m a2 : Amount)
    (dir : Dir) : Option (Dir × Amount) :=
  match constant m with
  | some mv =>
    if a1 = a2 ∧ (op = .sub ∧ mv = bits ∨ op = .xor ∧ bits = mv + 1) then some (dir, a1) else none
  | none => none

/-- The `else` branch of `ManualRotate::check_expr` (manual_rotate.rs:99-116). -/
def rotateBinop (constant : Amount → Option Nat) (bits : Nat) (ldir : Dir) (la : Amount) (rdir : Dir)
    (ra : Amount) : Option (Dir × Amount) :=
  match la.bin?, ra.bin? with
  | _, some (op, m, o) => rotateMinuend constant bits la op m o ldir
  | some (op, m, o), none => rotateMinuend constant bits ra op m o rdir
  | none, none => none

/-- `ManualRotate::check_expr` (manual_rotate.rs:72-117) on `(x ldir la) op (x rdir ra)`, where `op` is `|` or
`+`: the direction and amount of the suggested rotation. The `u128` sum of line 91 is unbounded here. -/
def manualRotate (constant : Amount → Option Nat) (bits : Nat) (ldir : Dir) (la : Amount) (rdir : Dir)
    (ra : Amount) : Option (Dir × Amount) :=
  if ldir = rdir then none
  else match constant la, constant ra with
    | some lv, some rv =>
      if lv + rv = bits then some (if lv < rv then (ldir, la) else (rdir, ra))
      else rotateBinop constant bits ldir la rdir ra
    | _, _ => rotateBinop constant bits ldir la rdir ra

/-! ### manual_div_ceil and friends -/

/-- `differ_by_one` (operators/manual_div_ceil.rs:104-118); under a negation the code calls itself with the
operands exchanged, which `swapped` records. -/
def differ (swapped : Bool) : E → E → Bool
  | .lit a, .lit b =>
    let (s, l) := if swapped then (b, a) else (a, b)
    s < 2 ^ 128 - 1 ∧ l = s + 1
  | .neg a, .neg b => differ (!swapped) a b
  | _, _ => false

def differByOne (small large : E) : Bool := differ false small large

/-- `e` is `rhs - 1` (operators/manual_div_ceil.rs:28-32, 132-139). -/
def isMinusOne (e rhs : E) : Bool :=
  match e with
  | .bin .sub y one => one.isLit 1 && decide (y = rhs)
  | _ => false

/-- The `x` of `e = x + rhs` (operators/manual_div_ceil.rs:50-54). -/
def plusRhs (e rhs : E) : Option E :=
  match e with
  | .bin .add x y => if y = rhs then some x else none
  | _ => none

/-- `rhs` is `-y` and `ir` is `y + 1` (operators/manual_div_ceil.rs:71-72). -/
def negPlusOne (rhs ir : E) : Bool :=
  match rhs with
  | .neg y => differByOne y ir
  | _ => false

/-- `manual_div_ceil::check` (operators/manual_div_ceil.rs:16-100) on `lhs / rhs`: the suggested dividends
(several patterns can match one expression). -/
def manualDivCeil (signed features : Bool) (lhs rhs : E) : List E :=
  if signed ∧ ¬ features then []
  else match lhs with
    | .bin op il ir =>
      if op = .add ∧ isMinusOne ir rhs then [il]
      else if op = .add ∧ isMinusOne il rhs then [ir]
      else
        (if op = .sub ∧ ir.isLit 1 then (plusRhs il rhs).toList else []) ++
        (if op = .add ∧ differByOne ir rhs then [il] else []) ++
        (if op = .add ∧ differByOne il rhs then [ir] else []) ++
        (if op = .sub ∧ negPlusOne rhs ir then [il] else [])
    | .nextMultipleOf x y => if y = rhs then [x] else []
    | _ => []

/-- `add_operands` (operators/manual_midpoint.rs:63-68). -/
def addOperands : E → Option (E × E)
  | .bin .add a b => some (a, b)
  | _ => none

/-- The choice of the sum for integers (operators/manual_midpoint.rs:21-32): whether the type must be
unsigned. -/
def midpointOp (op : Op) (r : E) : Option Bool :=
  if op = .div ∧ r.isLit 2 then some false
  else if op = .shr ∧ r.isLit 1 then some true
  else none

/-- `manual_midpoint::check` (operators/manual_midpoint.rs:13-60) for integers, on `l op r`. -/
def manualMidpoint (signed : Bool) (op : Op) (l r : E) : Option (E × E) :=
  match midpointOp op r, addOperands l with
  | some requireUint, some (a, b) =>
    if (addOperands a).isSome ∨ (addOperands b).isSome ∨ (requireUint = true ∧ signed = true) ∨ a.isLit 1 ∨ b.isLit 1
    then none else some (a, b)
  | _, _ => none

/-- `matches!(e.kind, ExprKind::Binary(..))`. -/
def E.isBin : E → Bool
  | .bin _ _ _ => true
  | _ => false

/-- The operands of `a % b`. -/
def E.rem? : E → Option (E × E)
  | .bin .rem a b => some (a, b)
  | _ => none

/-- `manual_is_multiple_of::check` with `uint_compare_to_zero` (operators/manual_is_multiple_of.rs:14-80) on `l op r`:
whether the suggestion is negated, and its operands. Only for unsigned operands; `zero` is
`is_zero_integer_const`. -/
def manualIsMultipleOf (zero : E → Bool) (op : Cmp) (l r : E) : Option (Bool × E × E) :=
  let operand : Option E :=
    if l.isBin ∧ (op = .eq ∨ op = .ne ∨ op = .gt) ∧ zero r then some l
    else if r.isBin ∧ (op = .eq ∨ op = .ne ∨ op = .lt) ∧ zero l then some r
    else none
  operand.bind fun e => e.rem?.map fun (a, b) => (decide (op ≠ .eq), a, b)

/-- `u128::count_ones`. -/
def countOnes : Nat → Nat → Nat
  | 0, _ => 0
  | f + 1, n => n % 2 + countOnes f (n / 2)

/-- `u128::leading_zeros`. -/
def leadingZeros (w n : Nat) : Nat := if n = 0 then w else w - 1 - n.log2

/-- `verbose_bit_mask::check` (operators/verbose_bit_mask.rs:11-45) on `x & n == z`: the `k` of the suggested
`x.trailing_zeros() >= k`. -/
def verboseBitMask (threshold n z : Nat) : Option Nat :=
  if z = 0 ∧ leadingZeros 128 n = 128 - countOnes 128 n ∧ n > threshold then some (countOnes 128 n) else none

/-- `ManualRemEuclid::check_expr` (manual_rem_euclid.rs:51-127) on `((x % c3) + c2) % c1` or
`(c2 + (x % c3)) % c1`; `constant` is `check_for_unsigned_int_constant`. -/
def manualRemEuclid (constant : E → Option Nat) (e : E) : Option (E × Nat) :=
  match e with
  | .bin .rem (.bin .add al ar) c =>
    match constant c with
    | some c1 =>
      let either : Option (Nat × E) :=
        match constant al with
        | some k => some (k, ar)
        | none => (constant ar).map fun k => (k, al)
      match either with
      | some (c2, .bin .rem (.atom x) y) =>
        if c1 = c2 ∧ constant y = some c2 then some (.atom x, c1) else none
      | _ => none
    | none => none
  | _ => none

/-- `is_sub_expr` (manual_abs_diff.rs:117-148). -/
def isSubExpr (signed : Bool) (e a b : E) : Bool :=
  if signed then
    match e with
    | .castUnsigned e => e = .bin .sub a b
    | _ => false
  else e = .bin .sub a b

/-- `ManualAbsDiff::check_expr` (manual_abs_diff.rs:57-94) on `if l op r { thn } else { els }`. The operands of
the suggestion may be swapped when `a` is an unsuffixed literal. -/
def manualAbsDiff (signed : Bool) (op : Cmp) (l r thn els : E) : Option (E × E) :=
  let ab : Option (E × E) := match op with
    | .gt | .ge => some (l, r)
    | .lt | .le => some (r, l)
    | _ => none
  match ab with
  | some (a, b) => if isSubExpr signed thn a b ∧ isSubExpr signed els b a then some (a, b) else none
  | none => none

/-- `is_one_less` (manual_is_power_of_two.rs:111-126) for unsigned types. -/
def isOneLess (greater smaller : E) : Option E :=
  if smaller = .bin .sub greater (.lit 1) then some greater else none

/-- `is_and_minus_one` (manual_is_power_of_two.rs:129-132). -/
def isAndMinusOne : E → Option E
  | .bin .bitAnd l r =>
    match isOneLess l r with
    | some a => some a
    | none => isOneLess r l
  | _ => none

/-- `count_ones_receiver` (manual_is_power_of_two.rs:97-108). -/
def countOnesReceiver : E → Option E
  | .countOnes x => some x
  | _ => none

/-- `ManualIsPowerOfTwo::check_expr` (manual_is_power_of_two.rs:70-92) on `l == r` (unsigned). -/
def manualIsPowerOfTwo (l r : E) : Option E :=
  match (if r.isLit 1 then countOnesReceiver l else none) with
  | some a => some a
  | none =>
    match (if l.isLit 1 then countOnesReceiver r else none) with
    | some a => some a
    | none =>
      match (if r.isLit 0 then isAndMinusOne l else none) with
      | some a => some a
      | none => if l.isLit 0 then isAndMinusOne r else none

/-- `ManualIlog2::check_expr` (manual_ilog2.rs:53-98); `bits`: the width of the receiver's type. -/
def manualIlog2 (signed : Bool) (bits : Nat) : E → Option E
  | .bin .sub (.lit v) (.leadingZeros x) => if signed = false ∧ v = bits - 1 then some x else none
  | .ilog x b => if b.isLit 2 then some x else none
  | _ => none

end Verif.IntLints
