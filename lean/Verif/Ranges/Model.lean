import Verif.Common.Text
import Verif.Common.POrd
import Verif.Common.RInt

/-
Models of `int_plus_one` (clippy_lints/src/int_plus_one.rs) and of the range lints
(clippy_lints/src/ranges.rs).
-/

namespace Verif.Ranges
open Verif.RInt

/-! ### int_plus_one -/

/-- The expressions the lint looks into; everything else is `atom`. -/
inductive Expr
  | lit (n : Nat) | neg (e : Expr) | add (l r : Expr) | sub (l r : Expr) | atom (i : Nat)
  deriving DecidableEq, Repr

/-- `IntPlusOne::is_one` (int_plus_one.rs:65-72). -/
def isOne : Expr → Bool
  | .lit 1 => true
  | _ => false

/-- `IntPlusOne::is_neg_one` (int_plus_one.rs:74-80). -/
def isNegOne : Expr → Bool
  | .neg e => isOne e
  | _ => false

/-- `IntPlusOne::as_x_plus_one` (int_plus_one.rs:82-96). -/
def asXPlusOne : Expr → Option Expr
  | .add l r => if isOne r then some l else if isOne l then some r else none
  | _ => none

/-- `IntPlusOne::as_x_minus_one` (int_plus_one.rs:98-110). -/
def asXMinusOne : Expr → Option Expr
  | .sub l r => if isOne r then some l else none
  | .add l r => if isNegOne l then some r else none
  | _ => none

/-- `LeOrGe` (int_plus_one.rs:47-51). -/
inductive LeOrGe | le | ge
  deriving DecidableEq, Repr

/-- `IntPlusOne::check_binop` (int_plus_one.rs:112-127). -/
def checkBinop (k : LeOrGe) (l r : Expr) : Option (Expr × Expr) :=
  match k with
  | .ge =>
    match asXMinusOne l with
    | some l' => some (l', r)
    | none => (asXPlusOne r).map fun r' => (l, r')
  | .le =>
    match asXPlusOne l with
    | some l' => some (l', r)
    | none => (asXMinusOne r).map fun r' => (l, r')

/-- The operator of the suggestion (int_plus_one.rs:140-143). -/
def newOp : LeOrGe → Cmp
  | .ge => .gt
  | .le => .lt

/-! ### manual_range_contains -/

/-- `RangeBounds` (ranges.rs:316-324) without spans: the value of the bound, the variable, the direction of
the comparison (normalised so that the variable is on the left) and whether it is inclusive. -/
structure Bounds (α : Type) where
  val : α
  id : Nat
  ord : Ordering
  inc : Bool

/-- An operand of a comparison: a local variable, or something the constant evaluator gives a value. -/
inductive Operand (α : Type) | var (id : Nat) | const (v : α) | other

/-- `check_range_bounds` (ranges.rs:329-365). A variable is not a constant here. -/
def rangeBounds {α} (op : Cmp) (l r : Operand α) : Option (Bounds α) :=
  let k : Option (Bool × Ordering) := match op with
    | .gt => some (false, .gt)
    | .ge => some (true, .gt)
    | .lt => some (false, .lt)
    | .le => some (true, .lt)
    | _ => none
  match k with
  | none => none
  | some (inc, o) =>
    match l, r with
    | .var id, .const v => some ⟨v, id, o, inc⟩
    | .var _, _ => none
    | .const v, .var id => some ⟨v, id, o.swap, inc⟩
    | _, _ => none

/-- The suggested range: `lo..hi` or `lo..=hi`, and whether `contains` is negated. -/
structure Sugg (α : Type) where
  lo : α
  hi : α
  closed : Bool
  negated : Bool

/-- The first part of `check_possible_range_contains` (ranges.rs:221-300): `cmp` is
`Constant::partial_cmp`, `float` is the test of line 264. -/
def contains {α} (cmp : α → α → Option Ordering) (float : Bool) (combineAnd : Bool) (l r : Bounds α) :
    Option (Sugg α) :=
  if l.id ≠ r.id ∨ l.ord = r.ord then none
  else
    let ord := cmp l.val r.val
    if combineAnd ∧ ord = some r.ord then
      let (lv, uv, lInc, uInc) :=
        if r.ord = .lt then (l.val, r.val, l.inc, r.inc) else (r.val, l.val, r.inc, l.inc)
      if !lInc then none else some ⟨lv, uv, uInc, false⟩
    else if ¬ combineAnd ∧ ord = some l.ord then
      if float then none
      else
        let (lv, uv, lInc, uInc) :=
          if l.ord = .lt then (l.val, r.val, l.inc, r.inc) else (r.val, l.val, r.inc, l.inc)
        if lInc then none else some ⟨lv, uv, !uInc, true⟩
    else none

/-- Conditions as clippy sees them: comparisons and other atoms (with their source text), and
applications of one fixed operator (`&&`, `&`, `||` or `|`), possibly in parentheses. -/
inductive Cond (α : Type)
  | cmp (text : List Char) (op : Cmp) (l r : Operand α)
  | atom (text : List Char) (i : Nat)
  | bin (paren : Bool) (l r : Cond α)

/-- The source text of a condition; `op` is the operator as written. -/
def Cond.text {α} (op : List Char) : Cond α → List Char
  | .cmp t _ _ _ => t
  | .atom t _ => t
  | .bin p l r =>
    let s := l.text op ++ op ++ r.text op
    if p then '(' :: s ++ [')'] else s

def Cond.bounds {α} : Cond α → Option (Bounds α)
  | .cmp _ op l r => rangeBounds op l r
  | _ => none

/-- `src.matches('(').count() == src.matches(')').count()` (ranges.rs:309). -/
def parensMatch (s : List Char) : Bool := s.count '(' == s.count ')'

/-- The recursion of `check_possible_range_contains` (ranges.rs:302-313). `mid` is the source text
between the end of `left` and the start of `right`. Each result says how many steps down the left
operand was found, and what is suggested there. -/
def checkContains {α} (cmp : α → α → Option Ordering) (float combineAnd : Bool) (op mid : List Char)
    (right : Cond α) (depth : Nat) : Cond α → List (Nat × Sugg α)
  | .bin p l newL =>
    let mid' := (if p then [')'] else []) ++ mid
    if parensMatch (newL.text op ++ mid' ++ right.text op) then
      checkContains cmp float combineAnd op mid' right (depth + 1) newL
    else []
  | left =>
    match left.bounds, right.bounds with
    | some l, some r => (contains cmp float combineAnd l r).toList.map fun s => (depth, s)
    | _, _ => []

/-! ### Ranges -/

/-- `RangeLimits`. -/
inductive Limits | halfOpen | closed
  deriving DecidableEq, Repr

/-- `y_plus_one` (ranges.rs:645-664). -/
def yPlusOne : Expr → Option Expr
  | .add l r => if isOne l then some r else if isOne r then some l else none
  | _ => none

/-- `y_minus_one` (ranges.rs:666-677). -/
def yMinusOne : Expr → Option Expr
  | .sub l r => if isOne r then some l else none
  | _ => none

/-- `check_exclusive_range_plus_one`, `check_inclusive_range_minus_one` through `check_range_switch`
(ranges.rs:488-559): the limits and the end of the suggested range. That the range may change its
type at this place (`can_switch_ranges`) is not modelled. -/
def rangeSwitch (limits : Limits) (e : Expr) : Option (Limits × Expr) :=
  match limits with
  | .halfOpen => (yPlusOne e).map fun y => (.closed, y)
  | .closed => (yMinusOne e).map fun y => (.halfOpen, y)

/-- `is_empty_range` (ranges.rs:584-589). -/
def isEmptyRange : Limits → Ordering → Bool
  | .halfOpen, o => o ≠ .lt
  | .closed, o => o = .gt

/-- What `check_reversed_empty_range` says (ranges.rs:561-643). -/
inductive EmptyMsg | panics | empty (sugg : Bool)
  deriving DecidableEq, Repr

/-- `check_reversed_empty_range` (ranges.rs:591-642) on the ordering of the constant bounds. -/
def reversedEmpty (limits : Limits) (o : Ordering) (indexing forLoop : Bool) : Option EmptyMsg :=
  if isEmptyRange limits o then
    if indexing then (if o ≠ .eq then some .panics else none)
    else if o ≠ .eq ∨ forLoop then some (.empty (o ≠ .eq))
    else none
  else none

end Verif.Ranges
