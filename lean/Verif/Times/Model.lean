import Verif.Times.Spec

/-!
# Model: time_subtraction.rs, operators/duration_subsec.rs
-/

namespace Verif.Times

/-- The types that matter — clippy_lints/src/time_subtraction.rs:98-100. -/
inductive Ty
  | instant | duration | other
  deriving DecidableEq, Repr

/-- An operand. `call own c args`: a call of an associated function with this name, of `Duration` itself
(`own`) or of another type — clippy_lints/src/time_subtraction.rs:93-97, 222-223. -/
inductive Operand
  | call (own : Bool) (c : Ctor) (args : List Arg)
  | now
  /-- `a - b`, with the types of both. -/
  | sub (l r : Ty)
  | other
  deriving DecidableEq, Repr

/-- The result of `const_eval_duration`, or a panic within clippy — clippy_lints/src/time_subtraction.rs:221. -/
inductive Out
  | value (d : Nat)
  | unknown
  | crash
  deriving DecidableEq, Repr

/-- `<u64>::try_from(v).ok()?` — clippy_lints/src/time_subtraction.rs:230. -/
def u64 (n : Nat) : Bool := decide (n < 2 ^ 64)

/-- `<u32>::try_from(v).ok()?` — clippy_lints/src/time_subtraction.rs:230, 237. -/
def u32 (n : Nat) : Bool := decide (n < 2 ^ 32)

/-- `<u128>::try_from(v).ok()?` — clippy_lints/src/time_subtraction.rs:230, 239. -/
def u128 (n : Nat) : Bool := decide (n < 2 ^ 128)

/-- `a * b` for `u64` — clippy_lints/src/time_subtraction.rs:250, 253. `checks`: clippy is built with checks for
overflow. -/
def mul64 (checks : Bool) (a b : Nat) : Option Nat :=
  if a * b < 2 ^ 64 then some (a * b) else if checks then none else some (a * b % 2 ^ 64)

/-- `Some(Duration::$ctor($($args)*))` — clippy_lints/src/time_subtraction.rs:232: the function of the standard
library is called by clippy. -/
def made (x : Option Nat) : Out :=
  match x with
  | some d => .value d
  | none => .crash

/-- `Duration::from_hours(…)` of a product — clippy_lints/src/time_subtraction.rs:249-254. -/
def hoursOf (fl : Nat → Option Nat) (x : Option Nat) : Out :=
  match x with
  | some h => made (std fl .hours [.int h])
  | none => .crash

/-- `try_parse_duration!` with one argument — clippy_lints/src/time_subtraction.rs:225-234. -/
def one (fl : Nat → Option Nat) (c : Ctor) (fits : Nat → Bool) : List Arg → Out
  | [.int n] => if fits n then made (std fl c [.int n]) else .unknown
  | _ => .unknown

/-- `const_eval_duration` for a call — clippy_lints/src/time_subtraction.rs:221-260. The type in front of the
function is not looked at. -/
def constEval (checks : Bool) (fl : Nat → Option Nat) : Ctor → List Arg → Out
  | .new, [.int s, .int n] => if u64 s && u32 n then made (std fl .new [.int s, .int n]) else .unknown
  | .new, _ => .unknown
  | .nanos, l => one fl .nanos u64 l
  | .nanosWide, l => one fl .nanosWide u128 l
  | .micros, l => one fl .micros u64 l
  | .millis, l => one fl .millis u64 l
  | .secs, l => one fl .secs u64 l
  | .secsFloat, [.float f] => made (std fl .secsFloat [.float f])
  | .secsFloat, _ => .unknown
  | .mins, l => one fl .mins u64 l
  | .hours, l => one fl .hours u64 l
  | .days, [.int n] => if u64 n then hoursOf fl (mul64 checks n 24) else .unknown
  | .days, _ => .unknown
  | .weeks, [.int n] =>
      if u64 n then hoursOf fl ((mul64 checks n 24).bind (fun h => mul64 checks h 7)) else .unknown
  | .weeks, _ => .unknown
  | .other _, _ => .unknown

/-- `const_eval_duration` — clippy_lints/src/time_subtraction.rs:222-224, 259. -/
def evalOperand (checks : Bool) (fl : Nat → Option Nat) : Operand → Out
  | .call _ c args => constEval checks fl c args
  | _ => .unknown

/-- What is reported — clippy_lints/src/time_subtraction.rs:105, 112, 126-139, 142, 185, 213. -/
inductive Report
  /-- Nothing: not a subtraction of times. -/
  | nothing
  /-- Nothing: the subtraction of two constants is said to be fine. -/
  | fine
  /-- `e.elapsed()`. -/
  | elapsed
  /-- "will underflow". -/
  | underflow
  /-- `l.checked_sub(r).unwrap()`, if `sugg`. -/
  | unchecked (sugg : Bool)
  /-- Clippy panics. -/
  | crash
  deriving DecidableEq, Repr

/-- `is_chained_time_subtraction` — clippy_lints/src/time_subtraction.rs:158-174. -/
def chained : Operand → Bool
  | .sub l r => l != .other && r != .other
  | _ => false

/-- `duration - duration` — clippy_lints/src/time_subtraction.rs:116-143, 204. -/
def durations (checks : Bool) (fl : Nat → Option Nat) (l r : Operand) : Report :=
  match evalOperand checks fl l with
  | .crash => .crash
  | .unknown => .unchecked (!chained l)
  | .value a =>
    match evalOperand checks fl r with
    | .crash => .crash
    | .unknown => .unchecked (!chained l)
    | .value b => if b ≤ a then .fine else .underflow

/-- `check_expr` — clippy_lints/src/time_subtraction.rs:92-145 (and 147-155), for `l - r`, not in a macro, with a version that
has `checked_sub`. -/
def check (checks : Bool) (fl : Nat → Option Nat) (l : Operand) (tl : Ty) (r : Operand) (tr : Ty) : Report :=
  match tl, tr with
  | .instant, .instant => if l = .now then .elapsed else .nothing
  | .instant, .duration => .unchecked (!chained l)
  | .duration, .duration => durations checks fl l r
  | _, _ => .nothing

/-- `suggested_fn` — clippy_lints/src/operators/duration_subsec.rs:28-32. -/
def subsec (m : Sub) (divisor : Nat) : Option Sub :=
  if (m = .micros ∧ divisor = 1000) ∨ (m = .nanos ∧ divisor = 1000000) then some .millis
  else if m = .nanos ∧ divisor = 1000 then some .micros
  else none

end Verif.Times
