import Verif.Units.Spec

/-! Model of `clippy_lints/src/duration_suboptimal_units.rs`. -/

namespace Verif.Units.Model

open Verif.Units

/-- `Unit` (`clippy_lints/src/duration_suboptimal_units.rs:156-169`). -/
structure Entry where
  constructor : Unit
  factor : Nat
  since : Option Version

/-- `UNITS` (`clippy_lints/src/duration_suboptimal_units.rs:172-204`). -/
def units : List Entry :=
  [⟨.nanos, 0, some .nanosMicros⟩, ⟨.micros, 1000, some .nanosMicros⟩, ⟨.millis, 1000, some .millisSecs⟩,
    ⟨.secs, 1000, some .millisSecs⟩, ⟨.mins, 60, some .minutesHours⟩, ⟨.hours, 60, some .minutesHours⟩]

/-- `EXTENDED_UNITS` (`clippy_lints/src/duration_suboptimal_units.rs:207-218`). -/
def extendedUnits : List Entry := [⟨.days, 24, none⟩, ⟨.weeks, 7, none⟩]

/-- `DurationSuboptimalUnits::new` (`clippy_lints/src/duration_suboptimal_units.rs:63-73`). -/
def newUnits (feature : Bool) : List Entry := if feature then units ++ extendedUnits else units

/-- `u64::div_exact`, as used at `clippy_lints/src/duration_suboptimal_units.rs:139`. -/
def divExact (a b : Nat) : Option Nat := if a % b = 0 then some (a / b) else none

/-- The `try_fold` of `promote` (`clippy_lints/src/duration_suboptimal_units.rs:136-150`). -/
def fold (meets : Version → Bool) : Unit × Nat → List Entry → Unit × Nat
  | cur, [] => cur
  | cur, e :: es =>
    match divExact cur.2 e.factor with
    | some v => if e.since.all meets then fold meets (e.constructor, v) es else cur
    | none => cur

/-- `promote` (`clippy_lints/src/duration_suboptimal_units.rs:130-152`). -/
def promote (meets : Version → Bool) (feature : Bool) (name : Unit) (value : Nat) : Option (Unit × Nat) :=
  let best := fold meets (name, value) (((newUnits feature).dropWhile (·.constructor != name)).drop 1)
  if best.1 ≠ name then some best else none

/-- `check_expr` (`clippy_lints/src/duration_suboptimal_units.rs:77-122`) for a call with a known argument; `literal` says that it is one
literal. -/
def check (meets : Version → Bool) (feature literal : Bool) (name : Unit) (value : Nat) : Option (Unit × Nat) :=
  if value ≠ 0 then
    match promote meets feature name value with
    | some (u, v) => if !literal || v > 10 then some (u, v) else none
    | none => none
  else none

end Verif.Units.Model
