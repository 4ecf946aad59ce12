/-!
# Specification: durations, instants and clocks

Durations are numbers of nanoseconds; `none` stands for a panic. An expression may take time: the state of
the world has a clock.
-/

namespace Verif.Times

/-- Arguments of constructors: constants, or anything else. `float` is a number for a floating-point
constant. -/
inductive Arg
  | int (n : Nat)
  | float (f : Nat)
  | unknown
  deriving DecidableEq, Repr

/-- The associated functions that make durations (and other functions). -/
inductive Ctor
  | new | nanos | nanosWide | micros | millis | secs | secsFloat | mins | hours | days | weeks
  | other (n : Nat)
  deriving DecidableEq, Repr

/-- A duration of so many seconds: they are counted in 64 bits. -/
def ofSecs (s : Nat) : Option Nat := if s < 2 ^ 64 then some (s * 1000000000) else none

/-- The duration that a function of the standard library makes, in nanoseconds. `fl` says which one a
floating-point number of seconds is (`none`: negative, too large, not a number). -/
def std (fl : Nat → Option Nat) : Ctor → List Arg → Option Nat
  | .new, [.int s, .int n] => if s + n / 1000000000 < 2 ^ 64 then some (s * 1000000000 + n) else none
  | .nanos, [.int n] => some n
  | .nanosWide, [.int n] => if n / 1000000000 < 2 ^ 64 then some n else none
  | .micros, [.int n] => some (n * 1000)
  | .millis, [.int n] => some (n * 1000000)
  | .secs, [.int n] => ofSecs n
  | .secsFloat, [.float f] => fl f
  | .mins, [.int n] => ofSecs (n * 60)
  | .hours, [.int n] => ofSecs (n * (60 * 60))
  | .days, [.int n] => ofSecs (n * (24 * 60 * 60))
  | .weeks, [.int n] => ofSecs (n * (7 * 24 * 60 * 60))
  | _, _ => none

/-- `a - b` of durations panics if the result would be negative. -/
def minus (a b : Nat) : Option Nat := if b ≤ a then some (a - b) else none

/-- `a.checked_sub(b)`. -/
def checkedSub (a b : Nat) : Option Nat := if a < b then none else some (a - b)

/-! ## Programs -/

/-- What the expressions of a program do: their values (in nanoseconds; `none`: panic), the effects, the
clock, and the instants that can be represented. -/
structure Sem where
  W : Type
  value : Nat → W → Option Nat × W
  clock : W → Nat
  /-- Reading the clock. -/
  tick : W → W
  first : Nat

/-- `Instant::now()`. -/
def now (I : Sem) (w : I.W) : Option Nat × I.W := (some (I.clock w), I.tick w)

/-- The difference of two instants: zero if the second one is later. -/
def between (a b : Nat) : Nat := a - b

/-- `Instant::now() - e`. -/
def nowMinus (I : Sem) (e : Nat) (w : I.W) : Option Nat × I.W :=
  let r1 := now I w
  match I.value e r1.2 with
  | (some b, w') => (r1.1.map (between · b), w')
  | (none, w') => (none, w')

/-- `e.elapsed()`. -/
def elapsed (I : Sem) (e : Nat) (w : I.W) : Option Nat × I.W :=
  match I.value e w with
  | (some b, w') => let r := now I w'; (r.1.map (between · b), r.2)
  | (none, w') => (none, w')

/-- Two expressions, one after the other, and what is made of their values. -/
def both (I : Sem) (f : Nat → Nat → Option Nat) (l r : Nat) (w : I.W) : Option Nat × I.W :=
  match I.value l w with
  | (none, w') => (none, w')
  | (some a, w') =>
    match I.value r w' with
    | (none, w'') => (none, w'')
    | (some b, w'') => (f a b, w'')

/-- `i - d` for an instant and a duration: a panic if there is no such instant. -/
def instantMinus (I : Sem) (a b : Nat) : Option Nat := if I.first + b ≤ a then some (a - b) else none

/-- `i.checked_sub(d)` for an instant. -/
def instantChecked (I : Sem) (a b : Nat) : Option Nat := if a < I.first + b then none else some (a - b)

/-- `.unwrap()` -/
def unwrap (x : Option Nat) : Option Nat := x

/-! ## Parts of a second -/

/-- The methods of a duration that give the part below a second. -/
inductive Sub
  | millis | micros | nanos
  deriving DecidableEq, Repr

/-- The value of `d.subsec_…()`: the whole units in the part below a second. -/
def Sub.get (d : Nat) : Sub → Nat
  | .millis => d % 1000000000 / 1000000
  | .micros => d % 1000000000 / 1000
  | .nanos => d % 1000000000

end Verif.Times
