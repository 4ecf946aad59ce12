/-!
# Durations and their constructors
-/

namespace Verif.Units

/-- The constructors of `Duration`. -/
inductive Unit
  | nanos | micros | millis | secs | mins | hours | days | weeks
deriving DecidableEq, Repr

/-- How many nanoseconds one is. -/
def Unit.ns : Unit → Nat
  | .nanos => 1
  | .micros => 1000
  | .millis => 1000000
  | .secs => 1000000000
  | .mins => 60 * 1000000000
  | .hours => 3600 * 1000000000
  | .days => 86400 * 1000000000
  | .weeks => 604800 * 1000000000

/-- The values of `u64`. -/
def u64 : Nat := 2 ^ 64

/-- The duration that a constructor makes, in nanoseconds; a duration has at most `u64::MAX` seconds and a fraction, else the constructor
panics. -/
def duration (u : Unit) (v : Nat) : Option Nat := if v * u.ns < u64 * 1000000000 then some (v * u.ns) else none

/-- The stabilisations that matter. -/
inductive Version
  | nanosMicros | millisSecs | minutesHours
deriving DecidableEq, Repr

/-- Whether a constructor can be used: with `old` enough versions of Rust, or with the feature for days and weeks. -/
def available (meets : Version → Bool) (feature : Bool) : Unit → Bool
  | .nanos | .micros => meets .nanosMicros
  | .millis | .secs => meets .millisSecs
  | .mins | .hours => meets .minutesHours
  | .days | .weeks => feature

end Verif.Units
