import Verif.Endless.Syntax

/-!
# Model: `infinite_iter` and `maybe_infinite_iter`

`/repo/clippy_lints/src/infinite_iter.rs`.
-/

namespace Verif.Endless

/-- `Finiteness`, `/repo/clippy_lints/src/infinite_iter.rs:68-73`. -/
inductive Finiteness where
  | infinite | maybe | finite
  deriving DecidableEq

/-- `and`, `/repo/clippy_lints/src/infinite_iter.rs:78-85`. -/
def Finiteness.and : Finiteness → Finiteness → Finiteness
  | .finite, _ => .finite
  | _, .finite => .finite
  | .maybe, _ => .maybe
  | _, .maybe => .maybe
  | .infinite, .infinite => .infinite

/-- `or`, `/repo/clippy_lints/src/infinite_iter.rs:87-94`. -/
def Finiteness.or : Finiteness → Finiteness → Finiteness
  | .infinite, _ => .infinite
  | _, .infinite => .infinite
  | .maybe, _ => .maybe
  | _, .maybe => .maybe
  | .finite, .finite => .finite

/-- `Heuristic`, `/repo/clippy_lints/src/infinite_iter.rs:105-115`. -/
inductive Heuristic where
  | always | first | any | all

/-- `HEURISTICS`, `/repo/clippy_lints/src/infinite_iter.rs:124-144`. -/
def heuristics : List (Name × Nat × Heuristic × Finiteness) :=
  [(.zip, 1, .all, .infinite), (.chain, 1, .any, .infinite), (.cycle, 0, .always, .infinite),
   (.map, 1, .first, .infinite), (.byRef, 0, .first, .infinite), (.cloned, 0, .first, .infinite),
   (.rev, 0, .first, .infinite), (.inspect, 0, .first, .infinite),
   (.enumerate, 0, .first, .infinite), (.peekable, 1, .first, .infinite),
   (.fuse, 0, .first, .infinite), (.skip, 1, .first, .infinite),
   (.skipWhile, 0, .first, .infinite), (.filter, 1, .first, .infinite),
   (.filterMap, 1, .first, .infinite), (.flatMap, 1, .first, .infinite),
   (.unzip, 0, .first, .infinite), (.takeWhile, 1, .first, .maybe), (.scan, 2, .first, .maybe)]

/-- The first entry of the table for a method, `/repo/clippy_lints/src/infinite_iter.rs:149-150`. -/
def entry (m : Name) (len : Nat) : Option (Heuristic × Finiteness) :=
  (heuristics.find? fun h => h.1 == m && h.2.1 == len).map fun h => h.2.2

/-- The `match` on the heuristic, `/repo/clippy_lints/src/infinite_iter.rs:151-157`; `r` and `a` are
the verdicts about the receiver and the first argument. -/
def Heuristic.apply (r a : Finiteness) : Heuristic → Finiteness
  | .always => .infinite
  | .first => r
  | .any => r.or a
  | .all => r.and a

/-- The method calls, `/repo/clippy_lints/src/infinite_iter.rs:148-168`; `c` is the verdict about the
body of the closure in the first argument, if it is one. -/
def callVerdict (m : Name) (len : Nat) (r a : Finiteness) (c : Option Finiteness) : Finiteness :=
  match entry m len with
  | some (h, cap) => (h.apply r a).and cap
  | none => if m == .flatMap && len == 1 then c.getD .finite else .finite

mutual

/-- `is_infinite`, `/repo/clippy_lints/src/infinite_iter.rs:146-184`. -/
def isInfinite : Ex → Finiteness
  | .call m _ _ _ r args => callVerdict m args.len (isInfinite r) (firstArg args) (closureArg args)
  | .block e => isInfinite e
  | .unit => .finite
  | .addr e => isInfinite e
  | .rep _ => .infinite
  | .fn _ => .finite
  | .rangeFrom _ => .infinite
  | .rangeFull => .infinite
  | .closure _ => .finite
  | .cmp _ _ => .finite
  | .leaf _ => .finite

/-- The verdict about `args[0]`. -/
def firstArg : Exs → Finiteness
  | .nil => .finite
  | .cons e _ => isInfinite e

/-- The verdict about the body of the closure `args[0]`, `/repo/clippy_lints/src/infinite_iter.rs:160-166`. -/
def closureArg : Exs → Option Finiteness
  | .nil => none
  | .cons e _ => closureBody e

def closureBody : Ex → Option Finiteness
  | .closure b => some (isInfinite b)
  | _ => none

end

/-- `POSSIBLY_COMPLETING_METHODS`, `/repo/clippy_lints/src/infinite_iter.rs:188-195`. -/
def possiblyCompleting : List (Name × Nat) :=
  [(.find, 1), (.rfind, 1), (.position, 1), (.rposition, 1), (.any, 1), (.all, 1)]

/-- `COMPLETING_METHODS`, `/repo/clippy_lints/src/infinite_iter.rs:199-212`. -/
def completing : List (Name × Nat) :=
  [(.count, 0), (.fold, 2), (.forEach, 1), (.partition, 1), (.max, 0), (.maxBy, 1), (.maxByKey, 1),
   (.min, 0), (.minBy, 1), (.minByKey, 1), (.sum, 0), (.product, 0)]

/-- The method calls, `/repo/clippy_lints/src/infinite_iter.rs:216-254`; `r` is the verdict about the
receiver. -/
def completeCall (m : Name) (len : Nat) (de : Bool) (res : Res) (r : Finiteness) : Finiteness :=
  if completing.contains (m, len) then r
  else if possiblyCompleting.contains (m, len) then Finiteness.maybe.and r
  else if m == .last && len == 0 then if de then .finite else r
  else if m == .collect then if res == .collection then r else .finite
  else .finite

/-- `complete_infinite_iter`, `/repo/clippy_lints/src/infinite_iter.rs:214-261`. -/
def complete : Ex → Finiteness
  | .call m _ de res r args => completeCall m args.len de res (isInfinite r)
  | .cmp l r => ((isInfinite l).and (isInfinite r)).and .maybe
  | _ => .finite

/-- `check_expr`, `/repo/clippy_lints/src/infinite_iter.rs:56-66`: which of the two lints reports. -/
inductive Report where
  | infiniteIter | maybeInfiniteIter
  deriving DecidableEq

def check (e : Ex) : Option Report :=
  match complete e with
  | .infinite => some .infiniteIter
  | .maybe => some .maybeInfiniteIter
  | .finite => none

end Verif.Endless
