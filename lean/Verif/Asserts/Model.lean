/-!
# `missing_asserts_for_indexing`

Model of `clippy_lints/src/missing_asserts_for_indexing.rs` for one slice: the code keeps a separate entry for each (found by equality of
expressions, `HirEq`). The three spellings of an equality (`assert!`, `assert_eq!`, `debug_assert_eq!`) are one here.
-/

namespace Verif.Asserts

inductive Op
  | lt | le | gt | ge | eq | ne
deriving DecidableEq, Repr

/-- `LengthComparison` (missing_asserts_for_indexing.rs:81-93). -/
inductive LC
  | lenLt | intLt | lenLe | intLe | eq
deriving DecidableEq, Repr

/-- `len_comparison` (missing_asserts_for_indexing.rs:98-124) of the length with a literal: the operator, and whether the literal is on the left.
`>` and `>=` are turned around first. -/
def lenComparison (op : Op) (litLeft : Bool) : Option LC :=
  match op, litLeft with
  | .lt, true | .gt, false => some .intLt
  | .lt, false | .gt, true => some .lenLt
  | .le, true | .ge, false => some .intLe
  | .le, false | .ge, true => some .lenLe
  | .eq, _ => some .eq
  | .ne, _ => none

/-- An index: a literal, or a range that ends with a literal. -/
inductive Idx
  | lit (k : Nat)
  | range (start : Nat) (closed : Bool) (stop : Nat)
deriving DecidableEq, Repr

/-- `upper_index_expr` (missing_asserts_for_indexing.rs:219-235). -/
def Idx.upper : Idx → Option Nat
  | .lit k => some k
  | .range _ _ 0 => none
  | .range _ false (e + 1) => some e
  | .range _ true (e + 1) => some (e + 1)

/-- Code: nothing, an index into the slice, `if !(v.len() op n) { … } else { els }` with a first branch which panics (as in `assert!`) or is left in
another way, a sequence, a condition on something else. -/
inductive P
  | skip
  | idx (i : Idx)
  | guard (op : Op) (litLeft : Bool) (n : Nat) (panics : Bool) (els : P)
  | seq (a b : P)
  | cond (a b : P)
deriving DecidableEq, Repr

/-- What the visitor sees. -/
inductive Ev
  | index (k : Nat)
  | assert (c : LC) (n : Nat)
deriving DecidableEq, Repr

/-- The events in the order of visiting (missing_asserts_for_indexing.rs:436-448, 132-170). The branch of the guard only has to have the type `!`, and
the other one isn't looked at. -/
def P.events : P → List Ev
  | .skip => []
  | .idx i => match i.upper with | some k => [.index k] | none => []
  | .guard op l n _ els => (match lenComparison op l with | some c => [.assert c n] | none => []) ++ els.events
  | .seq a b | .cond a b => a.events ++ b.events

/-- `IndexEntry` (missing_asserts_for_indexing.rs:173-203), if there is one. The indices are counted. -/
inductive Entry
  | empty
  | stray (c : LC) (n : Nat)
  | withIndex (highest : Nat) (first : Bool) (c : LC) (n : Nat) (count : Nat)
  | without (highest : Nat) (first : Bool) (count : Nat)
deriving DecidableEq, Repr

/-- `check_index` and `check_assert` (missing_asserts_for_indexing.rs:238-301, 304-344). An assertion is visited before what follows, so one after the
first index is ignored, and so is a second one. -/
def Entry.step : Entry → Ev → Entry
  | .empty, .index k => .without k true 1
  | .stray c n, .index k => .withIndex k true c n 1
  | .without h f m, .index k => .without (max h k) (if f then decide (h ≥ k) else f) (m + 1)
  | .withIndex h f c n m, .index k => .withIndex (max h k) (if f then decide (h ≥ k) else f) c n (m + 1)
  | .empty, .assert c n => .stray c n
  | e, .assert _ _ => e

/-- What is suggested: to add `assert!(v.len() > h)`, or to replace the assertion by it or by `v.len() == k`. -/
inductive Report
  | add (h : Nat)
  | replaceGt (h : Nat)
  | replaceEq (k : Nat)
deriving DecidableEq, Repr

/-- `report_indexes` (missing_asserts_for_indexing.rs:349-434). -/
def Entry.report : Entry → Option Report
  | .withIndex h f c n m =>
    if m > 1 ∧ f = false then
      match c with
      | .lenLt | .lenLe => some (.replaceGt h)
      | .intLt => if n < h then some (.replaceGt h) else none
      | .intLe => if n ≤ h then some (.replaceGt h) else none
      | .eq => if n < h + 1 then some (.replaceEq (h + 1)) else none
    else none
  | .without h f m => if m > 1 ∧ f = false then some (.add h) else none
  | _ => none

/-- The lint for a body. -/
def lint (p : P) : Option Report := (p.events.foldl Entry.step .empty).report

/-- Apply a suggestion: the assertion is put before the code, or the whole `if` of the first one is replaced (missing_asserts_for_indexing.rs:393-407, 424-427). -/
def replaceFirst (new : P) : P → Option P
  | .skip | .idx _ => none
  | .guard op l n pa els => if (lenComparison op l).isSome then some new else (replaceFirst new els).map (.guard op l n pa)
  | .seq a b => match replaceFirst new a with
    | some a' => some (.seq a' b)
    | none => (replaceFirst new b).map (.seq a)
  | .cond a b => match replaceFirst new a with
    | some a' => some (.cond a' b)
    | none => (replaceFirst new b).map (.cond a)

def Report.apply (p : P) : Report → Option P
  | .add h => some (.seq (.guard .gt false h true .skip) p)
  | .replaceGt h => replaceFirst (.guard .gt false h true .skip) p
  | .replaceEq k => replaceFirst (.guard .eq false k true .skip) p

end Verif.Asserts
