import Verif.Common.Sort
import Verif.Consts.Order

/-!
# `match_overlapping_arm`

Model of `clippy_lints/src/matches/overlapping_arms.rs`. The span of an arm's pattern is represented by the
position of the arm. A `FullInt` is represented by the number it stands for (`Consts.fullInt_cmp` shows that
the order is the same).
-/

namespace Verif.Pats

open Verif Verif.Consts

/-- The pattern of an arm; constants are what `eval_pat_expr` gives (`none`: not evaluable). -/
inductive ArmPat
  | range (lhs rhs : Option (Option Constant)) (incl : Bool)
  | expr (c : Option Constant)
  | other

/-- An arm. -/
structure RArm where
  pat : ArmPat
  guard : Bool

/-- `SpannedRange<FullInt>` with its `EndBound` (overlapping_arms.rs:72-82). -/
structure SRange where
  span : Nat
  start : Int
  fin : Int
  incl : Bool
  deriving DecidableEq, Repr

/-- The constant of an optional bound (overlapping_arms.rs:35-44). -/
def boundConst (dflt : Option Constant) : Option (Option Constant) → Option Constant
  | some c => c
  | none => dflt

/-- The closure in `all_ranges` (overlapping_arms.rs:32-67). -/
def armRange (S : Sess) (ty : Ty) (i : Nat) (a : RArm) : Option SRange :=
  if a.guard then none
  else match a.pat with
    | .range lhs rhs incl =>
      match boundConst (newNumericMin S ty) lhs, boundConst (newNumericMax S ty) rhs with
      | some l, some r =>
        match intValue S l ty, intValue S r ty with
        | some l, some r => some ⟨i, l.toInt, r.toInt, incl⟩
        | _, _ => none
      | _, _ => none
    | .expr (some c) =>
      match intValue S c ty with
      | some v => some ⟨i, v.toInt, v.toInt, true⟩
      | none => none
    | _ => none

/-- `all_ranges` (overlapping_arms.rs:30-70), arms numbered from `i`. -/
def allRanges (S : Sess) (ty : Ty) : (i : Nat) → List RArm → List SRange
  | _, [] => []
  | i, a :: as => (armRange S ty i a).toList ++ allRanges S ty (i + 1) as

/-- `BoundKind`, in order (overlapping_arms.rs:88-93). -/
inductive BoundKind | endExcluded | start | endIncluded
  deriving DecidableEq, Repr

def BoundKind.rank : BoundKind → Nat
  | .endExcluded => 0
  | .start => 1
  | .endIncluded => 2

/-- `RangeBound` (overlapping_arms.rs:95-96). -/
structure Ev where
  val : Int
  kind : BoundKind
  range : SRange
  deriving DecidableEq, Repr

/-- `RangeBound::cmp` (overlapping_arms.rs:104-109): `self <= other`. -/
def Ev.le (a b : Ev) : Bool := decide (a.val < b.val) || (a.val == b.val && decide (a.kind.rank ≤ b.kind.rank))

/-- The two bounds of a range (overlapping_arms.rs:113-119). -/
def SRange.startEv (r : SRange) : Ev := ⟨r.start, .start, r⟩
def SRange.endEv (r : SRange) : Ev := ⟨r.fin, if r.incl then .endIncluded else .endExcluded, r⟩

/-- `values` before sorting (overlapping_arms.rs:111-119). -/
def events : List SRange → List Ev
  | [] => []
  | r :: rs => r.startEv :: r.endEv :: events rs

/-- The inner loop (overlapping_arms.rs:129-136): pops until `r` is found. -/
def popTo (r : SRange) : List SRange → Option SRange → Option SRange × List SRange
  | [], overlap => (overlap, [])
  | x :: st, overlap => if x = r then (overlap, st) else popTo r st (some x)

/-- The sweep (overlapping_arms.rs:123-143); the stack has its top first. -/
def sweep : List Ev → List SRange → Option (SRange × SRange)
  | [], _ => none
  | e :: evs, st =>
    match e.kind with
    | .start => sweep evs (e.range :: st)
    | _ =>
      match popTo e.range st none with
      | (some o, _) => some (e.range, o)
      | (none, st') => sweep evs st'

/-- `overlapping` (overlapping_arms.rs:84-146). -/
def overlapping (rs : List SRange) : Option (SRange × SRange) := sweep (sortBy Ev.le (events rs)) []

/-- `check` (overlapping_arms.rs:11-27) for a scrutinee of integer type: the two arms reported. -/
def checkOverlap (S : Sess) (ty : Ty) (arms : List RArm) : Option (Nat × Nat) :=
  if arms.length ≥ 2 then
    match overlapping (allRanges S ty 0 arms) with
    | some (a, b) => some (a.span, b.span)
    | none => none
  else none

end Verif.Pats
