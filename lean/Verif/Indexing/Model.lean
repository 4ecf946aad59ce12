import Verif.Indexing.Syntax

/-!
# Model: `out_of_bounds_indexing` and `indexing_slicing`

`/repo/clippy_lints/src/indexing_slicing.rs`.
-/

namespace Verif.Indexing

/-- The configuration, and where the expression is. -/
structure Env where
  suppressInConst : Bool
  inConst : Bool
  allowInTests : Bool
  inTest : Bool
  procMacro : Bool
  /-- The number of bits of `usize` where the lint runs. -/
  host : Nat

/-- Which bound is reported. -/
inductive Report where
  /-- `out_of_bounds_indexing` at the start of the range, at its end, at the expression. -/
  | start | end_ | index
  /-- `indexing_slicing`. -/
  | mayPanic
  deriving DecidableEq

/-- `to_const_range`, `/repo/clippy_lints/src/indexing_slicing.rs:236-259`, the start. -/
def constStart : Option Bound → Option Nat
  | some ⟨some (.int x)⟩ => some x
  | some ⟨some .other⟩ => none
  | some ⟨none⟩ => none
  | none => some 0

/-- `to_const_range`, `/repo/clippy_lints/src/indexing_slicing.rs:236-259`, the end. -/
def constEnd (closed : Bool) (size : Nat) : Option Bound → Option Nat
  | some ⟨some (.int x)⟩ => if closed then some (x + 1) else some x
  | some ⟨some .other⟩ => none
  | some ⟨none⟩ => none
  | none => some size

/-- The reports about a range that is not known to be fine,
`/repo/clippy_lints/src/indexing_slicing.rs:169-186`. -/
def rangeMayPanic (env : Env) (r : Range) : Option Report :=
  if r.start.isNone && r.end_.isNone then none
  else if env.allowInTests && env.inTest then none
  else some .mayPanic

/-- Ranges, `/repo/clippy_lints/src/indexing_slicing.rs:127-186`. -/
def checkRange (env : Env) (b : Base) (r : Range) : Option Report :=
  match b with
  | .array none => none
  | .array (some size) =>
    if (constStart r.start).any (fun x => size < x) then some .start
    else if (constEnd r.closed size r.end_).any (fun x => size < x) then some .end_
    else if (constStart r.start).isSome && (constEnd r.closed size r.end_).isSome then none
    else rangeMayPanic env r
  | _ => rangeMayPanic env r

/-- The constant index of an array, `/repo/clippy_lints/src/indexing_slicing.rs:196-214`. -/
def checkConst (env : Env) (size : Option Nat) (c : Const) (usize : Bool) : Option Report :=
  match c, size with
  | .int off, some size =>
    if off < 2 ^ env.host && usize && size ≤ off then some .index else none
  | _, _ => none

/-- Other indices, `/repo/clippy_lints/src/indexing_slicing.rs:187-229`. -/
def checkSingle (env : Env) (b : Base) (e : Bound) (constBlock usize : Bool) : Option Report :=
  match b, e.const with
  | .array size, some c => if constBlock then none else checkConst env size c usize
  | .array _, none => if constBlock then none else
      if env.allowInTests && env.inTest then none else some .mayPanic
  | _, _ => if env.allowInTests && env.inTest then none else some .mayPanic

/-- `check_expr`, `/repo/clippy_lints/src/indexing_slicing.rs:112-231`. -/
def check (env : Env) (b : Base) (i : Index) : Option Report :=
  if env.suppressInConst && env.inConst then none
  else if b == .other then none
  else if env.procMacro then none
  else match i with
  | .range r => checkRange env b r
  | .single e cb us => checkSingle env b e cb us

end Verif.Indexing
