import Verif.Mir.Syntax

/-! Model of `clippy_utils/src/mir/mod.rs`. -/

namespace Verif.Mir.Model

open Verif.Mir

/-- `LocalUsage` (`clippy_utils/src/mir/mod.rs:19-25`). -/
structure Usage where
  uses : List Loc
  consumes : List Loc
  deriving DecidableEq, Repr

/-- The contexts that do not count (`clippy_utils/src/mir/mod.rs:77-80`). -/
def ignored : Ctx → Bool
  | .drop | .nonUse => true
  | _ => false

/-- The contexts that consume or mutate (`clippy_utils/src/mir/mod.rs:83-87`). -/
def consuming : Ctx → Bool
  | .move | .inspect | .mutBorrow => true
  | _ => false

/-- One local of `visit_place` (`clippy_utils/src/mir/mod.rs:75-91`). -/
def note (x : Local) (a : Place × Ctx) (l : Loc) (u : Usage) : Usage :=
  if a.1.base = x then
    { uses := if ignored a.2 then u.uses else u.uses ++ [l]
      consumes := if consuming a.2 then u.consumes ++ [l] else u.consumes }
  else u

/-- `visit_place` (`clippy_utils/src/mir/mod.rs:67-92`); the locals that a place is indexed by are not
visited. -/
def visitPlace (xs : List Local) (at_ : Loc) (l : Loc) (us : List Usage) (a : Place × Ctx) : List Usage :=
  if l.block = at_.block && l.idx ≤ at_.idx then us
  else List.zipWith (fun x u => note x a l u) xs us

/-- The statements of a block from one of them on, and then the terminator
(`clippy_utils/src/mir/mod.rs:51-57`, with rustc's `super_basic_block_data`). -/
def visitBlock (m : Body) (xs : List Local) (at_ : Loc) (b : Nat) (us : List Usage) : List Usage :=
  (List.range ((m.block b).stmts.length + 1)).foldl
    (fun us i => (m.places ⟨b, i⟩).foldl (visitPlace xs at_ ⟨b, i⟩) us) us

/-- `visit_local_usage` (`clippy_utils/src/mir/mod.rs:27-59`).  The order is the list of blocks in
reverse postorder, from rustc. -/
def visitUsage (xs : List Local) (m : Body) (at_ : Loc) (order : List Nat) : Option (List Usage) :=
  order.foldlM
    (fun us b => if (m.succs b).any (· == at_.block) then none else some (visitBlock m xs at_ b us))
    (xs.map fun _ => ⟨[], []⟩)

/-- The loop over the successors (`clippy_utils/src/mir/mod.rs:103-109`): nothing is `return true`. -/
def scan (block : Nat) (seen stack : List Nat) : List Nat → Option (List Nat × List Nat)
  | [] => some (seen, stack)
  | s :: ss =>
    if seen.contains s then (if s = block then none else scan block seen stack ss)
    else scan block (s :: seen) (s :: stack) ss

/-- The outer loop (`clippy_utils/src/mir/mod.rs:102-116`), with a bound on its number of rounds. -/
def cycleLoop (m : Body) (block : Nat) : Nat → Nat → List Nat → List Nat → Bool
  | 0, _, _, _ => false
  | fuel + 1, next, seen, stack =>
    match scan block seen stack (m.succs next) with
    | none => true
    | some (_, []) => false
    | some (seen', x :: stack') => cycleLoop m block fuel x seen' stack'

/-- `block_in_cycle` (`clippy_utils/src/mir/mod.rs:95-117`). -/
def blockInCycle (m : Body) (block : Nat) : Bool := cycleLoop m block (m.length + 1) block [block] []

/-- `place.as_local() == Some(local)` (`clippy_utils/src/mir/mod.rs:187`). -/
def isLocal (p : Place) (x : Local) : Bool := p.proj.isEmpty && p.base == x

/-- The operands of inline assembly that are looked at (`clippy_utils/src/mir/mod.rs:194-200`). -/
def asmAssigns (x : Local) : AsmOp → Bool
  | .out (some p) => isLocal p x
  | _ => false

/-- The terminators (`clippy_utils/src/mir/mod.rs:192-202`). -/
def termAssigns (x : Local) : Term → Bool
  | .call d _ _ => isLocal d x
  | .asm ops _ => ops.any (asmAssigns x)
  | .other _ _ => false

/-- `is_local_assignment` (`clippy_utils/src/mir/mod.rs:181-204`). -/
def isAssignment (m : Body) (x : Local) (l : Loc) : Bool :=
  match (m.block l.block).stmts[l.idx]? with
  | some (.assign d _) => isLocal d x
  | some (.other _) => false
  | none => termAssigns x (m.block l.block).term

/-- Whether there is exactly one (`clippy_utils/src/mir/mod.rs:130-138`). -/
def once (m : Body) (x : Local) (uses : List Loc) : Bool :=
  match uses.filter fun l => !isAssignment m x l with
  | [] => false
  | l :: rest => rest.isEmpty && !blockInCycle m l.block

/-- `used_exactly_once` (`clippy_utils/src/mir/mod.rs:119-140`). -/
def usedOnce (m : Body) (x : Local) (order : List Nat) : Option Bool :=
  match visitUsage [x] m ⟨0, 0⟩ order with
  | some [u] => some (once m x u.uses)
  | _ => none

/-- `local_assignments` (`clippy_utils/src/mir/mod.rs:167-179`). -/
def assignments (m : Body) (x : Local) : List Loc :=
  (List.range m.length).flatMap fun b =>
    ((List.range ((m.block b).stmts.length + 1)).map fun i => ⟨b, i⟩).filter (isAssignment m x)

end Verif.Mir.Model
