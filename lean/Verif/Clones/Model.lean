import Verif.Clones.Syntax
import Verif.Mir.Model

/-! Model of `clippy_lints/src/redundant_clone.rs`. -/

namespace Verif.Clones.Model

open Verif.Clones
open Verif.Mir (Local Place Elem Loc Body)
open Verif.Mir.Model (Usage visitUsage)
open Verif.Borrow (Instr Rvalue Operand)

/-- The loop over the projections (`clippy_lints/src/redundant_clone.rs:323-328`), with what has been
passed. -/
def stuck (T : PlaceTypes) (x : Local) : List Elem → List Elem → Bool
  | _, [] => false
  | pre, .deref :: rest => true || stuck T x (pre ++ [.deref]) rest
  | pre, .field n :: rest => T.hasDrop ⟨x, pre⟩ || stuck T x (pre ++ [.field n]) rest
  | pre, .index i :: rest => !T.copy ⟨x, pre⟩ || stuck T x (pre ++ [.index i]) rest

/-- `base_local_and_movability` (`clippy_lints/src/redundant_clone.rs:306-331`). -/
def baseOf (T : PlaceTypes) (p : Place) : Local × Bool := (p.base, stuck T p.base [] p.proj)

/-- The closure of `find_map` (`clippy_lints/src/redundant_clone.rs:283-289`). -/
def assignsTo (x : Local) : Instr → Option Rvalue
  | .assign d _ v => if d.base = x then some v else none
  | _ => none

/-- `find_stmt_assigns_to` (`clippy_lints/src/redundant_clone.rs:274-304`). -/
def findAssign (T : PlaceTypes) (stmts : List Instr) (x : Local) (byRef : Bool) : Option (Local × Bool) :=
  match byRef, stmts.reverse.findSome? (assignsTo x) with
  | true, some (.ref _ p) => some (baseOf T p)
  | false, some (.use (.copy p)) => some (baseOf T p)
  | false, some (.ref _ p) => if p.proj = [.deref] then some (baseOf T p) else none
  | _, _ => none

/-- The second half of finding the locals (`clippy_lints/src/redundant_clone.rs:131-178`). -/
def viaDeref (T : PlaceTypes) (only : List Local → Local → Bool) (s : Site) (cloned : Local) :
    Option (Local × Local) :=
  match s.pred with
  | none => none
  | some (c, stmts) =>
    if c.ret = cloned then
      match findAssign T stmts c.arg true with
      | none => none
      | some (x, cannot) => if cannot || !only [s.call.arg, cloned] x then none else some (x, c.ret)
    else none

/-- The local that is cloned, and the local of the clone
(`clippy_lints/src/redundant_clone.rs:111-178`). -/
def locals (T : PlaceTypes) (only : List Local → Local → Bool) (s : Site) : Option (Local × Local) :=
  match findAssign T s.stmts s.call.arg s.direct with
  | none => none
  | some (cloned, cannot) =>
    if s.direct then
      if cannot || !only [s.call.arg] cloned then none else some (cloned, s.call.ret)
    else viaDeref T only s cloned

/-- Whether a position is there and the clone has storage
(`clippy_lints/src/redundant_clone.rs:191-201`). -/
def aliveAt (alive : Loc → Bool) : Option Loc → Bool
  | some l => alive l
  | none => false

/-- The decision from the uses (`clippy_lints/src/redundant_clone.rs:186-203`, `386-393`): the clone is
redundant.  `temp` is whether it is neither an argument nor the result. -/
def decide_ (temp : Bool) (alive : Loc → Bool) (x r : Usage) : Bool :=
  if x.uses.head?.isSome && (!temp || !r.consumes.isEmpty) then false
  else if aliveAt alive x.uses.head? then false
  else !aliveAt alive x.consumes.head?

/-- `visit_clone_usage` and what is made of it (`clippy_lints/src/redundant_clone.rs:180-203`,
`366-401`). -/
def unneeded (m : Body) (at_ : Loc) (order : List Nat) (temp : Bool) (alive : Loc → Bool) (x r : Local) :
    Bool :=
  if x = r then true
  else
    match visitUsage [x, r] m at_ order with
    | some [u, v] => decide_ temp alive u v
    | _ => false

/-- The report for a call (`clippy_lints/src/redundant_clone.rs:111-203`): nothing for blocks that go
back to themselves (`84-87`). -/
def report (T : PlaceTypes) (only : List Local → Local → Bool) (m : Body) (s : Site) (order : List Nat)
    (temp : Local → Bool) (alive : Local → Loc → Bool) : Bool :=
  if (m.succs s.block).any (· == s.block) then false
  else
    match locals T only s with
    | none => false
    | some (x, r) =>
      unneeded m ⟨s.block, (m.block s.block).stmts.length⟩ order (temp r) (alive r) x r

end Verif.Clones.Model
