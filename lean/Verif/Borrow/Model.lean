import Verif.Borrow.Syntax

/-! Model of `clippy_utils/src/mir/{transitive_relation,possible_origin,possible_borrower}.rs`. -/

namespace Verif.Borrow.Model

open Verif.Borrow
open Verif.Mir (Local Place Elem)

/-- `TransitiveRelation` (`clippy_utils/src/mir/transitive_relation.rs:5-13`): the pairs in the order
in which they were added. -/
abbrev Rel := List (Local × Local)

/-- The entry of a local (`clippy_utils/src/mir/transitive_relation.rs:19`). -/
def edges (r : Rel) (u : Local) : List Local :=
  r.filterMap fun e => if e.1 = u then some e.2 else none

/-- The inner loop (`clippy_utils/src/mir/transitive_relation.rs:20-24`). -/
def pushNew (seen stack : List Local) : List Local → List Local × List Local
  | [] => (seen, stack)
  | v :: vs => if seen.contains v then pushNew seen stack vs else pushNew (v :: seen) (v :: stack) vs

/-- The outer loop (`clippy_utils/src/mir/transitive_relation.rs:18-26`), with a bound on its number of
rounds. -/
def reachLoop (r : Rel) : Nat → List Local → List Local → List Local
  | 0, _, seen => seen
  | _ + 1, [], seen => seen
  | n + 1, u :: stack, seen =>
    reachLoop r n (pushNew seen stack (edges r u)).2 (pushNew seen stack (edges r u)).1

/-- `reachable_from` (`clippy_utils/src/mir/transitive_relation.rs:15-28`). -/
def reachable (r : Rel) (a : Local) (n : Nat) : List Local := reachLoop r (n + 1) [a] []

/-- `visit_assign` of `PossibleOriginVisitor` (`clippy_utils/src/mir/possible_origin.rs:41-57`). -/
def originPairs : Instr → Rel
  | .assign d _ (.ref true p) => [(d.base, p.base)]
  | .assign d _ (.use (.move p)) => [(d.base, p.base)]
  | .assign d _ (.cast (.move p)) => [(d.base, p.base)]
  | _ => []

/-- One row of `into_map` (`clippy_utils/src/mir/possible_origin.rs:24-38`,
`clippy_utils/src/mir/possible_borrower.rs:44-55`). -/
def row (T : Types) (n : Nat) (r : Rel) (x : Local) : Option (List Local) :=
  if x = 0 || n ≤ x || T.copy x then none
  else
    let s := (reachable r x n).filter (· != 0)
    if s.isEmpty then none else some s

/-- The possible origins (`clippy_utils/src/mir/possible_borrower.rs:179-183`). -/
def origins (T : Types) (n : Nat) (body : List Instr) : Local → Option (List Local) :=
  row T n (body.flatMap originPairs)

/-- `rvalue_locals` (`clippy_utils/src/mir/possible_borrower.rs:149-166`), of an operand. -/
def opLocal (o : Operand) : List Local :=
  match o with
  | .copy p => [p.base]
  | .move p => [p.base]
  | .const => []

/-- `rvalue_locals` (`clippy_utils/src/mir/possible_borrower.rs:149-166`). -/
def rvLocals : Rvalue → List Local
  | .use o => opLocal o
  | .cast o => opLocal o
  | .ops os => os.flatMap opLocal
  | _ => []

/-- The variables that a call may store references in
(`clippy_utils/src/mir/possible_borrower.rs:117-125`). -/
def callTargets (T : Types) (orig : Local → Option (List Local)) (args : List Operand) (d : Place) :
    List Local :=
  ((args.flatMap opLocal).filter T.mutRef).flatMap (fun r => (orig r).getD []) ++
    (if T.region d.base then [d.base] else [])

/-- `PossibleBorrowerVisitor` (`clippy_utils/src/mir/possible_borrower.rs:66-136`). -/
def pairs (T : Types) (orig : Local → Option (List Local)) : Instr → Rel
  | .assign d _ (.ref _ p) => [(p.base, d.base)]
  | .assign d _ (.derefCopy p) => [(p.base, d.base)]
  | .assign d g v =>
    if g then ((rvLocals v).filter (· != d.base)).map fun x => (x, d.base) else []
  | .call args d =>
    let fixed := (args.flatMap opLocal).filter fun x => !T.mutRef x
    let changing := (args.flatMap opLocal).filter T.mutRef
    (callTargets T orig args d).flatMap fun y =>
      fixed.map (fun x => (x, y)) ++ changing.map fun x => (x, y)
  | .other => []

/-- `PossibleBorrowerMap::new` (`clippy_utils/src/mir/possible_borrower.rs:177-191`, `39-63`). -/
def borrowers (T : Types) (n : Nat) (body : List Instr) : Local → Option (List Local) :=
  row T n (body.flatMap (pairs T (origins T n body)))

/-- `bounded_borrowers` (`clippy_utils/src/mir/possible_borrower.rs:198-233`), with the locals that may
have storage. -/
def bounded (map : Local → Option (List Local)) (live : Local → Bool) (below above : List Local)
    (borrowed : Local) : Bool :=
  match map borrowed with
  | none => false
  | some s =>
    let alive := s.filter live
    if !below.all alive.contains then false else (alive.filter fun b => !above.contains b).isEmpty

/-- `only_borrowers` (`clippy_utils/src/mir/possible_borrower.rs:193-196`). -/
def only (map : Local → Option (List Local)) (live : Local → Bool) (bs : List Local) (borrowed : Local) :
    Bool :=
  bounded map live bs bs borrowed

end Verif.Borrow.Model
