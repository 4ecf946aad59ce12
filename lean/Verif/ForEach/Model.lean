import Verif.ForEach.Spec

/-!
# Model: needless_for_each.rs
-/

namespace Verif.ForEach

/-- `RetCollector` — clippy_lints/src/needless_for_each.rs:186-191: how many `return`s there are (the spans), and the flag. -/
structure Rets where
  spans : Nat
  inLoop : Bool
  deriving DecidableEq, Repr

/-- `RetCollector::visit_expr` — clippy_lints/src/needless_for_each.rs:193-216. Bodies of other closures are not visited. -/
def visit : Nat → Stm → Rets → Rets
  | d, .ret e, r => visit d e ⟨r.spans + 1, r.inLoop || decide (0 < d)⟩
  | d, .loop _ b, r => visit (d + 1) b r
  | d, .seq a b, r => visit d b (visit d a r)
  | d, .cond _ a b, r => visit d b (visit d a r)
  | _, _, r => r

/-- Replacing the spans of the `return`s by `continue` — clippy_lints/src/needless_for_each.rs:115-122. -/
def replace : Stm → Stm
  | .ret _ => .cont
  | .loop f b => .loop f (replace b)
  | .seq a b => .seq (replace a) (replace b)
  | .cond c a b => .cond c (replace a) (replace b)
  | s => s

/-- The kinds of the receiver of the method before `for_each` — clippy_lints/src/needless_for_each.rs:76-79. -/
inductive Recv | array | call | path | method | field
  deriving DecidableEq, Repr

/-- The call of `for_each` — clippy_lints/src/needless_for_each.rs:71-91, 96-99: the receiver, whether its type has an iter method of the standard
library, whether the body is an unsafe block, whether the type of the parameter is written, and whether it is a `move` closure. -/
structure Call where
  recv : Recv
  std : Bool
  isUnsafe : Bool
  typed : Bool
  move : Bool
  body : Stm
  deriving DecidableEq, Repr

/-- A suggestion — clippy_lints/src/needless_for_each.rs:112-158: the body of the loop, and whether it may be applied by a machine. -/
structure Sugg where
  body : Stm
  machine : Bool
  deriving DecidableEq, Repr

/-- `matches!(iter_recv.kind, …)` — clippy_lints/src/needless_for_each.rs:76-79. -/
def shortChain : Recv → Bool
  | .array => true
  | .call => true
  | .path => true
  | _ => false

/-- `check_expr` — clippy_lints/src/needless_for_each.rs:71-160. The parameter without a type is `TyKind::Infer`. -/
def check (c : Call) : Option Sugg :=
  if shortChain c.recv && c.std && !c.isUnsafe then
    let r := visit 0 c.body ⟨0, false⟩
    if r.inLoop then none
    else if r.spans = 0 then some ⟨c.body, c.typed⟩
    else some ⟨replace c.body, false⟩
  else none

end Verif.ForEach
