import Verif.Pushes.Syntax

/-! Model of `clippy_lints/src/loops/same_item_push.rs`. Expressions from macros are not told apart. -/

namespace Verif.Pushes.Model

open Verif.Pushes

/-- `SameItemPushVisitor` (`clippy_lints/src/loops/same_item_push.rs:105-112`). -/
structure Visitor where
  nonDeterministic : Bool
  multiple : Bool
  vecPush : Option (Code × Code)
  used : List Nat

/-- `SameItemPushVisitor::new` (`clippy_lints/src/loops/same_item_push.rs:115-123`). -/
def Visitor.new : Visitor := ⟨false, false, none, []⟩

/-- `get_vec_push`, without the `;` (`clippy_lints/src/loops/same_item_push.rs:181-195`). -/
def vecPush : Code → Option (Code × Code)
  | .push r i => some (r, i)
  | _ => none

/-- The cases of a push in `visit_stmt` (`clippy_lints/src/loops/same_item_push.rs:168-175`). -/
def Visitor.pushed (V : Visitor) (p : Code × Code) : Visitor :=
  if V.vecPush.isNone then { V with vecPush := some p } else { V with multiple := true }

/-- `visit_expr`, `visit_block` and `visit_stmt` (`clippy_lints/src/loops/same_item_push.rs:139-176`), and the children that `walk_expr` goes
to: bodies of closures aren't among them. -/
def visit (V : Visitor) : Code → Visitor
  | .ite _ _ _ | .loop _ | .mat _ _ _ => { V with nonDeterministic := true }
  | .block b => visit V b
  | .path x => { V with used := x :: V.used }
  | .lit _ | .const _ | .closure _ | .nil => V
  | .op _ args | .jmp _ args => visit V args
  | .push r i => visit (visit V r) i
  | .cons e es => visit (visit V e) es
  | .stmt semi e rest =>
    match semi, vecPush e with
    | true, some p => visit (V.pushed p) rest
    | _, _ => visit (visit V e) rest
  | .bind _ _ rest => visit V rest
  | .tail _ | .done => V

/-- `should_lint` (`clippy_lints/src/loops/same_item_push.rs:125-135`). -/
def Visitor.shouldLint (V : Visitor) : Bool :=
  if !V.nonDeterministic && !V.multiple then
    match V.vecPush with
    | some (.path v, _) => !V.used.contains v
    | _ => false
  else false

/-- Which initialisers are allowed (`clippy_lints/src/loops/same_item_push.rs:80-90`). -/
def initOk : Code → Bool
  | .lit _ | .const _ => true
  | _ => false

/-- Which items are allowed (`clippy_lints/src/loops/same_item_push.rs:68-100`). -/
def itemOk (D : Decls) : Code → Bool
  | .path x =>
    if D.isMut x then false
    else
      match D.init x with
      | some i => initOk i
      | none => false
  | .const _ => true
  | .lit _ => true
  | _ => false

/-- `check` (`clippy_lints/src/loops/same_item_push.rs:17-102`): the vector and the item of the report. `wild` says that the pattern of the loop
is `_`, `clone` that the elements can be cloned. -/
def check (D : Decls) (wild clone : Bool) (body : Code) : Option (Code × Code) :=
  if !wild then none
  else
    let V := visit .new body
    match V.vecPush with
    | some (r, i) => if V.shouldLint && clone && itemOk D i then some (r, i) else none
    | none => none

end Verif.Pushes.Model
