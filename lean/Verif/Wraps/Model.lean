import Verif.Wraps.Syntax

/-!
# Model: `find_all_ret_expressions`, `unnecessary_wraps` and `bind_instead_of_map`

Types are given: the variant that belongs to the type, and whether it contains `()`.
-/

namespace Verif.Wraps

/-- `contains_return` (clippy_utils/src/lib.rs:1116-1125); `?` contains one after its expansion. -/
def containsReturn : Expr → Bool
  | .unit | .num _ | .var _ | .none => false
  | .ret _ | .tri _ => true
  | .ctor _ e | .call e | .stop e | .block e | .labelled e | .brk _ e | .loop e | .mac e => containsReturn e
  | .seq a b | .letIn _ a b => containsReturn a || containsReturn b
  | .ite c a b => containsReturn c || containsReturn a || containsReturn b
  | .mtch s g a b => containsReturn s || containsReturn g || containsReturn a || containsReturn b

/-- `contains_try` (clippy_utils/src/visitors.rs:196-205). -/
def containsTry : Expr → Bool
  | .unit | .num _ | .var _ | .none => false
  | .tri _ => true
  | .ctor _ e | .call e | .stop e | .block e | .labelled e | .brk _ e | .loop e | .mac e | .ret e => containsTry e
  | .seq a b | .letIn _ a b => containsTry a || containsTry b
  | .ite c a b => containsTry c || containsTry a || containsTry b
  | .mtch s g a b => containsTry s || containsTry g || containsTry a || containsTry b

/-- The test for what is returned, with its replacement (clippy_lints/src/unnecessary_wraps.rs:122-142,
clippy_lints/src/methods/bind_instead_of_map.rs:118-130).  With `unit`, it is replaced by nothing. -/
def replace (t : Tag) (unit : Bool) : Expr → Option Expr
  | .ctor t' e => if t' == t && !containsReturn e then some (if unit then .unit else e) else Option.none
  | _ => Option.none

/-- `RetFinder` with the edits applied (clippy_utils/src/visitors.rs:252-297): `s` is `in_stmt`, and `none` means
that it failed. -/
def find (t : Tag) (unit : Bool) (s : Bool) : Expr → Option Expr
  | .unit => if s then some .unit else Option.none
  | .num n => if s then some (.num n) else Option.none
  | .var x => if s then some (.var x) else Option.none
  | .none => if s then some .none else Option.none
  | .ctor t' e => if s then (find t unit true e).map (.ctor t') else replace t unit (.ctor t' e)
  | .call e => if s then (find t unit true e).map .call else Option.none
  | .brk k e => if s then (find t unit true e).map (.brk k) else Option.none
  | .loop e => if s then (find t unit true e).map .loop else Option.none
  | .tri e => if s then (find t unit true e).map .tri else Option.none
  | .mac e => if s then (find t unit true e).map .mac else Option.none
  | .ret e => (find t unit false e).map .ret
  | .block e => (find t unit s e).map .block
  | .labelled e => (find t unit s e).map .labelled
  | .stop a => (find t unit true a).map .stop
  | .seq a b => (find t unit true a).bind fun a' => (find t unit s b).map (.seq a')
  | .letIn x a b => (find t unit true a).bind fun a' => (find t unit s b).map (.letIn x a')
  | .ite c a b =>
    (find t unit true c).bind fun c' => (find t unit s a).bind fun a' => (find t unit s b).map (.ite c' a')
  | .mtch e g a b =>
    (find t unit true e).bind fun e' => (if s then find t unit true g else some g).bind fun g' =>
      (find t unit s a).bind fun a' => (find t unit s b).map (.mtch e' g' a')

/-- The number of edits (`suggs`, clippy_lints/src/unnecessary_wraps.rs:121-137). -/
def edits (t : Tag) (s : Bool) : Expr → Nat
  | .unit | .num _ | .var _ | .none => 0
  | .ctor t' e => if s then edits t true e else if t' == t && !containsReturn e then 1 else 0
  | .call e | .brk _ e | .loop e | .tri e | .mac e => if s then edits t true e else 0
  | .ret e => edits t false e
  | .block e | .labelled e => edits t s e
  | .stop a => edits t true a
  | .seq a b | .letIn _ a b => edits t true a + edits t s b
  | .ite c a b => edits t true c + (edits t s a + edits t s b)
  | .mtch e g a b => edits t true e + ((if s then edits t true g else 0) + (edits t s a + edits t s b))

/-- `find_all_ret_expressions` with at least one edit (clippy_utils/src/visitors.rs:207-298,
clippy_lints/src/unnecessary_wraps.rs:144, clippy_lints/src/methods/bind_instead_of_map.rs:131-139). -/
def allReturns (t : Tag) (unit : Bool) (body : Expr) : Option Expr :=
  if containsTry body then Option.none
  else if edits t false body == 0 then Option.none else find t unit false body

/-- `unnecessary_wraps`: the new body (clippy_lints/src/unnecessary_wraps.rs:108-175).  The variant is `Some` or
`Ok`. -/
def wraps (t : Tag) (unit : Bool) (body : Expr) : Option Expr :=
  if t == .err then Option.none else allReturns t unit body

/-- `peel_blocks` (clippy_utils/src/lib.rs:1236-1250). -/
def peelBlocks : Expr → Expr
  | .block e => peelBlocks e
  | .labelled e => peelBlocks e
  | e => e

/-- `bind_instead_of_map` for a closure: the new body of the closure
(clippy_lints/src/methods/bind_instead_of_map.rs:86-153, 167-176).  A body that is the expansion of a macro is
treated as in the second case. -/
def binds (t : Tag) (body : Expr) : Option Expr :=
  match replace t false (peelBlocks body) with
  | some e => some e
  | Option.none => allReturns t false body

end Verif.Wraps
