import Verif.WhileCond.Syntax

/-!
# Model: `while_immutable_condition`

`clippy_lints/src/loops/while_immutable_condition.rs`.  No closures in the condition or body; constants are
literals and operators on them.
-/

namespace Verif.WhileCond

/-- `ConstEvalCtxt::eval` succeeds (clippy_lints/src/loops/while_immutable_condition.rs:13-16), for conditions of
literals. -/
def isConst : Expr → Bool
  | .lit _ => true
  | .op _ a b => isConst a && isConst b
  | _ => false

/-- The variables, and whether the static variables are mutable, of a condition
(clippy_lints/src/loops/while_immutable_condition.rs:74-117). -/
structure Found where
  ids : List Name
  statics : List Bool
  deriving DecidableEq, Repr

/-- Both, unless a call was found (clippy_lints/src/loops/while_immutable_condition.rs:111-114). -/
def join : Option Found → Option Found → Option Found
  | some a, some b => some { ids := a.ids ++ b.ids, statics := a.statics ++ b.statics }
  | _, _ => none

/-- `VarCollectorVisitor` (clippy_lints/src/loops/while_immutable_condition.rs:74-117). -/
def collect : Expr → Option Found
  | .lit _ | .brk _ | .cont _ => some { ids := [], statics := [] }
  | .var x => some { ids := [x], statics := [] }
  | .stat m _ => some { ids := [], statics := [m] }
  | .call _ _ | .callMut _ _ => none
  | .deref e | .ret e | .loop e => collect e
  | .set x e => join (some { ids := [x], statics := [] }) (collect e)
  | .setStat m _ e => join (some { ids := [], statics := [m] }) (collect e)
  | .op _ a b | .overOp _ a b | .seq a b | .letIn _ a b | .setDeref a b => join (collect a) (collect b)
  | .ite c a b => join (collect c) (join (collect a) (collect b))

/-- The local variable at the base of a place (clippy_utils/src/usage.rs:53-56). -/
def base : Expr → List Name
  | .var x => [x]
  | .deref e => base e
  | _ => []

/-- The places that `MutVarsDelegate` sees (clippy_utils/src/usage.rs:51-81). -/
def mutated : Expr → List Name
  | .lit _ | .var _ | .stat _ _ | .brk _ | .cont _ => []
  | .callMut _ x => [x]
  | .set x e => x :: mutated e
  | .setDeref p e => base p ++ (mutated p ++ mutated e)
  | .call _ e | .ret e | .deref e | .setStat _ _ e | .loop e => mutated e
  | .op _ a b | .overOp _ a b | .seq a b | .letIn _ a b => mutated a ++ mutated b
  | .ite c a b => mutated c ++ (mutated a ++ mutated b)

/-- `mutated_variables` (clippy_utils/src/usage.rs:16-29). -/
def mutatedVariables (upvars : List Name) (e : Expr) : Option (List Name) :=
  if (mutated e).any upvars.contains then none else some (mutated e)

/-- `HasBreakOrReturnVisitor` (clippy_lints/src/loops/while_immutable_condition.rs:58-72). -/
def leaves : Expr → Bool
  | .brk _ | .ret _ => true
  | .lit _ | .var _ | .stat _ _ | .cont _ | .callMut _ _ => false
  | .call _ e | .deref e | .setStat _ _ e | .set _ e | .loop e => leaves e
  | .op _ a b | .overOp _ a b | .seq a b | .letIn _ a b | .setDeref a b => leaves a || leaves b
  | .ite c a b => leaves c || leaves a || leaves b

/-- `is_disjoint` (clippy_lints/src/loops/while_immutable_condition.rs:31). -/
def disjoint (a b : List Name) : Bool := a.all (!b.contains ·)

/-- The lint; the flag says whether there is a note about `break` and `return`
(clippy_lints/src/loops/while_immutable_condition.rs:12-56). -/
def check (l : Loop) : Option Bool :=
  if isConst l.cond then none
  else match collect l.cond, mutatedVariables l.upvars l.body, mutatedVariables l.upvars l.cond with
    | some f, some mb, some mc =>
      if disjoint f.ids mb && disjoint f.ids mc && !f.statics.any id then some (leaves l.body) else none
    | _, _, _ => none

end Verif.WhileCond
