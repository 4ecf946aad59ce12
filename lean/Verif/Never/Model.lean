import Verif.Never.Syntax

/-!
# Model: `is_never_expr`

`/repo/clippy_utils/src/lib.rs:2997-3228`.  Only whether the result is `Some`: `in_final_expr`, `requires_semi` and
`break_targets_for_result_ty` choose between `Yes` and `No`, and are not modelled.
-/

namespace Verif.Never

/-- What the compiler says about types. -/
structure Facts where
  /-- The type of the operation is `!`. -/
  opNever : Nat → Bool
  /-- The type of the expression is `!`. -/
  never : Ex → Bool

/-- `BreakTarget`, `/repo/clippy_utils/src/lib.rs:3000-3003`, the newest first: a target, and whether it is unused. -/
abbrev Targets := List (Id × Bool)

/-- `V`, `/repo/clippy_utils/src/lib.rs:3005-3012`. -/
structure St where
  targets : Targets
  never : Bool
  deriving DecidableEq

/-- `push_break_target`, `/repo/clippy_utils/src/lib.rs:3015-3018`. -/
def push (l : Id) (st : St) : St := { st with targets := (l, true) :: st.targets }

/-- `break_targets.pop().unwrap().unused` and the rest. -/
def pop : Targets → Bool × Targets
  | [] => (true, [])
  | (_, u) :: ts => (u, ts)

/-- `find(|(_, target)| target.id == id)`, the oldest, and `target.unused &= self.is_never`,
`/repo/clippy_utils/src/lib.rs:3089-3096`. -/
def mark (l : Id) (never : Bool) : Targets → Targets
  | [] => []
  | (k, u) :: ts =>
    if ts.any fun t => t.1 == l then (k, u) :: mark l never ts
    else if k = l then (k, u && never) :: ts
    else (k, u) :: ts

/-- `ExprKind::Break`, `/repo/clippy_utils/src/lib.rs:3089-3101`. -/
def doBreak (l : Id) (st : St) : St := ⟨mark l st.never st.targets, true⟩

/-- After a loop, `/repo/clippy_utils/src/lib.rs:3152`. -/
def endLoop (st : St) : St := ⟨(pop st.targets).2, (pop st.targets).1⟩

/-- After a block, `/repo/clippy_utils/src/lib.rs:3158`. -/
def endBlock (st : St) : St := ⟨(pop st.targets).2, st.never && (pop st.targets).1⟩

mutual
/-- `visit_expr`, `/repo/clippy_utils/src/lib.rs:3022-3169`.  Where it does not run, the types of final expressions
are still looked at, which changes nothing of this state. -/
def visit (fa : Facts) (e : Ex) (st : St) : St :=
  if st.never && st.targets.isEmpty then st
  else match e with
    | .temps e => visit fa e st
    | .ret => { st with never := true }
    | .cont _ => { st with never := true }
    | .retVal e => { visit fa e st with never := true }
    | .brk l => doBreak l st
    | .brkVal l e => doBreak l (visit fa e st)
    | .ifThen c t =>
      if (visit fa c st).never then visit fa t (visit fa c st)
      else { visit fa t (visit fa c st) with never := false }
    | .ifElse c t e =>
      if (visit fa c st).never then visit fa e (visit fa t (visit fa c st))
      else
        { visit fa e { visit fa t (visit fa c st) with never := false } with
          never := (visit fa e { visit fa t (visit fa c st) with never := false }).never &&
            (visit fa t (visit fa c st)).never }
    | .mtch s as =>
      if (visit fa s st).never then visitArms fa as (visit fa s st)
      else visitEach fa as true (visit fa s st)
    | .loop l b => endLoop (visitBlock fa b (push l st))
    | .block (some l) b => endBlock (visitBlock fa b (push l st))
    | .block none b => visitBlock fa b st
    | .lazy _ a b => visit fa b (visit fa a st)
    | .op n args => { visitAll fa args st with never := (visitAll fa args st).never || fa.opNever n }
/-- `walk_expr`: the operands, in order. -/
def visitAll (fa : Facts) : Exs → St → St
  | .nil, st => st
  | .cons e es, st => visitAll fa es (visit fa e st)
/-- `visit_arm` for all arms, `/repo/clippy_utils/src/lib.rs:3127-3130` and `3193-3200`. -/
def visitArms (fa : Facts) : Arms → St → St
  | .nil, st => st
  | .arm _ b as, st => visitArms fa as (visit fa b st)
  | .guarded _ g b as, st => visitArms fa as (visit fa b (visit fa g st))
/-- The other loop over the arms, `/repo/clippy_utils/src/lib.rs:3131-3146`, with `is_never`. -/
def visitEach (fa : Facts) : Arms → Bool → St → St
  | .nil, never, st => { st with never := never }
  | .arm _ b as, never, st =>
    visitEach fa as (never && (visit fa b { st with never := false }).never)
      (visit fa b { st with never := false })
  | .guarded _ g b as, never, st =>
    visitEach fa as
      (never && (visit fa b { visit fa g { st with never := false } with never := false }).never)
      (visit fa b { visit fa g { st with never := false } with never := false })
/-- `visit_block` and `visit_local`, `/repo/clippy_utils/src/lib.rs:3171-3191`. -/
def visitBlock (fa : Facts) : Stmts → St → St
  | .nil, st => st
  | .last e, st => visit fa e st
  | .expr e s, st => visitBlock fa s (visit fa e st)
  | .let_ _ e s, st => visitBlock fa s (visit fa e st)
  | .letElse _ e els s, st =>
    visitBlock fa s { visitBlock fa els (visit fa e st) with never := (visit fa e st).never }
end

/-- A block without a final expression. -/
def noFinal : Ex → Bool
  | .block none b => !b.hasLast
  | _ => false

/-- `is_never_expr(cx, e).is_some()`, `/repo/clippy_utils/src/lib.rs:3203-3228`. -/
def isNever (fa : Facts) (e : Ex) : Bool :=
  if fa.never e then true
  else if noFinal e then false
  else (visit fa e ⟨[], false⟩).never

end Verif.Never
