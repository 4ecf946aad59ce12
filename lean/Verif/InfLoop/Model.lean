import Verif.InfLoop.Syntax

/-!
# Model: `infinite_loop`

`/repo/clippy_lints/src/loops/infinite_loop.rs`.  Not modelled: coroutines (`yield`).
-/

namespace Verif.InfLoop

/-- What the compiler says, and where the loop is. -/
structure Facts where
  /-- The operation is a call of a function that returns `!`. -/
  neverCall : Nat → Bool
  /-- The lint is not allowed, there is a function around the loop that does not return `!`, and no
  asynchronous block or macro. -/
  place : Bool

/-- `inner_labels.push`, `/repo/clippy_lints/src/loops/infinite_loop.rs:183-185`. -/
def pushLabel : Option Label → List Label → List Label
  | some l, ls => l :: ls
  | none, ls => ls

/-- `ExprKind::Break`, `/repo/clippy_lints/src/loops/infinite_loop.rs:166-173`: `self` is the label of the loop. -/
def breakEnds (self : Option Label) (depth : Nat) (l : Option Label) : Bool :=
  depth == 0 || (l.isSome && l == self)

/-- `ExprKind::Continue`, `/repo/clippy_lints/src/loops/infinite_loop.rs:174-180`. -/
def contEnds (inner : List Label) : Option Label → Bool
  | some l => !inner.contains l
  | none => false

mutual
/-- `visit_expr`: does it set `is_finite`?  `/repo/clippy_lints/src/loops/infinite_loop.rs:164-205`. -/
def fin (fa : Facts) (self : Option Label) (depth : Nat) (inner : List Label) : Ex → Bool
  | .brk l => breakEnds self depth l
  | .brkVal l _ => breakEnds self depth l
  | .cont l => contEnds inner l
  | .ret => true
  | .retVal _ => true
  | .loop l b => finBlock fa self (depth + 1) (pushLabel l inner) b
  | .op n args => fa.neverCall n || finAll fa self depth inner args
  | .become e => fin fa self depth inner e
  | .ifThen c t => fin fa self depth inner c || fin fa self depth inner t
  | .ifElse c t e => fin fa self depth inner c || fin fa self depth inner t || fin fa self depth inner e
  | .mtch s as => fin fa self depth inner s || finArms fa self depth inner as
  | .block _ b => finBlock fa self depth inner b
  | .lazy _ a b => fin fa self depth inner a || fin fa self depth inner b
/-- `walk_expr`. -/
def finAll (fa : Facts) (self : Option Label) (depth : Nat) (inner : List Label) : Exs → Bool
  | .nil => false
  | .cons e es => fin fa self depth inner e || finAll fa self depth inner es
/-- The arms. -/
def finArms (fa : Facts) (self : Option Label) (depth : Nat) (inner : List Label) : Arms → Bool
  | .nil => false
  | .arm _ b as => fin fa self depth inner b || finArms fa self depth inner as
  | .guarded _ g b as =>
    fin fa self depth inner g || fin fa self depth inner b || finArms fa self depth inner as
/-- A block. -/
def finBlock (fa : Facts) (self : Option Label) (depth : Nat) (inner : List Label) : Stmts → Bool
  | .nil => false
  | .last e => fin fa self depth inner e
  | .expr e s => fin fa self depth inner e || finBlock fa self depth inner s
  | .let_ _ e s => fin fa self depth inner e || finBlock fa self depth inner s
  | .letElse _ e els s =>
    fin fa self depth inner e || finBlock fa self depth inner els || finBlock fa self depth inner s
end

/-- `LoopVisitor::new`, `/repo/clippy_lints/src/loops/infinite_loop.rs:152-160`, and `check`,
`/repo/clippy_lints/src/loops/infinite_loop.rs:15-65`: is the loop reported? -/
def check (fa : Facts) (l : Option Label) (b : Stmts) : Bool :=
  fa.place && !finBlock fa l 0 (pushLabel l []) b

end Verif.InfLoop
