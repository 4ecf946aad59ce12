import Verif.WhileCond.Syntax

/-!
# Specification: running a loop

`none` stands for a panic, code that does not compile, or a loop that does not end with the given number of
rounds.
-/

namespace Verif.WhileCond

structure St where
  env : Name → Val
  stat : Name → Val
  heap : Nat → Val
  log : List Val

def St.set (σ : St) (x : Name) (v : Val) : St :=
  { σ with env := fun y => if y = x then v else σ.env y }

/-- How an expression ends. -/
inductive Out where
  | val (v : Val)
  | brk (n : Nat)
  | cont (n : Nat)
  | ret (v : Val)
  deriving DecidableEq, Repr

abbrev Res := Option (Out × St)

/-- Functions may change the heap and static variables. -/
structure World where
  op : Nat → Val → Val → Option Val
  call : Nat → List Val → St → Option (Val × St)
  /-- what is written to the variable -/
  callMut : Nat → Val → St → Option (Val × Val × St)
  isMut : Name → Bool
  /-- Functions have no access to the variables of their caller, and static variables without `mut` are not
  changed. -/
  call_env : ∀ {f vs σ v τ}, call f vs σ = some (v, τ) → τ.env = σ.env
  call_stat : ∀ {f vs σ v τ s}, call f vs σ = some (v, τ) → isMut s = false → τ.stat s = σ.stat s
  callMut_env : ∀ {f u σ v v' τ}, callMut f u σ = some (v, v', τ) → τ.env = σ.env
  callMut_stat : ∀ {f u σ v v' τ s}, callMut f u σ = some (v, v', τ) → isMut s = false → τ.stat s = σ.stat s

/-- Go on with a value. -/
def andThen (r : Res) (k : Val → St → Res) : Res :=
  match r with
  | some (.val v, τ) => k v τ
  | r => r

/-- Rounds of a loop. -/
def iter (f : St → Res) : Nat → St → Res
  | 0, _ => none
  | n + 1, σ =>
    match f σ with
    | some (.val _, τ) => iter f n τ
    | some (.cont 0, τ) => iter f n τ
    | some (.cont (k + 1), τ) => some (.cont k, τ)
    | some (.brk 0, τ) => some (.val .unit, τ)
    | some (.brk (k + 1), τ) => some (.brk k, τ)
    | some (.ret v, τ) => some (.ret v, τ)
    | none => none

def setHeap (σ : St) : Val → Val → Res
  | .ptr a, v => some (.val .unit, { σ with heap := fun b => if b = a then v else σ.heap b })
  | _, _ => none

def readHeap (σ : St) : Val → Res
  | .ptr a => some (.val (σ.heap a), σ)
  | _ => none

def choose (v : Val) (a b : Res) : Res :=
  match v with
  | .bool true => a
  | .bool false => b
  | _ => none

def restore (x : Name) (v : Val) (r : Res) : Res := r.map fun (o, τ) => (o, τ.set x v)

/-- `n` bounds the rounds of each loop. -/
def eval (w : World) (n : Nat) : Expr → St → Res
  | .lit v, σ => some (.val v, σ)
  | .var x, σ => some (.val (σ.env x), σ)
  | .stat _ s, σ => some (.val (σ.stat s), σ)
  | .deref e, σ => andThen (eval w n e σ) fun v τ => readHeap τ v
  | .op f a b, σ =>
    andThen (eval w n a σ) fun u τ => andThen (eval w n b τ) fun v υ => (w.op f u v).map fun r => (.val r, υ)
  | .overOp f a b, σ =>
    andThen (eval w n a σ) fun u τ => andThen (eval w n b τ) fun v υ =>
      (w.call f [u, v] υ).map fun (r, φ) => (.val r, φ)
  | .call f e, σ => andThen (eval w n e σ) fun v τ => (w.call f [v] τ).map fun (r, φ) => (.val r, φ)
  | .callMut f x, σ => (w.callMut f (σ.env x) σ).map fun (r, v, τ) => (.val r, τ.set x v)
  | .set x e, σ => andThen (eval w n e σ) fun v τ => some (.val .unit, τ.set x v)
  | .setStat _ s e, σ => andThen (eval w n e σ) fun v τ =>
    some (.val .unit, { τ with stat := fun y => if y = s then v else τ.stat y })
  | .setDeref p e, σ => andThen (eval w n e σ) fun v τ => andThen (eval w n p τ) fun u υ => setHeap υ u v
  | .seq a b, σ => andThen (eval w n a σ) fun _ τ => eval w n b τ
  | .letIn x a b, σ => andThen (eval w n a σ) fun v τ => restore x (τ.env x) (eval w n b (τ.set x v))
  | .ite c a b, σ => andThen (eval w n c σ) fun v τ => choose v (eval w n a τ) (eval w n b τ)
  | .brk k, σ => some (.brk k, σ)
  | .cont k, σ => some (.cont k, σ)
  | .ret e, σ => andThen (eval w n e σ) fun v τ => some (.ret v, τ)
  | .loop e, σ => iter (eval w n e) n σ

/-- `while cond { body }` is `loop { if cond { body } else { break } }`. -/
def Loop.asWhile (l : Loop) : Expr := .loop (.ite l.cond l.body (.brk 0))

/-- `if cond { loop { body } }` -/
def Loop.asLoop (l : Loop) : Expr := .ite l.cond (.loop l.body) (.lit .unit)

/-- The condition is true. -/
def Loop.Enters (w : World) (n : Nat) (l : Loop) (σ : St) : Prop :=
  ∃ τ, eval w n l.cond σ = some (.val (.bool true), τ)

/-- No pointers are followed, and no operators of traits are called. -/
def direct : Expr → Bool
  | .lit _ | .var _ | .stat _ _ | .callMut _ _ | .brk _ | .cont _ => true
  | .deref _ | .overOp _ _ _ | .setDeref _ _ => false
  | .op _ a b | .seq a b | .letIn _ a b => direct a && direct b
  | .call _ e | .set _ e | .setStat _ _ e | .ret e | .loop e => direct e
  | .ite c a b => direct c && direct a && direct b

/-- Static variables have the right annotation, and only those with `mut` are assigned to. -/
def staticsOk (w : World) : Expr → Bool
  | .lit _ | .var _ | .callMut _ _ | .brk _ | .cont _ => true
  | .stat m s => m == w.isMut s
  | .setStat m s e => m && w.isMut s && staticsOk w e
  | .op _ a b | .overOp _ a b | .seq a b | .letIn _ a b | .setDeref a b => staticsOk w a && staticsOk w b
  | .call _ e | .set _ e | .ret e | .loop e | .deref e => staticsOk w e
  | .ite c a b => staticsOk w c && staticsOk w a && staticsOk w b

/-- The expression does not continue a loop outside of it (`d` loops are inside). -/
def staysIn (d : Nat) : Expr → Bool
  | .lit _ | .var _ | .callMut _ _ | .brk _ | .stat _ _ => true
  | .cont k => k ≤ d
  | .op _ a b | .overOp _ a b | .seq a b | .letIn _ a b | .setDeref a b => staysIn d a && staysIn d b
  | .call _ e | .set _ e | .ret e | .deref e | .setStat _ _ e => staysIn d e
  | .loop e => staysIn (d + 1) e
  | .ite c a b => staysIn d c && staysIn d a && staysIn d b

/-- A condition of literals and operators only, as in `while true`. -/
inductive Fixed : Expr → Prop
  | lit (v : Val) : Fixed (.lit v)
  | op {f : Nat} {a b : Expr} : Fixed a → Fixed b → Fixed (.op f a b)

end Verif.WhileCond
