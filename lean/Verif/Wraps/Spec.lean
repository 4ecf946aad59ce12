import Verif.Wraps.Syntax

/-!
# Specification: running functions

`none` stands for code that does not compile, and for loops that do not end with the given number of rounds.
-/

namespace Verif.Wraps

inductive Val where
  | unit
  | num (n : Nat)
  | none
  | wrap (t : Tag) (v : Val)
  deriving DecidableEq, Repr

structure St where
  env : Name → Val
  log : List Val

def St.set (σ : St) (x : Name) (v : Val) : St :=
  { σ with env := fun y => if y = x then v else σ.env y }

inductive Out where
  | val (v : Val)
  | brk (k : Nat) (v : Val)
  | ret (v : Val)
  deriving DecidableEq, Repr

abbrev Res := Option (Out × St)

/-- What a call returns may depend on the calls before. -/
abbrev World := List Val → Val → Val

def andThen (r : Res) (k : Val → St → Res) : Res :=
  match r with
  | .some (.val v, τ) => k v τ
  | r => r

/-- Rounds of a loop. -/
def iter (f : St → Res) : Nat → St → Res
  | 0, _ => .none
  | n + 1, σ =>
    match f σ with
    | .some (.val _, τ) => iter f n τ
    | .some (.brk 0 v, τ) => .some (.val v, τ)
    | .some (.brk (k + 1) v, τ) => .some (.brk k v, τ)
    | .some (.ret v, τ) => .some (.ret v, τ)
    | .none => .none

/-- A labelled block catches the innermost `break`. -/
def catchBreak : Res → Res
  | .some (.brk 0 v, τ) => .some (.val v, τ)
  | .some (.brk (k + 1) v, τ) => .some (.brk k v, τ)
  | r => r

def restore (x : Name) (v : Val) (r : Res) : Res := r.map fun (o, τ) => (o, τ.set x v)

/-- Zero is false. -/
def choose (v : Val) (a b : Res) : Res :=
  match v with
  | .num 0 => b
  | .num _ => a
  | _ => .none

/-- `?` -/
def tryVal (v : Val) (τ : St) : Res :=
  match v with
  | .wrap .some u => .some (.val u, τ)
  | .wrap .ok u => .some (.val u, τ)
  | .wrap .err u => .some (.ret (.wrap .err u), τ)
  | .none => .some (.ret .none, τ)
  | _ => .none

def eval (w : World) (n : Nat) : Expr → St → Res
  | .unit, σ => .some (.val .unit, σ)
  | .num k, σ => .some (.val (.num k), σ)
  | .var x, σ => .some (.val (σ.env x), σ)
  | .none, σ => .some (.val .none, σ)
  | .ctor t e, σ => andThen (eval w n e σ) fun v τ => .some (.val (.wrap t v), τ)
  | .call e, σ => andThen (eval w n e σ) fun v τ => .some (.val (w τ.log v), { τ with log := τ.log ++ [v] })
  | .ite c a b, σ => andThen (eval w n c σ) fun v τ => choose v (eval w n a τ) (eval w n b τ)
  | .mtch s g a b, σ => andThen (eval w n s σ) fun _ τ => andThen (eval w n g τ) fun v υ =>
    choose v (eval w n a υ) (eval w n b υ)
  | .seq a b, σ => andThen (eval w n a σ) fun _ τ => eval w n b τ
  | .stop a, σ => andThen (eval w n a σ) fun _ _ => .none
  | .letIn x a b, σ => andThen (eval w n a σ) fun v τ => restore x (τ.env x) (eval w n b (τ.set x v))
  | .block e, σ => eval w n e σ
  | .labelled e, σ => catchBreak (eval w n e σ)
  | .brk k e, σ => andThen (eval w n e σ) fun v τ => .some (.brk k v, τ)
  | .loop e, σ => iter (eval w n e) n σ
  | .ret e, σ => andThen (eval w n e σ) fun v τ => .some (.ret v, τ)
  | .tri e, σ => andThen (eval w n e σ) tryVal
  | .mac e, σ => eval w n e σ

/-- What the function with this body returns. -/
def result (w : World) (n : Nat) (body : Expr) (σ : St) : Option (Val × St) :=
  match eval w n body σ with
  | .some (.val v, τ) => .some (v, τ)
  | .some (.ret v, τ) => .some (v, τ)
  | _ => .none

/-- `v.and_then(|x| body)`, or `or_else` for `Err`. -/
def bind (w : World) (n : Nat) (t : Tag) (v : Val) (x : Name) (body : Expr) (σ : St) : Option (Val × St) :=
  match v with
  | .wrap t' u =>
    if t' = t then (result w n body (σ.set x u)).map fun (r, τ) => (r, τ.set x (σ.env x))
    else .some (v, σ)
  | v => .some (v, σ)

/-- `v.map(|x| body)`, or `map_err` for `Err`. -/
def mapped (w : World) (n : Nat) (t : Tag) (v : Val) (x : Name) (body : Expr) (σ : St) : Option (Val × St) :=
  match v with
  | .wrap t' u =>
    if t' = t then (result w n body (σ.set x u)).map fun (r, τ) => (.wrap t r, τ.set x (σ.env x))
    else .some (v, σ)
  | v => .some (v, σ)

/-- No `return` and no `?`. -/
def noRet : Expr → Bool
  | .unit | .num _ | .var _ | .none => true
  | .ret _ | .tri _ => false
  | .ctor _ e | .call e | .stop e | .block e | .labelled e | .brk _ e | .loop e | .mac e => noRet e
  | .seq a b | .letIn _ a b => noRet a && noRet b
  | .ite c a b => noRet c && noRet a && noRet b
  | .mtch s g a b => noRet s && noRet g && noRet a && noRet b

/-- What is returned does not come from a labelled block, and guards of a match whose value is returned do not
return.  `fin` says whether the value of the expression is that of the function. -/
def simple (fin : Bool) : Expr → Bool
  | .unit | .num _ | .var _ | .none => true
  | .ctor _ e | .call e | .stop e | .brk _ e | .loop e | .mac e | .tri e => simple false e
  | .ret e => simple true e
  | .block e => simple fin e
  | .labelled e => !fin && simple false e
  | .seq a b | .letIn _ a b => simple false a && simple fin b
  | .ite c a b => simple false c && simple fin a && simple fin b
  | .mtch s g a b => simple false s && simple false g && (!fin || noRet g) && simple fin a && simple fin b

/-- The only thing that is wrapped is `()`. -/
def unitsOnly (t : Tag) : Expr → Bool
  | .unit | .num _ | .var _ | .none => true
  | .ctor t' e => (t' != t || e == .unit) && unitsOnly t e
  | .call e | .stop e | .brk _ e | .loop e | .mac e | .tri e | .ret e | .block e | .labelled e => unitsOnly t e
  | .seq a b | .letIn _ a b => unitsOnly t a && unitsOnly t b
  | .ite c a b => unitsOnly t c && unitsOnly t a && unitsOnly t b
  | .mtch s g a b => unitsOnly t s && unitsOnly t g && unitsOnly t a && unitsOnly t b

/-- How many constructors are applied. -/
def ctors : Expr → Nat
  | .unit | .num _ | .var _ | .none => 0
  | .ctor _ e => ctors e + 1
  | .call e | .brk _ e | .loop e | .tri e | .mac e | .ret e | .block e | .labelled e | .stop e => ctors e
  | .seq a b | .letIn _ a b => ctors a + ctors b
  | .ite c a b => ctors c + ctors a + ctors b
  | .mtch s g a b => ctors s + ctors g + ctors a + ctors b

end Verif.Wraps
