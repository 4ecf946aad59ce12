/-!
# Questions about variants and their contents

Expressions run in a world that they may change.
-/

namespace Verif.VarAnd

/-- Options and results: the value, or the other variant with what it has (nothing for options). -/
inductive Variant (V E : Type)
  | good (v : V)
  | bad (e : E)
deriving DecidableEq, Repr

/-- Bodies of closures: an expression, a conditional early `return c` in a block before the rest, a negated body. -/
inductive Body
  | expr (k : Nat)
  | retIf (c r : Nat) (rest : Body)
  | not (b : Body)
deriving DecidableEq, Repr

/-- Functions given to methods: closures, paths, closures `|x| !path(x)`, and other expressions. -/
inductive Func
  | closure (b : Body)
  | path (k : Nat)
  | notPath (k : Nat)
  | other (k : Nat)
deriving DecidableEq, Repr

/-- What parts of programs do: expressions for variants, functions with boolean results. -/
structure Sem (W V E : Type) where
  recv : Nat → W → Variant V E × W
  fn : Nat → V → W → Bool × W

variable {W V E : Type}

/-- The outcome of a body: a value, or a return with a value. -/
inductive Out
  | val (b : Bool)
  | ret (b : Bool)
deriving DecidableEq, Repr

/-- A body runs. -/
def Body.run (M : Sem W V E) (v : V) : Body → W → Out × W
  | .expr k, w => (.val (M.fn k v w).1, (M.fn k v w).2)
  | .retIf c r rest, w =>
    if (M.fn c v w).1 then (.ret (M.fn r v (M.fn c v w).2).1, (M.fn r v (M.fn c v w).2).2) else rest.run M v (M.fn c v w).2
  | .not b, w =>
    match b.run M v w with
    | (.val x, w') => (.val (!x), w')
    | (.ret x, w') => (.ret x, w')

/-- A call of a function. -/
def Func.call (M : Sem W V E) (v : V) : Func → W → Bool × W
  | .closure b, w =>
    match b.run M v w with
    | (.val x, w') => (x, w')
    | (.ret x, w') => (x, w')
  | .path k, w => M.fn k v w
  | .notPath k, w => (!(M.fn k v w).1, (M.fn k v w).2)
  | .other k, w => M.fn k v w

/-- Options or results. -/
inductive Flavor
  | option | result
deriving DecidableEq, Repr

/-- Boolean expressions. The receivers are numbered expressions. -/
inductive Expr
  /-- `r.map(f) == Some(b)`, `!=`, `Ok(b)`; with `err` the other side is `Err(b)`. -/
  | mapCmp (fl : Flavor) (r : Nat) (f : Func) (ne err b : Bool)
  /-- `r.map(f).unwrap_or_default()`. -/
  | mapDefault (fl : Flavor) (r : Nat) (f : Func)
  /-- `r.is_none()`. -/
  | isNone (r : Nat)
  /-- `r.is_some_and(f)`, `r.is_ok_and(f)`. -/
  | isGoodAnd (fl : Flavor) (r : Nat) (f : Func)
  /-- `r.as_ref().is_some_and(f)` -/
  | refGoodAnd (r : Nat) (f : Func)
  /-- `r.is_none_or(f)`. -/
  | isNoneOr (r : Nat) (f : Func)
  /-- `r.as_ref().is_none_or(f)` -/
  | refNoneOr (r : Nat) (f : Func)
  /-- `r.filter(f).is_some()`, `r.filter(f).is_none()`. -/
  | filterIs (r : Nat) (f : Func) (isSome : Bool)
  /-- `r.ok().is_some_and(f)`. -/
  | okIsSomeAnd (r : Nat) (f : Func)
  | or (a b : Expr)
  | not (a : Expr)
deriving DecidableEq, Repr

/-- `x.map(f)`. -/
def mapV (M : Sem W V E) (f : Func) (x : Variant V E) (w : W) : Variant Bool E × W :=
  match x with
  | .good v => (.good (f.call M v w).1, (f.call M v w).2)
  | .bad e => (.bad e, w)

/-- `x.filter(f)`, as whether there is still a value. -/
def filterV (M : Sem W V E) (f : Func) (x : Variant V E) (w : W) : Bool × W :=
  match x with
  | .good v => f.call M v w
  | .bad _ => (false, w)

/-- `x.is_some_and(f)`, `x.is_none_or(f)`: what is the answer without a value? -/
def askV (M : Sem W V E) (f : Func) (without : Bool) (x : Variant V E) (w : W) : Bool × W :=
  match x with
  | .good v => f.call M v w
  | .bad _ => (without, w)

/-- An expression runs; `errIs e b` says that an error is the boolean `b`. -/
def Expr.run (M : Sem W V E) (errIs : E → Bool → Bool) : Expr → W → Bool × W
  | .mapCmp _ r f ne err b, w =>
    let p := M.recv r w
    let q := mapV M f p.1 p.2
    let eq := match q.1 with
      | .good x => !err && x == b
      | .bad e => err && errIs e b
    (eq != ne, q.2)
  | .mapDefault _ r f, w =>
    let p := M.recv r w
    let q := mapV M f p.1 p.2
    (match q.1 with | .good x => x | .bad _ => false, q.2)
  | .isNone r, w => (match (M.recv r w).1 with | .good _ => false | .bad _ => true, (M.recv r w).2)
  | .isGoodAnd _ r f, w | .refGoodAnd r f, w | .okIsSomeAnd r f, w => askV M f false (M.recv r w).1 (M.recv r w).2
  | .isNoneOr r f, w | .refNoneOr r f, w => askV M f true (M.recv r w).1 (M.recv r w).2
  | .filterIs r f isSome, w =>
    let q := filterV M f (M.recv r w).1 (M.recv r w).2
    (q.1 == isSome, q.2)
  | .or a b, w => if (a.run M errIs w).1 then (true, (a.run M errIs w).2) else b.run M errIs (a.run M errIs w).2
  | .not a, w => (!(a.run M errIs w).1, (a.run M errIs w).2)

end Verif.VarAnd
