import Verif.Fold.Syntax

/-!
# Specification: what the calls do

Values are numbers below references; `false` is 0 and `true` is 1.  A call is written to a log, and its value
may depend on the log.  `none` stands for code that panics or does not compile.
-/

namespace Verif.Fold

structure Val where
  refs : List Mut
  n : Nat
  deriving DecidableEq, Repr

structure St where
  env : Name → Val
  log : List Nat

def St.set (σ : St) (x : Name) (v : Val) : St :=
  { σ with env := fun y => if y = x then v else σ.env y }

def St.say (σ : St) (w : List Nat) : St := { σ with log := σ.log ++ w }

/-- The functions that are called, and the largest number. -/
structure World where
  f : List Nat → Nat → Nat
  max : Nat

abbrev Res := Option (Val × St)

def num (n : Nat) : Val := ⟨[], n⟩

def World.checked (w : World) (n : Nat) : Option Val := if n ≤ w.max then some (num n) else none

/-- Arithmetic works with a number or a shared reference. -/
def plain (v : Val) : Bool := v.refs == [] || v.refs == [.shared]

def Val.isBool (v : Val) : Bool := v == num 0 || v == num 1

/-- An operator that always evaluates both operands. -/
def World.strict (w : World) (o : Op) (a b : Val) : Option Val :=
  match o with
  | .add => if plain a && plain b then w.checked (a.n + b.n) else none
  | .mul => if plain a && plain b then w.checked (a.n * b.n) else none
  | .gt => if a.refs = b.refs then some (num (if a.n > b.n then 1 else 0)) else none
  | .or => if a.isBool && b.isBool then some (num (if a.n = 1 then 1 else b.n)) else none
  | .and => if a.isBool && b.isBool then some (num (if a.n = 1 then b.n else 0)) else none

/-- The value of the first operand alone settles `||` and `&&`. -/
def settles (o : Op) (a : Val) : Bool :=
  match o with
  | .or => a == num 1
  | .and => a == num 0
  | _ => false

def eval (w : World) : Expr → St → Res
  | .bool b, σ => some (num (if b then 1 else 0), σ)
  | .num n, σ => some (num n, σ)
  | .var x, σ => some (σ.env x, σ)
  | .short x, σ => some (σ.env x, σ)
  | .broken, _ => none
  | .deref e, σ => (eval w e σ).bind fun (v, τ) =>
    match v.refs with
    | [] => none
    | _ :: r => some (⟨r, v.n⟩, τ)
  | .call e, σ => (eval w e σ).bind fun (v, τ) => some (num (w.f τ.log v.n), τ.say [v.n])
  | .bin o a b, σ => (eval w a σ).bind fun (v, τ) =>
    if settles o v then some (v, τ) else
    (eval w b τ).bind fun (u, υ) => (w.strict o v u).map (·, υ)
  | .set x e, σ => (eval w e σ).bind fun (v, τ) => some (num 0, τ.set x v)
  | .letIn x a b, σ => (eval w a σ).bind fun (v, τ) =>
    (eval w b (τ.set x v)).map fun (u, υ) => (u, υ.set x (τ.env x))
  | .block e, σ => eval w e σ

/-- What is below the references of a pattern. -/
def peel : List Mut → List Mut → Option (List Mut)
  | [], rs => some rs
  | p :: ps, r :: rs => if p = r then peel ps rs else none
  | _ :: _, [] => none

def bindName (n : Option Name) (v : Val) (σ : St) : St :=
  match n with
  | some x => σ.set x v
  | none => σ

/-- The variable has its old value again. -/
def unbind (n : Option Name) (old σ : St) : St :=
  match n with
  | some x => σ.set x (old.env x)
  | none => σ

/-- The variables of a pattern. -/
def Pat.bind (p : Pat) (v : Val) (σ : St) : Option St :=
  (peel p.refs v.refs).map fun r => bindName p.name ⟨r, v.n⟩ σ

/-- A call of a closure with one parameter. -/
def call1 (w : World) (p : Pat) (body : Expr) (v : Val) (σ : St) : Res :=
  (p.bind v σ).bind fun τ => (eval w body τ).map fun (u, υ) => (u, unbind p.name σ υ)

/-- A call of a closure with two parameters. -/
def call2 (w : World) (p q : Pat) (body : Expr) (v u : Val) (σ : St) : Res :=
  (p.bind v σ).bind fun τ => (q.bind u τ).bind fun υ =>
    (eval w body υ).map fun (r, ρ) => (r, unbind p.name σ (unbind q.name τ ρ))

def Fun.app (w : World) : Fun → Val → Val → St → Res
  | .closure p q body, v, u, σ => call2 w p q body v u σ
  | .method o, v, u, σ => (w.strict o v u).map (·, σ)
  | .other, _, _, _ => none

/-- An iterator: what it writes to the log before each item, and at its end. -/
structure Iter where
  items : List (List Nat × Val)
  fin : List Nat
  deriving DecidableEq, Repr

/-- `fold` -/
def foldItems (g : Val → Val → St → Res) : List (List Nat × Val) → Val → St → Res
  | [], acc, σ => some (acc, σ)
  | (l, v) :: rest, acc, σ => (g acc v (σ.say l)).bind fun (acc', τ) => foldItems g rest acc' τ

def Iter.fold (it : Iter) (g : Val → Val → St → Res) (init : Val) (σ : St) : Res :=
  (foldItems g it.items init σ).map fun (v, τ) => (v, τ.say it.fin)

/-- `any` with `stop` 1 and `all` with `stop` 0: the first item for which the closure gives `stop`. -/
def search (g : Val → St → Res) (stop : Nat) (fin : List Nat) : List (List Nat × Val) → St → Res
  | [], σ => some (num (1 - stop), σ.say fin)
  | (l, v) :: rest, σ => (g v (σ.say l)).bind fun (u, τ) =>
    if u.refs = [] then
      if u.n = stop then some (num stop, τ) else search g stop fin rest τ
    else none

/-- `sum` and `product` are folds. -/
def Iter.total (it : Iter) (w : World) (o : Op) (init : Nat) (σ : St) : Res :=
  it.fold (fun acc v τ => (w.strict o acc v).map (·, τ)) (num init) σ

/-- `map_or` with a default that was evaluated before. -/
def mapOr (g : Val → St → Res) (init : Val) (o : Option Val) (σ : St) : Res :=
  match o with
  | none => some (init, σ)
  | some v => g v σ

/-- The references that the methods of options add. -/
def Recv.refs : Recv → List Mut
  | .iter => [.shared]
  | .iterMut => [.mutable]
  | .intoIter => []
  | .other => []

def Adapter.refs : Adapter → List Mut
  | .asRef => [.shared]
  | .asMut => [.mutable]
  | .none => []

def addRefs (r : List Mut) (v : Val) : Val := ⟨r ++ v.refs, v.n⟩

/-- The iterator of an option. -/
def ofOption (r : List Mut) (o : Option Val) : Iter := ⟨(o.map (fun v => ([], addRefs r v))).toList, []⟩

/-- The old call. -/
def Call.run (w : World) (c : Call) (it : Iter) (σ : St) : Res :=
  (eval w c.init σ).bind fun (v, τ) => it.fold (c.f.app w) v τ

/-- The new call with an iterator. -/
def Sugg.run (w : World) (it : Iter) (σ : St) : Sugg → Res
  | .any x b => search (call1 w ⟨[], false, some x⟩ b) 1 it.fin it.items σ
  | .all x b => search (call1 w ⟨[], false, some x⟩ b) 0 it.fin it.items σ
  | .sum => it.total w .add 0 σ
  | .product => it.total w .mul 1 σ
  | .mapOr .. => none

/-- The new call with an option. -/
def Sugg.runOption (w : World) (o : Option Val) (σ : St) : Sugg → Res
  | .mapOr ad init p b =>
    (eval w init σ).bind fun (v, τ) => Fold.mapOr (call1 w p b) v (o.map (addRefs ad.refs)) τ
  | _ => none

/-! ### Names -/

/-- All the names in an expression. -/
def names : Expr → List Name
  | .bool _ | .num _ | .broken => []
  | .var x | .short x => [x]
  | .deref e | .call e | .block e => names e
  | .bin _ a b => names a ++ names b
  | .set x e => x :: names e
  | .letIn x a b => x :: (names a ++ names b)

/-- The names that are assigned to. -/
def sets : Expr → List Name
  | .bool _ | .num _ | .broken | .var _ | .short _ => []
  | .deref e | .call e | .block e => sets e
  | .bin _ a b => sets a ++ sets b
  | .set x e => x :: sets e
  | .letIn _ a b => sets a ++ sets b

/-- The names that are declared. -/
def lets : Expr → List Name
  | .bool _ | .num _ | .broken | .var _ | .short _ => []
  | .deref e | .call e | .block e | .set _ e => lets e
  | .bin _ a b => lets a ++ lets b
  | .letIn x a b => x :: (lets a ++ lets b)

/-- The names that are used as fields. -/
def shorts : Expr → List Name
  | .bool _ | .num _ | .broken | .var _ => []
  | .short x => [x]
  | .deref e | .call e | .block e | .set _ e => shorts e
  | .bin _ a b => shorts a ++ shorts b
  | .letIn _ a b => shorts a ++ shorts b

/-- Nothing is called or assigned to. -/
def quiet : Expr → Bool
  | .bool _ | .num _ | .broken | .var _ | .short _ => true
  | .deref e | .block e => quiet e
  | .bin _ a b | .letIn _ a b => quiet a && quiet b
  | .call _ | .set _ _ => false

/-- The iterator does not write to the log. -/
def Iter.quiet (it : Iter) : Bool := it.items.all (·.1.isEmpty) && it.fin.isEmpty

end Verif.Fold
