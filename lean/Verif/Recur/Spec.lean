import Verif.Recur.Syntax

/-!
# Specification: what a recursive function does

The meaning of operators, constants and everything outside of the function is a parameter.  Variables
are changed by assignments only: those that are borrowed mutably live in the memory, which `ext`
stands for.  Destructors are left out.
-/

namespace Verif.Recur

/-- What can be seen from the outside. -/
inductive Act where
  /-- An operator of a type that is not primitive. -/
  | binOp (n : Nat)
  | unOp (n : Nat)
  | asgOp (n : Nat)
  /-- A field behind a dereference. -/
  | deref (n : Nat)
  | call (n : Nat)
  /-- An assignment to the memory. -/
  | store
  deriving DecidableEq

structure Sem (V : Type) where
  unit : V
  lit : Nat → V
  truth : V → Bool
  /-- Operators of primitive types; `none` is a panic. -/
  prim : Nat → V → V → Option V
  un : Nat → V → Option V
  addr : V → V
  cast : Nat → V → V
  get : Nat → V → V
  set : Nat → V → V → V
  /-- Everything else may depend on all that has happened. -/
  ext : Act → List (Act × List V) → List V → Option V

structure St (V : Type) where
  env : Nat → V
  log : List (Act × List V)

/-- How an evaluation ends. -/
inductive Out (V A : Type) where
  | ok (a : A)
  | brk
  | ret (v : V)
  | panic
  /-- It has not ended. -/
  | more
  deriving DecidableEq

section
variable {V A B : Type}

def seq (r : Out V A × St V) (k : A → St V → Out V B × St V) : Out V B × St V :=
  match r with
  | (.ok a, s) => k a s
  | (.brk, s) => (.brk, s)
  | (.ret v, s) => (.ret v, s)
  | (.panic, s) => (.panic, s)
  | (.more, s) => (.more, s)

def lift (o : Option V) (s : St V) : Out V V × St V :=
  match o with
  | some v => (.ok v, s)
  | none => (.panic, s)

def act (S : Sem V) (a : Act) (vs : List V) (s : St V) : Out V V × St V :=
  lift (S.ext a s.log vs) { s with log := s.log ++ [(a, vs)] }

def St.setVar (s : St V) (x : Nat) (v : V) : St V := { s with env := fun y => if y = x then v else s.env y }

/-- `x.f.g`: the variable and the fields, the last one first. -/
def root : Ex → Option (Nat × List Nat)
  | .var x => some (x, [])
  | .field false n a => (root a).map fun p => (p.1, n :: p.2)
  | _ => none

def Sem.getPath (S : Sem V) : List Nat → V → V
  | [], v => v
  | n :: p, v => S.get n (S.getPath p v)

def Sem.setPath (S : Sem V) : List Nat → V → V → V
  | [], _, w => w
  | n :: p, v, w => S.setPath p v (S.set n (S.getPath p v) w)

/-- A loop. -/
def iter (unit : V) (body : St V → Out V V × St V) : Nat → St V → Out V V × St V
  | 0, s => (.more, s)
  | n + 1, s =>
    match body s with
    | (.ok _, s') => iter unit body n s'
    | (.brk, s') => (.ok unit, s')
    | (.ret v, s') => (.ret v, s')
    | (.panic, s') => (.panic, s')
    | (.more, s') => (.more, s')

/-- The log of the callee with the variables of the caller. -/
def back (unit : V) (s : St V) (r : Out V V × List (Act × List V)) : Out V V × St V :=
  (match r.1 with
    | .ok v => .ok v
    | .ret v => .ok v
    | .brk => .ok unit
    | .panic => .panic
    | .more => .more, { s with log := r.2 })

section
variable (S : Sem V) (self : List V → List (Act × List V) → Out V V × List (Act × List V)) (bound : Nat)

/-- `l = v` -/
def store (l : Ex) (evalL : St V → Out V V × St V) (v : V) (s : St V) : Out V V × St V :=
  match root l with
  | some (x, p) => (.ok S.unit, s.setVar x (S.setPath p (s.env x) v))
  | none => seq (evalL s) fun w s => act S .store [w, v] s

/-- The value of the left side of `l op= v`. -/
def load (l : Ex) (evalL : St V → Out V V × St V) (s : St V) : Out V V × St V :=
  match root l with
  | some (x, p) => (.ok (S.getPath p (s.env x)), s)
  | none => evalL s

mutual

/-- The evaluation of an expression.  `self` is the function itself, `bound` the number of rounds a
loop is followed. -/
def eval : Ex → St V → Out V V × St V
  | .const c, s => (.ok (S.lit c), s)
  | .var x, s => (.ok (s.env x), s)
  | .bin op prim a b, s => seq (eval a s) fun x s => seq (eval b s) fun y s =>
      if prim then lift (S.prim op x y) s else act S (.binOp op) [x, y] s
  | .logic isAnd a b, s => seq (eval a s) fun x s => if S.truth x = isAnd then eval b s else (.ok x, s)
  | .un op prim a, s => seq (eval a s) fun x s =>
      if prim then lift (S.un op x) s else act S (.unOp op) [x] s
  | .addr a, s => seq (eval a s) fun x s => (.ok (S.addr x), s)
  | .cast n a, s => seq (eval a s) fun x s => (.ok (S.cast n x), s)
  | .field adj n a, s => seq (eval a s) fun x s =>
      if adj then act S (.deref n) [x] s else (.ok (S.get n x), s)
  | .call args, s => seq (evalArgs args s) fun vs s => back S.unit s (self vs s.log)
  | .other n args, s => seq (evalArgs args s) fun vs s => act S (.call n) vs s
  | .assign l r, s => seq (eval r s) fun v s => store S l (eval l) v s
  | .assignOp op prim l r, s => seq (eval r s) fun v s => seq (load S l (eval l) s) fun w s =>
      seq (if prim then lift (S.prim op w v) s else act S (.asgOp op) [w, v] s) fun z s =>
        store S l (eval l) z s
  | .ifElse c a b, s => seq (eval c s) fun x s => if S.truth x then eval a s else eval b s
  | .ifThen c a, s => seq (eval c s) fun x s =>
      if S.truth x then seq (eval a s) fun _ s => (.ok S.unit, s) else (.ok S.unit, s)
  | .matchOne x e body, s => seq (eval e s) fun v s => eval body (s.setVar x v)
  | .block ss tail, s => seq (evalStmts ss s) fun _ s => eval tail s
  | .loop body, s => iter S.unit (eval body) bound s
  | .brk, s => (.brk, s)
  | .ret e, s => seq (eval e s) fun v s => (.ret v, s)

def evalArgs : Exs → St V → Out V (List V) × St V
  | .nil, s => (.ok [], s)
  | .cons e es, s => seq (eval e s) fun v s => seq (evalArgs es s) fun vs s => (.ok (v :: vs), s)

def evalStmts : Stmts → St V → Out V Unit × St V
  | .nil, s => (.ok (), s)
  | .expr e ss, s => seq (eval e s) fun _ s => evalStmts ss s
  | .bind x e ss, s => seq (eval e s) fun v s => evalStmts ss (s.setVar x v)

end

end

/-- The function, followed through `n` calls and rounds: how it ends and what has been seen. -/
def run (S : Sem V) (f : Fn) : Nat → List V → List (Act × List V) → Out V V × List (Act × List V)
  | 0, _, log => (.more, log)
  | n + 1, args, log =>
    let r := eval S (run S f n) n f.body ⟨fun x => args.getD x S.unit, log⟩
    (r.1, r.2.log)

/-- The parameters in `F` do not matter: arguments that differ in them only give the same result and
the same effects. -/
def Irrelevant (S : Sem V) (f : Fn) (F : Nat → Bool) : Prop :=
  ∀ n log (as bs : List V), as.length = bs.length →
    (∀ i, F i = false → as[i]? = bs[i]?) → run S f n as log = run S f n bs log

end

/-! ### What the theorem leaves out -/

/-- The value of a variable in `F` may be part of the value. -/
def carries (F : Nat → Bool) : Ex → Bool
  | .var x => F x
  | .bin _ true a b => carries F a || carries F b
  | .logic _ a b => carries F a || carries F b
  | .un _ true a => carries F a
  | .addr a => carries F a
  | .cast _ a => carries F a
  | .field false _ a => carries F a
  | .matchOne _ _ body => carries F body
  | .block _ tail => carries F tail
  | _ => false

/-- Only values are combined, by operators that do not panic. -/
def pureEx (tot : Nat → Bool) : Ex → Bool
  | .const _ => true
  | .var _ => true
  | .bin op true a b => tot op && pureEx tot a && pureEx tot b
  | .logic _ a b => pureEx tot a && pureEx tot b
  | .un op true a => tot op && pureEx tot a
  | .addr a => pureEx tot a
  | .cast _ a => pureEx tot a
  | .field false _ a => pureEx tot a
  | _ => false

/-- These operators do not panic. -/
structure Total {V : Type} (S : Sem V) (tot : Nat → Bool) : Prop where
  bin : ∀ op, tot op = true → ∀ a b, S.prim op a b ≠ none
  un : ∀ op, tot op = true → ∀ a, S.un op a ≠ none

/-- What an assignment may have on its left side: a variable, a dereference or index, or a field of
such a place. -/
def isPlace : Ex → Bool
  | .var _ => true
  | .other _ _ => true
  | .field true _ _ => true
  | .field false _ a => isPlace a
  | _ => false

section
variable (F : Nat → Bool) (tot : Nat → Bool)

mutual

/-- Where a parameter in `F` takes part, operators do not panic, `&&` and `||` have no effects on
their right side, and `op=` is one of a primitive type. -/
def Tame : Ex → Prop
  | .const _ => True
  | .var _ => True
  | .bin op _ a b => (carries F a = true ∨ carries F b = true → tot op = true) ∧ Tame a ∧ Tame b
  | .logic _ a b => (carries F a = true → pureEx tot b = true) ∧ Tame a ∧ Tame b
  | .un op _ a => (carries F a = true → tot op = true) ∧ Tame a
  | .addr a => Tame a
  | .cast _ a => Tame a
  | .field _ _ a => Tame a
  | .call args => TameL args
  | .other _ args => TameL args
  | .assign l r => isPlace l = true ∧ Tame l ∧ Tame r
  | .assignOp op prim l r => isPlace l = true ∧
      (∀ x p, root l = some (x, p) → F x = true → prim = true ∧ tot op = true) ∧ Tame l ∧ Tame r
  | .ifElse c a b => Tame c ∧ Tame a ∧ Tame b
  | .ifThen c a => Tame c ∧ Tame a
  | .matchOne _ s body => Tame s ∧ Tame body
  | .block ss tail => TameS ss ∧ Tame tail
  | .loop body => Tame body
  | .brk => True
  | .ret e => Tame e

def TameL : Exs → Prop
  | .nil => True
  | .cons e es => Tame e ∧ TameL es

def TameS : Stmts → Prop
  | .nil => True
  | .expr e ss => Tame e ∧ TameS ss
  | .bind _ e ss => Tame e ∧ TameS ss

end

end

end Verif.Recur
