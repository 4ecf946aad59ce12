import Verif.Ctrl.Syntax

/-!
# What programs with control flow do

The meaning of the expressions, written without looking at what the lints do with them.
Everything that is not control flow is a parameter: the state, the values, what an operation
does, when a pattern matches and which variables it binds, what the next element of an iterator
is.  An operation may also fail to return, which stands for panics and for functions that run
forever.  Destructors of temporaries and variables are not modelled.
-/

namespace Verif.Ctrl

/-- What the operations mean. -/
structure Sem where
  W : Type
  V : Type
  unit : V
  truth : V → Bool
  /-- Operation, variables it mentions, operands. -/
  prim : Nat → List V → List V → W → Option V × W
  /-- The values of the variables of a pattern, if it matches. -/
  pat : Nat → V → Option (List V)
  /-- One step of an iterator. -/
  next : V → W → Option (Option V) × W
  /-- What a declared item is. -/
  item : Nat → V

/-- How an expression is left without a value. -/
inductive Exit (V : Type) where
  | cont (t : Id)
  | brk (t : Id) (v : V)
  | ret (v : V)
  /-- A panic, or a call that never returns. -/
  | abort
  /-- A loop ran as often as the bound allows. -/
  | fuel
  deriving DecidableEq

/-- Variables and their values. -/
abbrev Env (S : Sem) := Name → S.V

/-- Computations. -/
def M (S : Sem) (α : Type) := S.W → Except (Exit S.V) α × S.W

namespace M
variable {S : Sem} {α β : Type}

def pure (a : α) : M S α := fun w => (.ok a, w)

def bind (m : M S α) (f : α → M S β) : M S β := fun w =>
  match m w with
  | (.ok a, w') => f a w'
  | (.error x, w') => (.error x, w')

def throw (x : Exit S.V) : M S α := fun w => (.error x, w)

/-- An operation that may fail to return. -/
def run (g : S.W → Option α × S.W) : M S α := fun w =>
  match g w with
  | (some a, w') => (.ok a, w')
  | (none, w') => (.error .abort, w')

/-- `break` with the number `t` ends here. -/
def catchBrk (t : Id) (m : M S S.V) : M S S.V := fun w =>
  match m w with
  | (.error (.brk u v), w') => if u = t then (.ok v, w') else (.error (.brk u v), w')
  | r => r

/-- Repeat, at most `n` times: a finished body and `continue` go on, `break` ends. -/
def iter (t : Id) (m : M S S.V) : Nat → M S S.V
  | 0 => throw .fuel
  | n + 1 => fun w =>
    match m w with
    | (.ok _, w') => iter t m n w'
    | (.error (.cont u), w') => if u = t then iter t m n w' else (.error (.cont u), w')
    | (.error (.brk u v), w') => if u = t then (.ok v, w') else (.error (.brk u v), w')
    | (.error x, w') => (.error x, w')

end M

variable {S : Sem}

/-- New variables. -/
def bindVars : List Name → List S.V → Env S → Env S
  | x :: xs, v :: vs, ρ => bindVars xs vs (fun y => if y = x then v else ρ y)
  | _, _, ρ => ρ

/-- Items are known in the whole of their block. -/
def hoist : Stmts → Env S → Env S
  | .item x n r, ρ => hoist r (fun y => if y = x then S.item n else ρ y)
  | .semi _ r, ρ => hoist r ρ
  | .expr _ r, ρ => hoist r ρ
  | .letS _ _ _ r, ρ => hoist r ρ
  | .letElse _ _ _ _ r, ρ => hoist r ρ
  | .done, ρ => ρ
  | .tail _, ρ => ρ

/-- A pattern that always matches. -/
def bindPat (p : Nat) (xs : List Name) (v : S.V) (ρ : Env S) : M S (Env S) :=
  match S.pat p v with
  | some vs => M.pure (bindVars xs vs ρ)
  | none => M.throw .abort

mutual

/-- The meaning of an expression, when every loop runs at most `k` times. -/
def eval (k : Nat) : Expr → Env S → M S S.V
  | .var x, ρ => M.pure (ρ x)
  | .prim n us as, ρ => (evalL k as ρ).bind fun vs => M.run (S.prim n (us.map ρ) vs)
  | .assign n l r, ρ => (eval k r ρ).bind fun vr => (eval k l ρ).bind fun vl =>
      M.run (S.prim n [] [vl, vr])
  | .lzy isAnd a b, ρ => (eval k a ρ).bind fun v =>
      if S.truth v = isAnd then eval k b ρ else M.pure v
  | .ite c t e, ρ => (evalC k c ρ).bind fun r =>
      match r with
      | some ρ' => eval k t ρ'
      | none => eval k e ρ
  | .ifn c t, ρ => (evalC k c ρ).bind fun r =>
      match r with
      | some ρ' => (eval k t ρ').bind fun _ => M.pure S.unit
      | none => M.pure S.unit
  | .mtch e arms, ρ => (eval k e ρ).bind fun v => evalA k arms v ρ
  | .block none b, ρ => evalS k b (hoist b ρ)
  | .block (some (_, t)) b, ρ => M.catchBrk t (evalS k b (hoist b ρ))
  | .lp _ t b, ρ => M.iter t (evalS k b (hoist b ρ)) k
  | .whl _ t c b, ρ => M.iter t ((evalC k c ρ).bind fun r =>
      match r with
      | some ρ' => evalS k b (hoist b ρ')
      | none => M.throw (.brk t S.unit)) k
  | .forE _ t p xs it b, ρ => (eval k it ρ).bind fun v => M.iter t ((M.run (S.next v)).bind fun o =>
      match o with
      | some x => (bindPat p xs x ρ).bind fun ρ' => evalS k b (hoist b ρ')
      | none => M.throw (.brk t S.unit)) k
  | .cont _ t, _ => M.throw (.cont t)
  | .brk _ t e, ρ => (evalL k e ρ).bind fun vs => M.throw (.brk t (vs.getLast?.getD S.unit))
  | .ret e, ρ => (evalL k e ρ).bind fun vs => M.throw (.ret (vs.getLast?.getD S.unit))

/-- The meaning of a condition: the variables it binds, if it holds. -/
def evalC (k : Nat) : Cond → Env S → M S (Option (Env S))
  | .test e, ρ => (eval k e ρ).bind fun v => M.pure (if S.truth v then some ρ else none)
  | .letP p xs e, ρ => (eval k e ρ).bind fun v => M.pure ((S.pat p v).map fun vs => bindVars xs vs ρ)
  | .nextP p xs e, ρ => (eval k e ρ).bind fun v => (M.run (S.next v)).bind fun o =>
      match o with
      | some x => (bindPat p xs x ρ).bind fun ρ' => M.pure (some ρ')
      | none => M.pure none
  | .and a b, ρ => (evalC k a ρ).bind fun r =>
      match r with
      | some ρ' => evalC k b ρ'
      | none => M.pure none

/-- Operands from left to right. -/
def evalL (k : Nat) : Exprs → Env S → M S (List S.V)
  | .nil, _ => M.pure []
  | .cons e es, ρ => (eval k e ρ).bind fun v => (evalL k es ρ).bind fun vs => M.pure (v :: vs)

/-- The first arm that matches.  The compiler makes sure that there is one. -/
def evalA (k : Nat) : Arms → S.V → Env S → M S S.V
  | .nil, _, _ => M.throw .abort
  | .arm p xs body rest, v, ρ =>
    match S.pat p v with
    | some vs => eval k body (bindVars xs vs ρ)
    | none => evalA k rest v ρ
  | .armIf p xs g body rest, v, ρ =>
    match S.pat p v with
    | some vs => (evalC k g (bindVars xs vs ρ)).bind fun r =>
        match r with
        | some ρ' => eval k body ρ'
        | none => evalA k rest v ρ
    | none => evalA k rest v ρ

/-- Statements in order. -/
def evalS (k : Nat) : Stmts → Env S → M S S.V
  | .done, _ => M.pure S.unit
  | .tail e, ρ => eval k e ρ
  | .semi e r, ρ => (eval k e ρ).bind fun _ => evalS k r ρ
  | .expr e r, ρ => (eval k e ρ).bind fun _ => evalS k r ρ
  | .letS p xs e r, ρ => (eval k e ρ).bind fun v => (bindPat p xs v ρ).bind fun ρ' => evalS k r ρ'
  | .letElse p xs e els r, ρ => (eval k e ρ).bind fun v =>
      match S.pat p v with
      | some vs => evalS k r (bindVars xs vs ρ)
      | none => (evalS k els (hoist els ρ)).bind fun _ => M.throw .abort
  | .item _ _ r, ρ => evalS k r ρ

end

/-- The meaning of a block. -/
def evalB (k : Nat) (b : Stmts) (ρ : Env S) : M S S.V := evalS k b (hoist b ρ)

end Verif.Ctrl
