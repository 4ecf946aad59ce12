import Verif.Ctrl.Spec

/-!
# Specification: loops that never loop
-/

namespace Verif.Ctrl
variable {S : Sem}

/-- The loop is at most once in its body: the body neither comes to its end nor continues the
loop. -/
def Once (t : Id) (body : M S S.V) : Prop :=
  ∀ w, (∀ v w', body w ≠ (.ok v, w')) ∧ ∀ w', body w ≠ (.error (.cont t), w')

/-- One turn of a loop. -/
def turn (k : Nat) : Expr → Env S → S.V → M S S.V
  | .lp _ _ b, ρ, _ => evalB k b ρ
  | .whl _ t c b, ρ, _ => (evalC k c ρ).bind fun r =>
      match r with
      | some ρ' => evalB k b ρ'
      | none => M.throw (.brk t S.unit)
  | .forE _ _ p xs _ b, ρ, x => (bindPat p xs x ρ).bind fun ρ' => evalB k b ρ'
  | _, _, _ => M.throw .abort

/-- The number of a loop. -/
def Expr.loopId : Expr → Id
  | .lp _ t _ => t
  | .whl _ t _ _ => t
  | .forE _ t _ _ _ _ => t
  | _ => 0

mutual

/-- The targets of all `continue` (`true`) and `break` (`false`) in an expression. -/
def exitsE : Expr → List (Bool × Id)
  | .var _ => []
  | .prim _ _ as => exitsL as
  | .assign _ l r => exitsE l ++ exitsE r
  | .lzy _ a b => exitsE a ++ exitsE b
  | .ite c t e => exitsC c ++ exitsE t ++ exitsE e
  | .ifn c t => exitsC c ++ exitsE t
  | .mtch e arms => exitsE e ++ exitsA arms
  | .block _ b => exitsS b
  | .lp _ _ b => exitsS b
  | .whl _ _ c b => exitsC c ++ exitsS b
  | .forE _ _ _ _ it b => exitsE it ++ exitsS b
  | .cont _ t => [(true, t)]
  | .brk _ t e => (false, t) :: exitsL e
  | .ret e => exitsL e

def exitsC : Cond → List (Bool × Id)
  | .test e => exitsE e
  | .letP _ _ e => exitsE e
  | .nextP _ _ e => exitsE e
  | .and a b => exitsC a ++ exitsC b

def exitsL : Exprs → List (Bool × Id)
  | .nil => []
  | .cons e es => exitsE e ++ exitsL es

def exitsA : Arms → List (Bool × Id)
  | .nil => []
  | .arm _ _ body rest => exitsE body ++ exitsA rest
  | .armIf _ _ g body rest => exitsC g ++ exitsE body ++ exitsA rest

def exitsS : Stmts → List (Bool × Id)
  | .done => []
  | .tail e => exitsE e
  | .semi e r => exitsE e ++ exitsS r
  | .expr e r => exitsE e ++ exitsS r
  | .letS _ _ e r => exitsE e ++ exitsS r
  | .letElse _ _ e els r => exitsE e ++ exitsS els ++ exitsS r
  | .item _ _ r => exitsS r

end

mutual

/-- The targets of the jumps in places that run only sometimes or early: the right side of `&&`
and `||`, later parts of a chain of conditions, guards, and the right side of an assignment to
something other than a variable. -/
def hiddenE : Expr → List (Bool × Id)
  | .var _ => []
  | .prim _ _ as => hiddenL as
  | .assign _ (.var _) r => hiddenE r
  | .assign _ l r => hiddenE l ++ exitsE r
  | .lzy _ a b => hiddenE a ++ exitsE b
  | .ite c t e => hiddenC c ++ hiddenE t ++ hiddenE e
  | .ifn c t => hiddenC c ++ hiddenE t
  | .mtch e arms => hiddenE e ++ hiddenA arms
  | .block _ b => hiddenS b
  | .lp _ _ b => hiddenS b
  | .whl _ _ c b => hiddenC c ++ hiddenS b
  | .forE _ _ _ _ it b => hiddenE it ++ hiddenS b
  | .cont _ _ => []
  | .brk _ _ e => hiddenL e
  | .ret e => hiddenL e

def hiddenC : Cond → List (Bool × Id)
  | .test e => hiddenE e
  | .letP _ _ e => hiddenE e
  | .nextP _ _ e => hiddenE e
  | .and a b => hiddenC a ++ exitsC b

def hiddenL : Exprs → List (Bool × Id)
  | .nil => []
  | .cons e es => hiddenE e ++ hiddenL es

def hiddenA : Arms → List (Bool × Id)
  | .nil => []
  | .arm _ _ body rest => hiddenE body ++ hiddenA rest
  | .armIf _ _ g body rest => exitsC g ++ hiddenE body ++ hiddenA rest

def hiddenS : Stmts → List (Bool × Id)
  | .done => []
  | .tail e => hiddenE e
  | .semi e r => hiddenE e ++ hiddenS r
  | .expr e r => hiddenE e ++ hiddenS r
  | .letS _ _ e r => hiddenE e ++ hiddenS r
  | .letElse _ _ e els r => hiddenE e ++ hiddenS els ++ hiddenS r
  | .item _ _ r => hiddenS r

end

/-- What the type checker promises: an expression of type `!` has no value. -/
def NeverSound (S : Sem) (never : Expr → Bool) : Prop :=
  ∀ e, never e = true → ∀ (k : Nat) (ρ : Env S) w v w', eval k e ρ w ≠ (.ok v, w')

end Verif.Ctrl
