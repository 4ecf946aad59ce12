/-!
# Chains of comparisons: what is meant

Operands and blocks are numbers; operands with the same number are written the same.
-/

namespace Verif.CmpChain

/-- Operators. -/
inductive Op
  | lt | gt | eq
  | other (k : Nat)
deriving DecidableEq, Repr

/-- Conditions: a binary operation on two operands, or something else (also `let`). -/
inductive Cond
  | bin (op : Op) (l r : Nat)
  | other (k : Nat)
deriving DecidableEq, Repr

/-- `if c { t } else e`, `if c { t }`, and what is no `if`: a block, and something else. -/
inductive Ex
  | ite (c : Cond) (t : Nat) (e : Ex)
  | only (c : Cond) (t : Nat)
  | block (b : Nat)
  | other (k : Nat)
deriving DecidableEq, Repr

/-- What comparisons return, at every step of an execution, and other conditions. -/
structure Env where
  cmp : Nat → Nat → Nat → Ordering
  bin : Nat → Nat → Nat → Bool
  other : Nat → Bool

/-- The comparison of two operands the other way around is the opposite, and nothing changes from one step to the next. -/
structure Env.Lawful (v : Env) : Prop where
  swap : ∀ s a b, v.cmp s b a = (v.cmp s a b).swap
  pure : ∀ s, v.cmp s = v.cmp 0

/-- Does the condition hold at step `s`? -/
def Cond.holds (v : Env) (s : Nat) : Cond → Bool
  | .bin .lt l r => v.cmp s l r == .lt
  | .bin .gt l r => v.cmp s l r == .gt
  | .bin .eq l r => v.cmp s l r == .eq
  | .bin (.other k) l r => v.bin k l r
  | .other k => v.other k

/-- The block that is executed, if there is one; `s` is the first step. -/
def Ex.run (v : Env) (s : Nat) : Ex → Option Nat
  | .ite c t e => if c.holds v s then some t else e.run v (s + 1)
  | .only c t => if c.holds v s then some t else none
  | .block b => some b
  | .other _ => none

/-- The conditions of a chain. -/
inductive Conds : Ex → List Cond → Prop
  | ite {c t e cs} : Conds e cs → Conds (.ite c t e) (c :: cs)
  | only {c t} : Conds (.only c t) [c]
  | block {b} : Conds (.block b) []
  | other {k} : Conds (.other k) []

/-- The number of blocks of a chain. -/
def Ex.blocks : Ex → Nat
  | .ite _ _ e => e.blocks + 1
  | .only _ _ => 1
  | .block _ => 1
  | .other _ => 0

/-- The condition compares `l` and `r`, in this or the other order, by `<`, `>` or `==`. -/
def Compares (l r : Nat) (c : Cond) : Prop :=
  ∃ op, (op = .lt ∨ op = .gt ∨ op = .eq) ∧ (c = .bin op l r ∨ c = .bin op r l)

/-- The second condition is the first one again: the same operator, which is `==`, or has its operands in the same order. -/
def Again (c d : Cond) : Prop :=
  ∃ op a b a' b', c = .bin op a b ∧ d = .bin op a' b' ∧ (op = .eq ∨ ¬ (a = b' ∧ b = a'))

/-- The circumstances of an expression: code from a macro, an `else` branch, constant code; and which operands have a type that is totally
ordered. -/
structure Ctx where
  expanded : Bool
  isElse : Bool
  inConst : Bool
  ord : Nat → Bool

end Verif.CmpChain
