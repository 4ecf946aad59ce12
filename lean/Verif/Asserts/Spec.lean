import Verif.Asserts.Model

/-!
# What the code does with a slice of some length
-/

namespace Verif.Asserts

inductive Out
  | ok | panic | leave
deriving DecidableEq, Repr

/-- The comparison of the length with the literal. -/
def Op.holds (op : Op) (litLeft : Bool) (n len : Nat) : Prop :=
  let (a, b) := if litLeft then (n, len) else (len, n)
  match op with
  | .lt => a < b
  | .le => a ≤ b
  | .gt => a > b
  | .ge => a ≥ b
  | .eq => a = b
  | .ne => a ≠ b

/-- The slice is long enough for the index. -/
def Idx.InBounds (len : Nat) : Idx → Prop
  | .lit k => k < len
  | .range _ false e => e ≤ len
  | .range _ true e => e < len

/-- The start isn't after the end. -/
def Idx.Ordered : Idx → Prop
  | .lit _ => True
  | .range s false e => s ≤ e
  | .range s true e => s ≤ e + 1

/-- The executions of code. -/
def runs (len : Nat) : P → Out → Prop
  | .skip, o => o = .ok
  | .idx i, o => (o = .ok ∧ i.InBounds len ∧ i.Ordered) ∨ (o = .panic ∧ ¬ (i.InBounds len ∧ i.Ordered))
  | .guard op l n pa els, o => (op.holds l n len ∧ runs len els o) ∨ (¬ op.holds l n len ∧ o = if pa then .panic else .leave)
  | .seq a b, o => (runs len a .ok ∧ runs len b o) ∨ (o ≠ .ok ∧ runs len a o)
  | .cond a b, o => runs len a o ∨ runs len b o

/-- The indices in code. -/
def P.indices : P → List Idx
  | .skip => []
  | .idx i => [i]
  | .guard _ _ _ _ els => els.indices
  | .seq a b | .cond a b => a.indices ++ b.indices

/-- Code without conditions: guards are assertions. -/
def P.Straight : P → Prop
  | .skip | .idx _ => True
  | .guard _ _ _ pa els => pa = true ∧ els = .skip
  | .seq a b => a.Straight ∧ b.Straight
  | .cond _ _ => False

/-- The suggested assertion. -/
def Report.Holds (len : Nat) : Report → Prop
  | .add h | .replaceGt h => len > h
  | .replaceEq k => len = k

/-- The slice is too short for the suggested assertion. -/
def Report.TooShort (len : Nat) : Report → Prop
  | .add h | .replaceGt h => len ≤ h
  | .replaceEq k => len < k

end Verif.Asserts
