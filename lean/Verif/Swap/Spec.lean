import Verif.Swap.Model

/-!
# What statements do

Values are trees; references are taken for what they refer to, since they are unique. `none` is a panic.
-/

namespace Verif.Swap

inductive Val
  | int (n : Nat)
  | node (vs : List Val)
deriving Repr

abbrev Store := Nat → Val

def upd (σ : Store) (x : Nat) (v : Val) : Store := fun y => if y = x then v else σ y

/-- A component. -/
def Val.child : Val → Nat → Option Val
  | .int _, _ => none
  | .node vs, i => vs[i]?

/-- The value at a path. -/
def Val.at : Val → List Nat → Option Val
  | v, [] => some v
  | v, i :: π => (v.child i).bind (·.at π)

/-- The value with another one at a path. -/
def Val.set : Val → List Nat → Val → Option Val
  | _, [], w => some w
  | .int _, _ :: _, _ => none
  | .node vs, i :: π, w => (vs[i]?).bind fun v => (v.set π w).map fun v' => .node (vs.set i v')

def Val.toInt : Val → Option Nat
  | .int n => some n
  | .node _ => none

/-- The value of an expression. -/
def read (σ : Store) : E → Option Val
  | .lit n => some (.int n)
  | .var x => some (σ x)
  | .field p i => (read σ p).bind (·.child i)
  | .index p e => (read σ p).bind fun v => (read σ e).bind fun w => w.toInt.bind v.child
  | .deref p | .cast p => read σ p
  | .add a b => (read σ a).bind fun v => (read σ b).bind fun w => v.toInt.bind fun m => w.toInt.map fun n => .int (m + n)

/-- The place an expression denotes: a variable and a path. -/
def place (σ : Store) : E → Option (Nat × List Nat)
  | .var x => some (x, [])
  | .field p i => (place σ p).map fun (x, π) => (x, π ++ [i])
  | .index p e => (place σ p).bind fun (x, π) => (read σ e).bind fun w => w.toInt.map fun i => (x, π ++ [i])
  | .deref p => place σ p
  | _ => none

/-- The value at a place. -/
def getPlace (σ : Store) (p : Nat × List Nat) : Option Val := (σ p.1).at p.2

/-- Set the value at a place. -/
def setPlace (σ : Store) (p : Nat × List Nat) (v : Val) : Option Store := ((σ p.1).set p.2 v).map (upd σ p.1)

/-- `l = v` -/
def write (σ : Store) (l : E) (v : Val) : Option Store := (place σ l).bind fun p => setPlace σ p v

/-- A statement: the store after it, and the values used outside. The right side of an assignment is evaluated first. -/
def exec (σ : Store) : Stmt → Option (Store × List Val)
  | .letS _ x e => (read σ e).map fun v => (upd σ x v, [])
  | .assign l r => (read σ r).bind fun v => (write σ l v).map (·, [])
  | .xor l r => (read σ r).bind fun v => (read σ l).bind fun w => v.toInt.bind fun m => w.toInt.bind fun n =>
      (write σ l (.int (n ^^^ m))).map (·, [])
  | .out _ e => (read σ e).map fun v => (σ, [v])

def run : Store → List Stmt → Option (Store × List Val)
  | σ, [] => some (σ, [])
  | σ, s :: ss => (exec σ s).bind fun (σ', o) => (run σ' ss).map fun (σ'', o') => (σ'', o ++ o')

/-- Exchange the values at two places. -/
def exchange (σ : Store) (p q : Nat × List Nat) : Option Store :=
  (getPlace σ p).bind fun v => (getPlace σ q).bind fun w => (setPlace σ p w).bind fun σ' => setPlace σ' q v

/-- What the suggestion does. -/
def Sugg.run (σ : Store) : Sugg → Option Store
  | .mem a b => (place σ a).bind fun p => (place σ b).bind fun q => exchange σ p q
  | .slice bind v i j =>
    (match bind with
      | none => some σ
      | some (x, e) => (read σ e).map (upd σ x)).bind fun σ =>
    (place σ v).bind fun (x, π) => ((read σ i).bind Val.toInt).bind fun m => ((read σ j).bind Val.toInt).bind fun n =>
      exchange σ (x, π ++ [m]) (x, π ++ [n])

/-- The rest of the block: the store after it, the values used, and the value of the block. -/
def runRest (σ : Store) (rest : List Stmt) (tail : Option E) : Option (Store × List Val × Option Val) :=
  (run σ rest).bind fun (σ', o) => match tail with
    | none => some (σ', o, none)
    | some e => (read σ' e).map fun v => (σ', o, some v)

/-- The block as it is. -/
def Block.before (b : Block) (σ : Store) : Option (Store × List Val × Option Val) :=
  (Swap.run σ [b.s1, b.s2, b.s3]).bind fun (σ', _) => runRest σ' b.rest b.tail

/-- The block with the suggestion instead of the three statements. -/
def Block.after (b : Block) (s : Sugg) (σ : Store) : Option (Store × List Val × Option Val) :=
  (s.run σ).bind fun σ' => runRest σ' b.rest b.tail

/-- The same, except for the value of a variable which ends with the block. -/
def SameBut (x : Nat) : Option (Store × List Val × Option Val) → Option (Store × List Val × Option Val) → Prop
  | none, none => True
  | some (σ, o, v), some (τ, o', v') => (∀ y, y ≠ x → σ y = τ y) ∧ o = o' ∧ v = v'
  | _, _ => False

/-! ### Conditions -/

/-- The variable of a place. -/
def E.root : E → Option Nat
  | .var x => some x
  | .field p _ | .index p _ | .deref p => p.root
  | _ => none

/-- A variable occurs in an expression. -/
def E.Occurs (x : Nat) : E → Prop
  | .lit _ => False
  | .var y => x = y
  | .field p _ | .deref p | .cast p => p.Occurs x
  | .index p e => p.Occurs x ∨ e.Occurs x
  | .add a b => a.Occurs x ∨ b.Occurs x

/-- The indices of a place don't depend on a variable. -/
def E.IndexFree (x : Nat) : E → Prop
  | .field p _ | .deref p => p.IndexFree x
  | .index p e => p.IndexFree x ∧ ¬ e.Occurs x
  | _ => True

/-- A variable occurs only directly or in sums. -/
def E.Direct (x : Nat) : E → Prop
  | .add a b => a.Direct x ∧ b.Direct x
  | .var _ => True
  | e => ¬ e.Occurs x

/-- A place without explicit dereferences. -/
def E.Plain : E → Prop
  | .var _ => True
  | .field p _ | .index p _ => p.Plain
  | _ => False

/-- Neither of two places is a part of the other, except if they are the same. -/
def Unnested (p q : Nat × List Nat) : Prop := p.1 = q.1 → ∀ π, π ≠ [] → p.2 ≠ q.2 ++ π ∧ q.2 ≠ p.2 ++ π

/-- A variable doesn't occur in the rest of a block. -/
def Stmt.Without (x : Nat) : Stmt → Prop
  | .letS _ _ e | .out _ e => ¬ e.Occurs x
  | .assign l r | .xor l r => ¬ l.Occurs x ∧ ¬ r.Occurs x

/-- Two places which can be borrowed at the same time: they are in different variables, or in different fields. -/
inductive Step | field (i : Nat) | any
deriving DecidableEq

def E.steps : E → List Step
  | .field p i => p.steps ++ [.field i]
  | .index p _ => p.steps ++ [.any]
  | .deref p => p.steps
  | _ => []

def Apart (a b : E) : Prop :=
  a.root ≠ b.root ∨ ∃ π i j s t, a.steps = π ++ .field i :: s ∧ b.steps = π ++ .field j :: t ∧ (∀ k ∈ π, k ≠ .any) ∧ i ≠ j

end Verif.Swap
