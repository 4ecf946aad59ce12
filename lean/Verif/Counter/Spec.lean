import Verif.Counter.Model

/-!
# What programs do

All executions up to a depth, with the values read from the variable.
-/

namespace Verif.Counter

/-- How an execution ends: with a value, by a jump, or not within the depth. -/
inductive Out
  | normal | brk (l : Nat) | cont (l : Nat) | ret | halt
deriving DecidableEq, Repr

/-- A computation: the value of the variable before, how it ends, the value after, and the values read. -/
abbrev M := Nat → Out → Nat → List Nat → Prop

/-- One after the other. -/
def andThen (m m' : M) : M := fun v o v' t =>
  (∃ v1 t1 t2, m v .normal v1 t1 ∧ m' v1 o v' t2 ∧ t = t1 ++ t2) ∨ (o ≠ .normal ∧ m v o v' t)

/-- The executions of an expression. Initial values are given by `ρ`. Conditions may be true or false; whatever changes the variable may give it
any value; a closure may be called at once, or not at all. -/
def eval (ρ : Nat → Nat) : Nat → E → M
  | 0, _ => fun v o v' t => o = .halt ∧ v' = v ∧ t = []
  | n + 1, e => match e with
    | .blank => fun v o v' t => o = .normal ∧ v' = v ∧ t = []
    | .use _ => fun v o v' t => o = .normal ∧ v' = v ∧ t = [v]
    | .inc => fun v o v' t => o = .normal ∧ v' = v + 1 ∧ t = []
    | .assign k => fun _ o v' t => o = .normal ∧ v' = ρ k ∧ t = []
    | .change | .autoref => fun _ o _ t => o = .normal ∧ t = []
    | .seq a b => andThen (eval ρ n a) (eval ρ n b)
    | .cond c a b => andThen (eval ρ n c) (fun v o v' t => eval ρ n a v o v' t ∨ eval ρ n b v o v' t)
    | .lazy a b => andThen (eval ρ n a) (fun v o v' t => (o = .normal ∧ v' = v ∧ t = []) ∨ eval ρ n b v o v' t)
    | .letElse a b => andThen (eval ρ n a) (fun v o v' t => (o = .normal ∧ v' = v ∧ t = []) ∨ (o ≠ .normal ∧ eval ρ n b v o v' t))
    | .loop l a => fun v o v' t =>
      (∃ o1 v1 t1 t2, eval ρ n a v o1 v1 t1 ∧ (o1 = .normal ∨ o1 = .cont l) ∧ eval ρ n (.loop l a) v1 o v' t2 ∧ t = t1 ++ t2) ∨
      (o = .normal ∧ eval ρ n a v (.brk l) v' t) ∨
      (o ≠ .normal ∧ o ≠ .cont l ∧ o ≠ .brk l ∧ eval ρ n a v o v' t)
    | .block l a => fun v o v' t => (o = .normal ∧ eval ρ n a v (.brk l) v' t) ∨ (o ≠ .brk l ∧ eval ρ n a v o v' t)
    | .brk l => fun v o v' t => o = .brk l ∧ v' = v ∧ t = []
    | .cont l => fun v o v' t => o = .cont l ∧ v' = v ∧ t = []
    | .ret => fun v o v' t => o = .ret ∧ v' = v ∧ t = []
    | .closure a => fun v o v' t =>
      (o = .normal ∧ v' = v ∧ t = []) ∨ (o = .normal ∧ (eval ρ n a v .normal v' t ∨ eval ρ n a v .ret v' t)) ∨ (o = .halt ∧ eval ρ n a v .halt v' t)

/-- The statements before the loop. -/
def runPre (ρ : Nat → Nat) (n : Nat) : List Stmt → M
  | [] => fun v o v' t => o = .normal ∧ v' = v ∧ t = []
  | .decl (some k) :: ss => fun _ o v' t => runPre ρ n ss (ρ k) o v' t
  | .decl none :: ss => fun _ o v' t => ∃ v, runPre ρ n ss v o v' t
  | .expr e :: ss => andThen (eval ρ n e) (runPre ρ n ss)

/-- The values read in each round of the loop, which has the label `0` and runs over some number of elements; a round is ended by the end of the
body or `continue`, the last one by anything. -/
inductive Rounds (ρ : Nat → Nat) (n : Nat) (body : E) : Nat → List (List Nat) → Prop
  | done (v) : Rounds ρ n body v []
  | last {v o v' t} : eval ρ n body v o v' t → o ≠ .normal → o ≠ .cont 0 → Rounds ρ n body v [t]
  | next {v o v' t ts} : eval ρ n body v o v' t → o = .normal ∨ o = .cont 0 → Rounds ρ n body v' ts → Rounds ρ n body v (t :: ts)

/-- The labels to which there are jumps by `break`. -/
def E.brks : E → List Nat
  | .brk l => [l]
  | .seq a b | .lazy a b | .letElse a b => a.brks ++ b.brks
  | .cond c a b => c.brks ++ a.brks ++ b.brks
  | .loop _ a | .block _ a | .closure a => a.brks
  | _ => []

/-- Whether the variable is set or changed. -/
def E.sets : E → Bool
  | .inc | .assign _ | .change | .autoref => true
  | .seq a b | .lazy a b | .letElse a b => a.sets || b.sets
  | .cond c a b => c.sets || a.sets || b.sets
  | .loop _ a | .block _ a | .closure a => a.sets
  | _ => false

/-- The variable is only set where this can't be left out: not behind `&&`, `||` and `let … else`, not in closures, and not in a block with a label which is left by `break`. No
method borrows it mutably. -/
def E.Straight : E → Prop
  | .autoref => False
  | .seq a b => a.Straight ∧ b.Straight
  | .lazy a b | .letElse a b => a.Straight ∧ b.Straight ∧ b.sets = false
  | .cond c a b => c.Straight ∧ a.Straight ∧ b.Straight
  | .loop _ a => a.Straight
  | .closure a => a.Straight ∧ a.sets = false
  | .block l a => a.Straight ∧ (a.sets = false ∨ l ∉ a.brks)
  | _ => True

/-- All occurrences are seen: each is the operand of an expression, and none is in a closure. -/
def E.Visible : E → Prop
  | .use p => p = true
  | .seq a b | .letElse a b | .lazy a b => a.Visible ∧ b.Visible
  | .cond c a b => c.Visible ∧ a.Visible ∧ b.Visible
  | .loop _ a | .block _ a => a.Visible
  | .closure a => a.mentions = false
  | _ => True

/-! ### Counters of suggestions -/

/-- `(start..).zip(iter)` for an `iter` with `n` elements, with integers up to `max`: the numbers, and whether it panics. `zip` asks the range
first, and the range computes the number after the one it returns. -/
def zipRun (max : Nat) : Nat → Nat → List Nat × Bool
  | start, 0 => ([], start == max)
  | start, n + 1 => if start = max then ([], true) else ((start :: (zipRun max (start + 1) n).1), (zipRun max (start + 1) n).2)

/-- `(start..).take(n)`: `take` asks the range `n` times. -/
def takeRun (max : Nat) : Nat → Nat → List Nat × Bool
  | _, 0 => ([], false)
  | start, n + 1 => if start = max then ([], true) else ((start :: (takeRun max (start + 1) n).1), (takeRun max (start + 1) n).2)

end Verif.Counter
