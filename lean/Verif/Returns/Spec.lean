/-!
# Specification: what functions with loops, breaks and returns do
-/

namespace Verif.Returns

/-- Expressions. Labels are the number of loops and labelled blocks between. -/
inductive E
  /-- Paths, literals, closures and other expressions that are not calls. -/
  | leaf (i : Nat)
  /-- Calls and operators; `never` is whether the type is `!`. -/
  | call (i : Nat) (never : Bool) (a b : E)
  /-- A block with a statement and a final expression. -/
  | seq (a b : E)
  /-- A block without a final expression. -/
  | stm (a : E)
  /-- `if` with `else`, or a match. -/
  | ite (c t e : E)
  | ift (c t : E)
  | loop (b : E)
  /-- A labelled block. -/
  | blk (b : E)
  | brk (k : Nat) (e : E)
  /-- `break` without a value. -/
  | brk0 (k : Nat)
  | ret (e : E)
  /-- What a macro call is expanded to. -/
  | mac (e : E)
  deriving DecidableEq, Repr

/-- How an expression ends. -/
inductive Out (V : Type)
  | val (x : V)
  | ret (x : V)
  | brk (k : Nat) (x : V)
  | stop
  deriving DecidableEq, Repr

/-- What leaves and calls do: they have a value or panic. -/
structure Sem (V S : Type) where
  unit : V
  truth : V → Bool
  leaf : Nat → S → Option V × S
  call : Nat → Bool → V → V → S → Option V × S

variable {V S : Type}

abbrev Res (V S : Type) := Option (Out V × S)

/-- Going on with a value. -/
def andThen (r : Res V S) (f : V → S → Res V S) : Res V S :=
  match r with
  | some (.val x, s) => f x s
  | some (.ret x, s) => some (.ret x, s)
  | some (.brk k x, s) => some (.brk k x, s)
  | some (.stop, s) => some (.stop, s)
  | none => none

/-- A value or a panic. -/
def ofLeaf : Option V × S → Res V S
  | (some x, s) => some (.val x, s)
  | (none, s) => some (.stop, s)

/-- Leaving a loop or a labelled block. -/
def leave : Res V S → Res V S
  | some (.brk 0 x, s) => some (.val x, s)
  | some (.brk (k + 1) x, s) => some (.brk k x, s)
  | r => r

/-- At most `m` rounds of a loop. -/
def rounds (f : S → Res V S) : Nat → S → Res V S
  | 0, _ => none
  | m + 1, s =>
    match f s with
    | some (.val _, s') => rounds f m s'
    | r => leave r

/-- Evaluation with at most `n` rounds of each loop; `none` is that these are not enough. -/
def eval (I : Sem V S) (n : Nat) : E → S → Res V S
  | .leaf i, s => ofLeaf (I.leaf i s)
  | .call i v a b, s => andThen (eval I n a s) fun x s1 => andThen (eval I n b s1) fun y s2 => ofLeaf (I.call i v x y s2)
  | .seq a b, s => andThen (eval I n a s) fun _ s1 => eval I n b s1
  | .stm a, s => andThen (eval I n a s) fun _ s1 => some (.val I.unit, s1)
  | .ite c t e, s => andThen (eval I n c s) fun x s1 => if I.truth x then eval I n t s1 else eval I n e s1
  | .ift c t, s => andThen (eval I n c s) fun x s1 => if I.truth x then andThen (eval I n t s1) fun _ s2 => some (.val I.unit, s2) else some (.val I.unit, s1)
  | .loop b, s => rounds (eval I n b) n s
  | .blk b, s => leave (eval I n b s)
  | .brk k e, s => andThen (eval I n e s) fun x s1 => some (.brk k x, s1)
  | .brk0 k, s => some (.brk k I.unit, s)
  | .ret e, s => andThen (eval I n e s) fun x s1 => some (.ret x, s1)
  | .mac e, s => eval I n e s

/-- What the caller of a function with this body sees. -/
def caller : Res V S → Res V S
  | some (.val x, s) => some (.ret x, s)
  | r => r

end Verif.Returns
