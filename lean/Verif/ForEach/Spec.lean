/-!
# Specification: closures called for each item, and loops over the items
-/

namespace Verif.ForEach

/-- The body of a closure or of a loop. Numbers name variables, functions of the item and the variables, and conditions. -/
inductive Stm
  | skip
  /-- `x = f(item, variables)` -/
  | set (x f : Nat)
  /-- Something observable. -/
  | print (f : Nat)
  | seq (a b : Stm)
  | cond (c : Nat) (a b : Stm)
  /-- A loop that turns as often as `f` says, unless it is left. -/
  | loop (f : Nat) (b : Stm)
  | brk
  | cont
  /-- `return { e }` -/
  | ret (e : Stm)
  /-- `(|| { b })()` -/
  | call (b : Stm)
  deriving DecidableEq, Repr

structure St where
  vars : Nat → Nat
  out : List Nat

/-- What the functions and conditions are. -/
structure Sem where
  fn : Nat → Nat → (Nat → Nat) → Nat
  test : Nat → Nat → (Nat → Nat) → Bool

/-- How a statement ends. -/
inductive Out | norm | brk | cont | ret
  deriving DecidableEq, Repr

/-- Up to `n` turns of a loop. -/
def turns (f : St → St × Out) : Nat → St → St × Out
  | 0, s => (s, .norm)
  | n + 1, s =>
    match f s with
    | (s', .norm) => turns f n s'
    | (s', .cont) => turns f n s'
    | (s', .brk) => (s', .norm)
    | (s', .ret) => (s', .ret)

def assign (s : St) (x v : Nat) : St := { s with vars := fun y => if y = x then v else s.vars y }

/-- A body, for an item. -/
def run (I : Sem) (it : Nat) : Stm → St → St × Out
  | .skip, s => (s, .norm)
  | .set x f, s => (assign s x (I.fn f it s.vars), .norm)
  | .print f, s => ({ s with out := s.out ++ [I.fn f it s.vars] }, .norm)
  | .seq a b, s =>
    match run I it a s with
    | (s', .norm) => run I it b s'
    | r => r
  | .cond c a b, s => if I.test c it s.vars then run I it a s else run I it b s
  | .loop f b, s => turns (run I it b) (I.fn f it s.vars) s
  | .brk, s => (s, .brk)
  | .cont, s => (s, .cont)
  | .ret e, s =>
    match run I it e s with
    | (s', .norm) => (s', .ret)
    | r => r
  | .call b, s => ((run I it b s).1, .norm)

/-- `items.for_each(|item| body)` -/
def forEach (I : Sem) (b : Stm) : List Nat → St → St
  | [], s => s
  | it :: r, s => forEach I b r (run I it b s).1

/-- `items.for_each(move |item| body)`: the closure has its own copies of the variables. -/
def forEachMove (I : Sem) (b : Stm) (items : List Nat) (s : St) : St :=
  { vars := s.vars, out := (forEach I b items s).out }

/-- With or without `move`. -/
def called (I : Sem) (mv : Bool) (b : Stm) (items : List Nat) (s : St) : St :=
  if mv then forEachMove I b items s else forEach I b items s

/-- `for item in items { body }`; whether the loop ended without returning from the function around it. -/
def forLoop (I : Sem) (b : Stm) : List Nat → St → St × Bool
  | [], s => (s, true)
  | it :: r, s =>
    match run I it b s with
    | (s', .norm) => forLoop I b r s'
    | (s', .cont) => forLoop I b r s'
    | (s', .brk) => (s', true)
    | (s', .ret) => (s', false)

/-- `break` and `continue` stand in loops, as they have to. -/
def Legal : Bool → Stm → Prop
  | _, .skip => True
  | _, .set _ _ => True
  | _, .print _ => True
  | l, .seq a b => Legal l a ∧ Legal l b
  | l, .cond _ a b => Legal l a ∧ Legal l b
  | _, .loop _ b => Legal true b
  | l, .brk => l = true
  | l, .cont => l = true
  | l, .ret e => Legal l e
  | _, .call b => Legal false b

/-- Every `return` of the closure itself is a plain one, without an expression. -/
def Plain : Stm → Prop
  | .seq a b => Plain a ∧ Plain b
  | .cond _ a b => Plain a ∧ Plain b
  | .loop _ b => Plain b
  | .ret e => e = .skip
  | _ => True

/-- The closure itself has a `return`; `inLoop`: in a loop in it. -/
inductive Returns : Bool → Stm → Prop
  | here (e : Stm) : Returns false (.ret e)
  | inner {l : Bool} {e : Stm} : Returns l e → Returns l (.ret e)
  | left {l : Bool} {a : Stm} (b : Stm) : Returns l a → Returns l (.seq a b)
  | right {l : Bool} (a : Stm) {b : Stm} : Returns l b → Returns l (.seq a b)
  | yes {l : Bool} (c : Nat) {a : Stm} (b : Stm) : Returns l a → Returns l (.cond c a b)
  | no {l : Bool} (c : Nat) (a : Stm) {b : Stm} : Returns l b → Returns l (.cond c a b)
  | loop {l : Bool} (f : Nat) {b : Stm} : Returns l b → Returns true (.loop f b)

end Verif.ForEach
