/-!
# Specification: vectors that are made and then filled with zeros
-/

namespace Verif.Fill

/-- Expressions for lengths. -/
inductive Ex
  | lit (n : Nat)
  | var (k : Nat)
  /-- A call that may have effects. -/
  | call (k : Nat)
  /-- `v.len()` -/
  | len (v : Nat)
  /-- `v.capacity()` -/
  | cap (v : Nat)
  deriving DecidableEq, Repr

/-- Statements and blocks. A block is a list of statements (`nil`, `cons`), possibly with an expression at the end
(`last`). -/
inductive S
  /-- `let mut v = …;` or `v = …;` with `Vec::new()` or `Vec::with_capacity(size)`. `id` identifies the place. -/
  | alloc (id v : Nat) (size : Option Ex)
  /-- The same as an arm of a `match`, without a block of its own; no other arm has a block. -/
  | armAlloc (id v : Nat) (size : Option Ex)
  /-- `v.resize(len, 0)` (or another value than zero) -/
  | resize (id v : Nat) (len : Ex) (zero : Bool)
  /-- `v.extend(repeat(0).take(len))` (or another value than zero) -/
  | extend (id v : Nat) (len : Ex) (zero : Bool)
  | other (k : Nat)
  /-- An expression with a block: `if c { … }`, `unsafe { … }`, `loop { … }`. -/
  | within (b : S)
  | nil
  | cons (s rest : S)
  | last (s : S)
  deriving DecidableEq, Repr

/-- The state: the contents and capacities of vectors, variables, and everything else. -/
structure St where
  vec : Nat → List Nat
  cap : Nat → Nat
  var : Nat → Nat
  world : Nat

/-- The rest of the program: what calls give and do, and how much is allocated. -/
structure Sem where
  call : Nat → St → Nat × St
  room : Nat → St → Nat

def Ex.eval (I : Sem) : Ex → St → Nat × St
  | .lit n, s => (n, s)
  | .var k, s => (s.var k, s)
  | .call k, s => I.call k s
  | .len v, s => ((s.vec v).length, s)
  | .cap v, s => (s.cap v, s)

def St.put (s : St) (v : Nat) (l : List Nat) (c : Nat) : St :=
  { s with vec := fun u => if u = v then l else s.vec u, cap := fun u => if u = v then c else s.cap u }

/-- `v = Vec::with_capacity(size)` or `v = Vec::new()`. -/
def runAlloc (I : Sem) (v : Nat) (size : Option Ex) (s : St) : St :=
  match size with
  | none => s.put v [] 0
  | some e => let r := e.eval I s; r.2.put v [] (I.room r.1 r.2)

/-- `v.resize(len, 0)` -/
def runResize (I : Sem) (v : Nat) (len : Ex) (s : St) : St :=
  let r := len.eval I s
  r.2.put v ((r.2.vec v).take r.1 ++ List.replicate (r.1 - (r.2.vec v).length) 0) (I.room r.1 r.2)

/-- `v.extend(repeat(0).take(len))` -/
def runExtend (I : Sem) (v : Nat) (len : Ex) (s : St) : St :=
  let r := len.eval I s
  r.2.put v (r.2.vec v ++ List.replicate r.1 0) (I.room r.1 r.2)

/-- `v = vec![0; len]` -/
def runVec (I : Sem) (v : Nat) (len : Ex) (s : St) : St :=
  let r := len.eval I s
  r.2.put v (List.replicate r.1 0) (I.room r.1 r.2)

/-- The same, apart from capacities. -/
def Same (s t : St) : Prop := s.vec = t.vec ∧ s.var = t.var ∧ s.world = t.world

/-- `e` does nothing and does not look at `v`. -/
def Quiet (I : Sem) (e : Ex) (v : Nat) : Prop :=
  ∀ s l c, (e.eval I s).2 = s ∧ (e.eval I (s.put v l c)).1 = (e.eval I s).1 ∧ (e.eval I (s.put v l c)).2 = s.put v l c

/-- The statements `pre` and then `post`. -/
def stmts : List S → S → S
  | [], post => post
  | s :: pre, post => .cons s (stmts pre post)

/-- The allocation `id` is not in `s`. -/
def Without (id : Nat) : S → Prop
  | .alloc i _ _ => i ≠ id
  | .armAlloc i _ _ => i ≠ id
  | .within b => Without id b
  | .cons s rest => Without id s ∧ Without id rest
  | .last s => Without id s
  | _ => True

/-- What statement `t` does to the state, if it fills `v` with `len` zeros. -/
inductive Fills : S → Nat → Nat → Ex → Prop
  | resize (id v len) : Fills (.resize id v len true) id v len
  | extend (id v len) : Fills (.extend id v len true) id v len

/-- Running a statement that fills a vector. -/
def runFill (I : Sem) : S → St → St
  | .resize _ v len _, s => runResize I v len s
  | .extend _ v len _, s => runExtend I v len s
  | _, s => s

end Verif.Fill
