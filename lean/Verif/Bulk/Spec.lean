/-!
# Popping, filling and taking

Three small languages: loops that pop, conditional pops, and loops that fill a slice.
-/

namespace Verif.Bulk

/-- Values of local variables, by name. -/
abbrev Env := Nat → Int

/-- The variable gets a value. -/
def Env.set (e : Env) (x : Nat) (v : Int) : Env := fun y => if y = x then v else e y

/-! ## Loops that pop -/

/-- How a piece of code ends: normally, with `continue`, with `break`, or by leaving the function (also by a panic). -/
inductive Exit
  | normal | next | stop | leave
deriving DecidableEq, Repr

/-- What parts of programs do. Receivers are expressions for vectors, which live in the world; patterns bind variables or fail. -/
structure Sem (W : Type) where
  recv : Nat → Env → W → Nat × W
  isEmpty : Nat → W → Bool
  pop : Nat → W → Option (Int × W)
  code : Nat → Env → W → Int × W
  block : Nat → Env → W → Exit × W
  bind : Nat → Int → Option (Env → Env)
  call : List Int → W → W

/-- Arguments of the first call: `r.pop().unwrap()`, other code, a variable. -/
inductive Arg
  | pop (r : Nat)
  | code (k : Nat)
  | var (x : Nat)
deriving DecidableEq, Repr

/-- The first statement: `let pat = r.pop().unwrap()` with or without `else`, `f(args)`, something else. -/
inductive First
  | letPop (r pat : Nat) (els : Option Nat)
  | call (args : List Arg)
  | other (k : Nat)
deriving DecidableEq, Repr

variable {W : Type}

/-- Arguments, from left to right; no values if a vector has no element, which is a panic. -/
def evalArgs (M : Sem W) (e : Env) : List Arg → W → Option (List Int) × W
  | [], w => (some [], w)
  | .pop r :: as, w =>
    match M.pop (M.recv r e w).1 (M.recv r e w).2 with
    | none => (none, (M.recv r e w).2)
    | some (x, w') => ((evalArgs M e as w').1.map (x :: ·), (evalArgs M e as w').2)
  | .code k :: as, w => ((evalArgs M e as (M.code k e w).2).1.map ((M.code k e w).1 :: ·), (evalArgs M e as (M.code k e w).2).2)
  | .var x :: as, w => ((evalArgs M e as w).1.map (e x :: ·), (evalArgs M e as w).2)

/-- The first statement and the rest of the body. -/
def runBody (M : Sem W) (e : Env) (first : First) (rest : Nat) (w : W) : Exit × W :=
  match first with
  | .letPop r pat els =>
    match M.pop (M.recv r e w).1 (M.recv r e w).2 with
    | none => (.leave, (M.recv r e w).2)
    | some (x, w') =>
      match M.bind pat x, els with
      | some f, _ => M.block rest (f e) w'
      | none, some k => M.block k e w'
      | none, none => (.leave, w')
  | .call args =>
    match evalArgs M e args w with
    | (none, w') => (.leave, w')
    | (some vs, w') => M.block rest e (M.call vs w')
  | .other k =>
    match M.block k e w with
    | (.normal, w') => M.block rest e w'
    | (x, w') => (x, w')

/-- `while !r.is_empty() { first; rest }`, at most `n` rounds: has the function been left, and the world. -/
def runWhile (M : Sem W) (e : Env) (r : Nat) (first : First) (rest : Nat) : Nat → W → Option (Bool × W)
  | 0, _ => none
  | n + 1, w =>
    if M.isEmpty (M.recv r e w).1 (M.recv r e w).2 then some (false, (M.recv r e w).2)
    else
      match runBody M e first rest (M.recv r e w).2 with
      | (.normal, w') | (.next, w') => runWhile M e r first rest n w'
      | (.stop, w') => some (false, w')
      | (.leave, w') => some (true, w')

/-- The new body: the rest, or a call with variables and other code before it. -/
inductive NewBody
  | rest
  | call (args : List Arg)
deriving DecidableEq, Repr

/-- The new body runs. -/
def runNewBody (M : Sem W) (e : Env) (b : NewBody) (rest : Nat) (w : W) : Exit × W :=
  match b with
  | .rest => M.block rest e w
  | .call args =>
    match evalArgs M e args w with
    | (none, w') => (.leave, w')
    | (some vs, w') => M.block rest e (M.call vs w')

/-- `while let Some(pat) = r.pop() { body }`. -/
def runWhileLet (M : Sem W) (e : Env) (r pat : Nat) (b : NewBody) (rest : Nat) : Nat → W → Option (Bool × W)
  | 0, _ => none
  | n + 1, w =>
    match M.pop (M.recv r e w).1 (M.recv r e w).2 with
    | none => some (false, (M.recv r e w).2)
    | some (x, w') =>
      match M.bind pat x with
      | none => some (false, w')
      | some f =>
        match runNewBody M (f e) b rest w' with
        | (.normal, w2) | (.next, w2) => runWhileLet M e r pat b rest n w2
        | (.stop, w2) => some (false, w2)
        | (.leave, w2) => some (true, w2)

/-! ## Conditional pops -/

/-- Vectors, double-ended queues and heaps. -/
inductive Coll
  | vec | deque | heap
deriving DecidableEq, Repr

/-- Their methods. -/
inductive Meth
  | last | back | front | peek | pop | popBack | popFront | popIf | popBackIf | popFrontIf
deriving DecidableEq, Repr

/-- The element a method looks at or takes away, and what is left; nothing if the collection doesn't have the method. Heaps are sorted. -/
def Coll.split : Coll → Meth → List Int → Option (Option (Int × List Int))
  | .vec, .last, l | .vec, .pop, l | .vec, .popIf, l | .deque, .back, l | .deque, .popBack, l | .deque, .popBackIf, l
  | .heap, .peek, l | .heap, .pop, l | .heap, .popIf, l => some (l.getLast?.map fun x => (x, l.dropLast))
  | .deque, .front, l | .deque, .popFront, l | .deque, .popFrontIf, l => some (l.head?.map fun x => (x, l.tail))
  | _, _, _ => none

/-- Conditions on an element, which may leave the function they are in. -/
inductive Out
  | val (b : Bool)
  | ret (b : Bool)
deriving DecidableEq, Repr

/-- What conditions and other code do. -/
structure CondSem (W : Type) where
  cond : Nat → Int → W → Out × W
  sub : Nat → Int → Bool
  code : Nat → W → W

/-- The forms: `if c.last().is_some_and(|x| p)`, `if c.last().map(|x| p).unwrap_or(false)`, `if let Some(x @ sub) = c.last() && p`, and
`if let Some(x @ sub) = c.last() { if p { .. } tail }`. -/
inductive Form
  | isSomeAnd (p : Nat)
  | mapUnwrapOr (p : Nat)
  | letChain (sub : Option Nat) (p : Nat)
  | ifLet (sub : Option Nat) (p : Nat) (tail : Option Nat)
deriving DecidableEq, Repr

/-- A conditional pop: whether the function has been left, the collection and the world. -/
abbrev End (W : Type) := Bool × List Int × W

/-- Does the pattern of a variable match? -/
def subFits (M : CondSem W) (sub : Option Nat) (x : Int) : Bool :=
  match sub with
  | none => true
  | some s => M.sub s x

/-- `if .. { c.pop().unwrap(); }` with the given methods to look and to take. -/
def runForm (M : CondSem W) (c : Coll) (look take : Meth) (f : Form) (l : List Int) (w : W) : Option (End W) :=
  match c.split look l, c.split take l with
  | some seen, some taken =>
    let left := (taken.map (·.2)).getD l
    match f with
    | .isSomeAnd p | .mapUnwrapOr p =>
      match seen with
      | none => some (false, l, w)
      | some (x, _) =>
        match M.cond p x w with
        | (.val true, w') | (.ret true, w') => some (false, left, w')
        | (.val false, w') | (.ret false, w') => some (false, l, w')
    | .letChain sub p =>
      match seen with
      | none => some (false, l, w)
      | some (x, _) =>
        if subFits M sub x then
          match M.cond p x w with
          | (.val true, w') => some (false, left, w')
          | (.val false, w') => some (false, l, w')
          | (.ret _, w') => some (true, l, w')
        else some (false, l, w)
    | .ifLet sub p tail =>
      let after (w : W) := match tail with | none => w | some k => M.code k w
      match seen with
      | none => some (false, l, w)
      | some (x, _) =>
        if subFits M sub x then
          match M.cond p x w with
          | (.val true, w') => some (false, left, after w')
          | (.val false, w') => some (false, l, after w')
          | (.ret _, w') => some (true, l, w')
        else some (false, l, w)
  | _, _ => none

/-- `c.pop_if(|x| p);`. -/
def runPopIf (M : CondSem W) (c : Coll) (m : Meth) (p : Nat) (l : List Int) (w : W) : Option (End W) :=
  match c.split m l with
  | none => none
  | some none => some (false, l, w)
  | some (some (x, left)) =>
    match M.cond p x w with
    | (.val true, w') | (.ret true, w') => some (false, left, w')
    | (.val false, w') | (.ret false, w') => some (false, l, w')

/-! ## Filling a slice -/

/-- Loops over a slice: `for x in 0..s.len() { s[i] = v; }`, from another start or with `..=`, and `for x in &mut s { *y = v; }`. -/
inductive Fill
  | index (x start : Nat) (inclusive : Bool) (i : Nat) (v : Nat)
  | iter (x y : Nat) (v : Nat)
deriving DecidableEq, Repr

/-- What values are: they may look at variables and at the slice. -/
abbrev Vals := Nat → Env → List Int → Int

/-- One round of `s[i] = v`; nothing if the index isn't one of the slice. -/
def assignAt (V : Vals) (e : Env) (i v : Nat) (s : List Int) : Option (List Int) :=
  if 0 ≤ e i ∧ e i < s.length then some (s.set (e i).toNat (V v e s)) else none

/-- The rounds for the given values of the variable. -/
def runIndex (V : Vals) (e : Env) (x i v : Nat) : List Nat → List Int → Option (List Int)
  | [], s => some s
  | n :: ns, s =>
    match assignAt V (e.set x n) i v s with
    | none => none
    | some s' => runIndex V e x i v ns s'

/-- The rounds of `for x in &mut s { *x = v; }`. -/
def runIter (V : Vals) (e : Env) (x v : Nat) : List Nat → List Int → List Int
  | [], s => s
  | n :: ns, s => runIter V e x v ns (s.set n (V v (e.set x (s.getD n 0)) s))

/-- The loop; nothing if it panics, or assigns to something else than the elements. -/
def Fill.run (V : Vals) (e : Env) (s : List Int) : Fill → Option (List Int)
  | .index x start inclusive i v => runIndex V e x i v (List.range' start ((if inclusive then s.length + 1 else s.length) - start)) s
  | .iter x y v => if y = x then some (runIter V e x v (List.range s.length) s) else none

/-- `s.fill(v);`. -/
def runFill (V : Vals) (e : Env) (v : Nat) (s : List Int) : List Int := s.map fun _ => V v e s

end Verif.Bulk
