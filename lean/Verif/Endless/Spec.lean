import Verif.Endless.Syntax

/-!
# Specification: iterators, their adapters, and the methods that use them up

An iterator is a machine.  The adapters are those of `core::iter`; closures may do and return
anything.  Nothing of the lint is used here.
-/

namespace Verif.Endless

/-- Values. -/
inductive V where
  | num (n : Int)
  | pair (a b : V)
  | nothing
  | just (v : V)
  | obj (n : Nat)
  deriving DecidableEq

/-- What one step of an iterator does.  A call of `next` is as many steps as it takes to get to
`fin` or `item`. -/
inductive Step (σ : Type) where
  /-- `next` returns `None`. -/
  | fin
  /-- `next` returns `Some(v)`. -/
  | item (v : V) (s : σ)
  /-- `next` goes on. -/
  | busy (s : σ)
  /-- A panic. -/
  | panic

def Step.map {σ τ : Type} (f : σ → τ) : Step σ → Step τ
  | .fin => .fin
  | .item v s => .item v (f s)
  | .busy s => .busy (f s)
  | .panic => .panic

/-- An iterator; `back` is there if it is a `DoubleEndedIterator`. -/
structure It where
  σ : Type
  s0 : σ
  next : σ → Step σ
  back : Option (σ → Step σ)

/-- A closure with a state of its own.  `none`: it does not return. -/
structure Clo (α : Type) where
  κ : Type
  k0 : κ
  call : κ → V → Option (α × κ)

section
variable {σ τ κ : Type}

/-- `Map`, and with other closures `Inspect` and `Cloned`. -/
def mapStep (c : κ → V → Option (V × κ)) (f : σ → Step σ) (p : σ × κ) : Step (σ × κ) :=
  match f p.1 with
  | .fin => .fin
  | .busy s => .busy (s, p.2)
  | .panic => .panic
  | .item v s => match c p.2 v with
    | some (w, k) => .item w (s, k)
    | none => .panic

/-- `Filter`. -/
def filterStep (c : κ → V → Option (Bool × κ)) (f : σ → Step σ) (p : σ × κ) : Step (σ × κ) :=
  match f p.1 with
  | .fin => .fin
  | .busy s => .busy (s, p.2)
  | .panic => .panic
  | .item v s => match c p.2 v with
    | some (true, k) => .item v (s, k)
    | some (false, k) => .busy (s, k)
    | none => .panic

/-- `FilterMap`. -/
def filterMapStep (c : κ → V → Option (Option V × κ)) (f : σ → Step σ) (p : σ × κ) : Step (σ × κ) :=
  match f p.1 with
  | .fin => .fin
  | .busy s => .busy (s, p.2)
  | .panic => .panic
  | .item v s => match c p.2 v with
    | some (some w, k) => .item w (s, k)
    | some (none, k) => .busy (s, k)
    | none => .panic

/-- `TakeWhile`. -/
def takeWhileStep (c : κ → V → Option (Bool × κ)) (f : σ → Step σ) (p : σ × κ) : Step (σ × κ) :=
  match f p.1 with
  | .fin => .fin
  | .busy s => .busy (s, p.2)
  | .panic => .panic
  | .item v s => match c p.2 v with
    | some (true, k) => .item v (s, k)
    | some (false, _) => .fin
    | none => .panic

/-- `Scan`; the state of the scan belongs to the closure. -/
def scanStep (c : κ → V → Option (Option V × κ)) (f : σ → Step σ) (p : σ × κ) : Step (σ × κ) :=
  match f p.1 with
  | .fin => .fin
  | .busy s => .busy (s, p.2)
  | .panic => .panic
  | .item v s => match c p.2 v with
    | some (some w, k) => .item w (s, k)
    | some (none, _) => .fin
    | none => .panic

/-- `SkipWhile`; the last component: still skipping. -/
def skipWhileStep (c : κ → V → Option (Bool × κ)) (f : σ → Step σ) (p : σ × κ × Bool) :
    Step (σ × κ × Bool) :=
  match f p.1 with
  | .fin => .fin
  | .busy s => .busy (s, p.2.1, p.2.2)
  | .panic => .panic
  | .item v s =>
    if p.2.2 then
      match c p.2.1 v with
      | some (true, k) => .busy (s, k, true)
      | some (false, k) => .item v (s, k, false)
      | none => .panic
    else .item v (s, p.2.1, false)

/-- `Enumerate`; `lim`: the count cannot get there. -/
def enumerateStep (lim : Nat) (f : σ → Step σ) (p : σ × Nat) : Step (σ × Nat) :=
  match f p.1 with
  | .fin => .fin
  | .busy s => .busy (s, p.2)
  | .panic => .panic
  | .item v s => if p.2 < lim then .item (.pair (.num p.2) v) (s, p.2 + 1) else .panic

/-- `Skip`; the items that are still to be skipped. -/
def skipStep (f : σ → Step σ) (p : σ × Nat) : Step (σ × Nat) :=
  match f p.1 with
  | .fin => .fin
  | .busy s => .busy (s, p.2)
  | .panic => .panic
  | .item v s => match p.2 with
    | 0 => .item v (s, 0)
    | n + 1 => .busy (s, n)

/-- `Zip`; the last component: the item that waits for its partner. -/
def zipStep (f : σ → Step σ) (g : τ → Step τ) (p : σ × τ × Option V) : Step (σ × τ × Option V) :=
  match p.2.2 with
  | none => match f p.1 with
    | .fin => .fin
    | .busy s => .busy (s, p.2.1, none)
    | .panic => .panic
    | .item v s => .busy (s, p.2.1, some v)
  | some v => match g p.2.1 with
    | .fin => .fin
    | .busy t => .busy (p.1, t, some v)
    | .panic => .panic
    | .item w t => .item (.pair v w) (p.1, t, none)

/-- `Chain`, forward: the first one is dropped when it has ended. -/
def chainStep (f : σ → Step σ) (g : τ → Step τ) (p : Option σ × Option τ) :
    Step (Option σ × Option τ) :=
  match p.1 with
  | some s => match f s with
    | .fin => .busy (none, p.2)
    | r => r.map fun s => (some s, p.2)
  | none => match p.2 with
    | some t => (g t).map fun t => (none, some t)
    | none => .fin

/-- `Chain`, backward. -/
def chainBack (f : σ → Step σ) (g : τ → Step τ) (p : Option σ × Option τ) :
    Step (Option σ × Option τ) :=
  match p.2 with
  | some t => match g t with
    | .fin => .busy (p.1, none)
    | r => r.map fun t => (p.1, some t)
  | none => match p.1 with
    | some s => (f s).map fun s => (some s, none)
    | none => .fin

/-- `Cycle`: at the end it starts again with a copy; if that has no items, it ends.  The last
component: it has just started again. -/
def cycleStep (s0 : σ) (f : σ → Step σ) (p : σ × Bool) : Step (σ × Bool) :=
  match f p.1 with
  | .fin => if p.2 then .fin else .busy (s0, true)
  | .busy s => .busy (s, p.2)
  | .panic => .panic
  | .item v s => .item v (s, false)

/-- `FlatMap`, forward: the outer iterator, the closure, the open inner iterators at the front and at
the back. -/
def flatStep (c : κ → V → Option (τ × κ)) (f : σ → Step σ) (g : τ → Step τ)
    (p : σ × κ × Option τ × Option τ) : Step (σ × κ × Option τ × Option τ) :=
  match p.2.2.1 with
  | some t => match g t with
    | .fin => .busy (p.1, p.2.1, none, p.2.2.2)
    | r => r.map fun t => (p.1, p.2.1, some t, p.2.2.2)
  | none => match f p.1 with
    | .item v s => match c p.2.1 v with
      | some (t, k) => .busy (s, k, some t, p.2.2.2)
      | none => .panic
    | .busy s => .busy (s, p.2.1, none, p.2.2.2)
    | .panic => .panic
    | .fin => match p.2.2.2 with
      | some t => (g t).map fun t => (p.1, p.2.1, none, some t)
      | none => .fin

/-- `FlatMap`, backward. -/
def flatBack (c : κ → V → Option (τ × κ)) (f : σ → Step σ) (g : τ → Step τ)
    (p : σ × κ × Option τ × Option τ) : Step (σ × κ × Option τ × Option τ) :=
  match p.2.2.2 with
  | some t => match g t with
    | .fin => .busy (p.1, p.2.1, p.2.2.1, none)
    | r => r.map fun t => (p.1, p.2.1, p.2.2.1, some t)
  | none => match f p.1 with
    | .item v s => match c p.2.1 v with
      | some (t, k) => .busy (s, k, p.2.2.1, some t)
      | none => .panic
    | .busy s => .busy (s, p.2.1, p.2.2.1, none)
    | .panic => .panic
    | .fin => match p.2.2.1 with
      | some t => (g t).map fun t => (p.1, p.2.1, some t, none)
      | none => .fin

end

namespace It

def map (I : It) (c : Clo V) : It :=
  ⟨I.σ × c.κ, (I.s0, c.k0), mapStep c.call I.next, I.back.map (mapStep c.call)⟩

def filter (I : It) (c : Clo Bool) : It :=
  ⟨I.σ × c.κ, (I.s0, c.k0), filterStep c.call I.next, I.back.map (filterStep c.call)⟩

def filterMap (I : It) (c : Clo (Option V)) : It :=
  ⟨I.σ × c.κ, (I.s0, c.k0), filterMapStep c.call I.next, I.back.map (filterMapStep c.call)⟩

def takeWhile (I : It) (c : Clo Bool) : It :=
  ⟨I.σ × c.κ, (I.s0, c.k0), takeWhileStep c.call I.next, none⟩

def scan (I : It) (c : Clo (Option V)) : It :=
  ⟨I.σ × c.κ, (I.s0, c.k0), scanStep c.call I.next, none⟩

def skipWhile (I : It) (c : Clo Bool) : It :=
  ⟨I.σ × c.κ × Bool, (I.s0, c.k0, true), skipWhileStep c.call I.next, none⟩

/-- Backward only with a known length, which is left out here; the same for `skip` and `zip`. -/
def enumerate (I : It) (lim : Nat) : It :=
  ⟨I.σ × Nat, (I.s0, 0), enumerateStep lim I.next, none⟩

def skip (I : It) (n : Nat) : It := ⟨I.σ × Nat, (I.s0, n), skipStep I.next, none⟩

def zip (I J : It) : It :=
  ⟨I.σ × J.σ × Option V, (I.s0, J.s0, none), zipStep I.next J.next, none⟩

def chain (I J : It) : It where
  σ := Option I.σ × Option J.σ
  s0 := (some I.s0, some J.s0)
  next := chainStep I.next J.next
  back := match I.back, J.back with
    | some f, some g => some (chainBack f g)
    | _, _ => none

def cycle (I : It) : It := ⟨I.σ × Bool, (I.s0, false), cycleStep I.s0 I.next, none⟩

/-- The closure makes iterators of one type, with the steps `g` and `gb`. -/
def flatMap (I : It) {τ : Type} (c : Clo τ) (g : τ → Step τ) (gb : Option (τ → Step τ)) : It where
  σ := I.σ × c.κ × Option τ × Option τ
  s0 := (I.s0, c.k0, none, none)
  next := flatStep c.call I.next g
  back := match I.back, gb with
    | some f, some h => some (flatBack c.call f h)
    | _, _ => none

/-- `repeat(v)`. -/
def rep (v : V) : It := ⟨Unit, (), fun _ => .item v (), some fun _ => .item v ()⟩

/-- `v..`; `succ` is the next value, if there is no panic. -/
def rangeFrom (v : V) (succ : V → Option V) : It where
  σ := V
  s0 := v
  next s := match succ s with
    | some t => .item s t
    | none => .panic
  back := none

end It

/-- Names of the adapters that are described here. -/
def adapter : Name → Bool
  | .zip | .chain | .cycle | .map | .byRef | .cloned | .rev | .inspect | .enumerate | .peekable
  | .fuse | .skip | .skipWhile | .filter | .filterMap | .flatMap | .unzip | .takeWhile | .scan => true
  | _ => false

/-- Expressions about which nothing is known. -/
def opaque_ : Ex → Bool
  | .call m std _ _ _ _ => !(std && adapter m)
  | .fn _ => true
  | .leaf _ => true
  | .closure _ => true
  | .cmp _ _ => true
  | _ => false

/-- The iterators to which an expression can evaluate; `O` says to which the unknown expressions
can.  Where a method has closures for arguments, these can do anything.  `Peekable` and `Fuse` yield
what the iterator yields. -/
inductive Den (O : Ex → It → Prop) : Ex → It → Prop
  | any {e I} : opaque_ e = true → O e I → Den O e I
  | block {e I} : Den O e I → Den O (.block e) I
  | addr {e I} : Den O e I → Den O (.addr e) I
  | rep {e} (v : V) : Den O (.rep e) (.rep v)
  | rangeFrom {e} (v : V) (succ : V → Option V) : Den O (.rangeFrom e) (.rangeFrom v succ)
  | zip {d t r a I J} : Den O r I → Den O a J → Den O (.call .zip true d t r (.cons a .nil)) (I.zip J)
  | chain {d t r a I J} : Den O r I → Den O a J →
      Den O (.call .chain true d t r (.cons a .nil)) (I.chain J)
  | cycle {d t r I} : Den O r I → Den O (.call .cycle true d t r .nil) I.cycle
  | map {d t r a I} (c : Clo V) : Den O r I → Den O (.call .map true d t r (.cons a .nil)) (I.map c)
  | byRef {d t r I} : Den O r I → Den O (.call .byRef true d t r .nil) I
  | cloned {d t r I} (c : Clo V) : Den O r I → Den O (.call .cloned true d t r .nil) (I.map c)
  | rev {d t r I f} : Den O r I → I.back = some f →
      Den O (.call .rev true d t r .nil) ⟨I.σ, I.s0, f, some I.next⟩
  | inspect {d t r a I} (c : Clo V) : Den O r I →
      Den O (.call .inspect true d t r (.cons a .nil)) (I.map c)
  | enumerate {d t r I} (lim : Nat) : Den O r I →
      Den O (.call .enumerate true d t r .nil) (I.enumerate lim)
  | peekable {d t r I} : Den O r I → Den O (.call .peekable true d t r .nil) I
  | fuse {d t r I} : Den O r I → Den O (.call .fuse true d t r .nil) I
  | skip {d t r a I} (n : Nat) : Den O r I → Den O (.call .skip true d t r (.cons a .nil)) (I.skip n)
  | skipWhile {d t r a I} (c : Clo Bool) : Den O r I →
      Den O (.call .skipWhile true d t r (.cons a .nil)) (I.skipWhile c)
  | filter {d t r a I} (c : Clo Bool) : Den O r I →
      Den O (.call .filter true d t r (.cons a .nil)) (I.filter c)
  | filterMap {d t r a I} (c : Clo (Option V)) : Den O r I →
      Den O (.call .filterMap true d t r (.cons a .nil)) (I.filterMap c)
  | flatMap {d t r a I} {τ : Type} (c : Clo τ) (g : τ → Step τ) (gb : Option (τ → Step τ)) :
      Den O r I → Den O (.call .flatMap true d t r (.cons a .nil)) (I.flatMap c g gb)
  | takeWhile {d t r a I} (c : Clo Bool) : Den O r I →
      Den O (.call .takeWhile true d t r (.cons a .nil)) (I.takeWhile c)
  | scan {d t r a b I} (c : Clo (Option V)) : Den O r I →
      Den O (.call .scan true d t r (.cons a (.cons b .nil))) (I.scan c)

/-- What a method does with an item: go on, return, panic. -/
inductive Act (κ : Type) where
  | more (k : κ)
  | ret (v : V)
  | panic

/-- A method that uses an iterator up: what it does with every item, and at the end. -/
structure User where
  κ : Type
  k0 : κ
  take : κ → V → Act κ
  fin : κ → V

/-- How far a call is. -/
inductive Out where
  | running
  | ret (v : V)
  | panic
  deriving DecidableEq

/-- The call after so many steps of the iterator. -/
def feed {σ κ : Type} (f : σ → Step σ) (take : κ → V → Act κ) (fin : κ → V) : Nat → σ → κ → Out
  | 0, _, _ => .running
  | n + 1, s, k => match f s with
    | .fin => .ret (fin k)
    | .panic => .panic
    | .busy s => feed f take fin n s k
    | .item v s => match take k v with
      | .more k => feed f take fin n s k
      | .ret w => .ret w
      | .panic => .panic

/-- After so many steps of `next` the call of the method is there. -/
def User.after (U : User) (I : It) (n : Nat) : Out := feed I.next U.take U.fin n I.s0 U.k0

/-- `fold`, and everything that is written with it: no item makes the method return. -/
def User.Folds (U : User) : Prop := ∀ k v w, U.take k v ≠ .ret w

/-- The methods that look at all items, `core::iter::Iterator`.  `sum`, `product` and `collect` leave
this to the type of the result: `Option` and `Result` stop at the first `None` or `Err`. -/
def folds (m : Name) (res : Res) : Bool :=
  match m with
  | .count | .fold | .forEach | .partition | .max | .maxBy | .maxByKey | .min | .minBy | .minByKey
  | .last => true
  | .sum | .product => res == .number
  | .collect => res == .collection
  | _ => false

/-- What an expression can return: a call of a method of `Iterator` that uses its receiver up. -/
inductive Returns (O : Ex → It → Prop) : Ex → V → Prop
  | folds {m d t r args I} (U : User) {n v} : folds m t = true → U.Folds → Den O r I →
      U.after I n = .ret v → Returns O (.call m true d t r args) v
  | other {m d t r args I} (U : User) {n v} : folds m t = false → Den O r I →
      U.after I n = .ret v → Returns O (.call m true d t r args) v
  /-- Another method with that name. -/
  | user {m d t r args v} : Returns O (.call m false d t r args) v

/-- An iterator that gives no item at all. -/
inductive NoItem {σ : Type} (f : σ → Step σ) : σ → Prop
  | fin {s} : f s = .fin → NoItem f s
  | busy {s t} : f s = .busy t → NoItem f t → NoItem f s

mutual

/-- The calls in an expression: those with the name of an adapter are calls of it, and the iterators
which are repeated with `cycle` have an item. -/
def Plain (O : Ex → It → Prop) : Ex → Prop
  | .call m std _ _ r args => (adapter m = true → std = true) ∧
      (m = .cycle → ∀ I, Den O r I → ¬ NoItem I.next I.s0) ∧ Plain O r ∧ PlainL O args
  | .block e => Plain O e
  | .addr e => Plain O e
  | _ => True

def PlainL (O : Ex → It → Prop) : Exs → Prop
  | .nil => True
  | .cons e es => Plain O e ∧ PlainL O es

end

/-- An iterator that stops: at its end, or with a panic. -/
inductive Halts {σ : Type} (f : σ → Step σ) : σ → Prop
  | fin {s} : f s = .fin → Halts f s
  | panic {s} : f s = .panic → Halts f s
  | busy {s t} : f s = .busy t → Halts f t → Halts f s
  | item {s v t} : f s = .item v t → Halts f t → Halts f s

/-- From both ends. -/
def It.Halts (I : It) : Prop := Endless.Halts I.next I.s0 ∧ ∀ f, I.back = some f → Endless.Halts f I.s0

mutual

/-- None of the methods that pass over items. -/
def NoSkips : Ex → Prop
  | .call m _ _ _ r args => m ≠ .filter ∧ m ≠ .filterMap ∧ m ≠ .flatMap ∧ m ≠ .skipWhile ∧
      NoSkips r ∧ NoSkipsL args
  | .block e => NoSkips e
  | .addr e => NoSkips e
  | _ => True

def NoSkipsL : Exs → Prop
  | .nil => True
  | .cons e es => NoSkips e ∧ NoSkipsL es

end

mutual

/-- None of the methods about which the table is wrong: `flat_map` is not finite if the closure makes
iterators that are not; the entries of `inspect`, `skip_while` and `peekable` have wrong numbers of
arguments; `zip` does not end with one of its iterators if the other passes over all items. -/
def InTable : Ex → Prop
  | .call m _ _ _ r args => m ≠ .inspect ∧ m ≠ .skipWhile ∧ m ≠ .peekable ∧ m ≠ .flatMap ∧
      (m = .zip → NoSkips r ∧ NoSkipsL args) ∧ InTable r ∧ InTableL args
  | .block e => InTable e
  | .addr e => InTable e
  | _ => True

def InTableL : Exs → Prop
  | .nil => True
  | .cons e es => InTable e ∧ InTableL es

end

end Verif.Endless
