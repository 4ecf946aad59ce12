/-!
# Specification: iterators with closures that have effects

An iterator is a sequence of items that are made on demand; whoever consumes it is asked after each item
whether to go on.  Making items, the closures and the consumer all read and change the state of the
program, and may panic.
-/

namespace Verif.Sift

inductive V
  | prim (n : Nat)
  | unit
  | none'
  | some' (v : V)
  deriving DecidableEq, Repr

/-- Bodies of closures with one parameter. -/
inductive E
  /-- The parameter. -/
  | param
  /-- Another variable or a constant. -/
  | path (k : Nat)
  /-- Any other expression of the program. -/
  | opq (k : Nat)
  | none'
  | some' (a : E)
  /-- `c.then_some(a)` -/
  | thenSome (c a : E)
  /-- `c.then(|| b)` -/
  | thenDo (c b : E)
  | ite (c a b : E)
  /-- A `match`; the arms are `acons` and `anil`. -/
  | mtch (s arms : E)
  | anil
  | acons (a rest : E)
  /-- `{ a; b }` -/
  | seq (a b : E)
  /-- `{ a; }` -/
  | stmt (a : E)
  /-- `'l: { e }` -/
  | lab (l : Nat) (e : E)
  /-- `break 'l e` -/
  | brk (l : Nat) (e : E)
  | ret (e : E)
  /-- The parameter is assigned. -/
  | set (e : E)
  deriving DecidableEq, Repr

inductive Out
  | val (v : V)
  | ret (v : V)
  | brk (l : Nat) (v : V)
  | panic
  /-- Does not happen in programs that are accepted. -/
  | stuck
  deriving DecidableEq, Repr

/-- The rest of the program. -/
structure Sem where
  W : Type
  path : Nat → V
  /-- `none`: a panic. -/
  opq : Nat → V → W → Option V × W
  truth : V → Bool
  /-- Which arm is taken. -/
  pick : V → Nat
  /-- The items of the iterator. -/
  item : Nat → W → V × W

/-- Go on with the value, or end. -/
def andThen {I : Sem} (r : Out × V × I.W) (k : V → V → I.W → Out × V × I.W) : Out × V × I.W :=
  match r.1 with
  | .val v => k v r.2.1 r.2.2
  | _ => r

/-- The result of the closure of `then`. -/
def ofThen {I : Sem} (r : Out × V × I.W) : Out × V × I.W :=
  match r.1 with
  | .val v => (.val (.some' v), r.2)
  | .ret v => (.val (.some' v), r.2)
  | _ => r

/-- The result of a labelled block. -/
def ofLabel {I : Sem} (l : Nat) (r : Out × V × I.W) : Out × V × I.W :=
  match r.1 with
  | .brk l' v => if l = l' then (.val v, r.2) else r
  | _ => r

mutual
/-- Evaluation with the value `p` of the parameter. -/
def ev (I : Sem) : E → V → I.W → Out × V × I.W
  | .param, p, w => (.val p, p, w)
  | .path k, p, w => (.val (I.path k), p, w)
  | .opq k, p, w =>
    match (I.opq k p w).1 with
    | none => (.panic, p, (I.opq k p w).2)
    | some v => (.val v, p, (I.opq k p w).2)
  | .none', p, w => (.val .none', p, w)
  | .some' a, p, w => andThen (ev I a p w) fun v p w => (.val (.some' v), p, w)
  | .thenSome c a, p, w =>
    andThen (ev I c p w) fun b p w => andThen (ev I a p w) fun v p w =>
      (.val (if I.truth b then .some' v else .none'), p, w)
  | .thenDo c b, p, w =>
    andThen (ev I c p w) fun t p w => if I.truth t then ofThen (ev I b p w) else (.val .none', p, w)
  | .ite c a b, p, w => andThen (ev I c p w) fun t p w => if I.truth t then ev I a p w else ev I b p w
  | .mtch s arms, p, w => andThen (ev I s p w) fun v p w => evArms I arms (I.pick v) p w
  | .anil, p, w => (.stuck, p, w)
  | .acons _ _, p, w => (.stuck, p, w)
  | .seq a b, p, w => andThen (ev I a p w) fun _ p w => ev I b p w
  | .stmt a, p, w => andThen (ev I a p w) fun _ p w => (.val .unit, p, w)
  | .lab l e, p, w => ofLabel l (ev I e p w)
  | .brk l e, p, w => andThen (ev I e p w) fun v p w => (.brk l v, p, w)
  | .ret e, p, w => andThen (ev I e p w) fun v p w => (.ret v, p, w)
  | .set e, p, w => andThen (ev I e p w) fun v _ w => (.val .unit, v, w)
def evArms (I : Sem) : E → Nat → V → I.W → Out × V × I.W
  | .acons a _, 0, p, w => ev I a p w
  | .acons _ rest, n + 1, p, w => evArms I rest n p w
  | _, _, p, w => (.stuck, p, w)
end

/-- What a closure that returns an `Option` gives. -/
inductive Res
  | yes (v : V)
  | no
  | panic
  deriving DecidableEq, Repr

/-- Calling the closure with an item. What cannot happen in accepted programs counts as a panic. -/
def callOpt (I : Sem) (body : E) (v : V) (w : I.W) : Res × I.W :=
  match ev I body v w with
  | (.val .none', _, w') => (.no, w')
  | (.val (.some' u), _, w') => (.yes u, w')
  | (.ret .none', _, w') => (.no, w')
  | (.ret (.some' u), _, w') => (.yes u, w')
  | (_, _, w') => (.panic, w')

/-- Calling a closure that returns a value. -/
def callVal (I : Sem) (body : E) (v : V) (w : I.W) : Option V × I.W :=
  match ev I body v w with
  | (.val u, _, w') => (some u, w')
  | (.ret u, _, w') => (some u, w')
  | (_, _, w') => (none, w')

/-- The consumer asks for more, has enough, or panicked. -/
inductive Step | more | enough | panic
  deriving DecidableEq, Repr

/-- Consume the items. -/
def run (I : Sem) (k : V → I.W → Step × I.W) : List Nat → I.W → Step × I.W
  | [], w => (.more, w)
  | i :: is, w =>
    match k (I.item i w).1 (I.item i w).2 with
    | (.more, w') => run I k is w'
    | r => r

abbrev Consumer (I : Sem) := V → I.W → Step × I.W

def filterMap {I : Sem} (f : V → I.W → Res × I.W) (k : Consumer I) : Consumer I := fun v w =>
  match f v w with
  | (.yes u, w') => k u w'
  | (.no, w') => (.more, w')
  | (.panic, w') => (.panic, w')

def map {I : Sem} (f : V → I.W → Option V × I.W) (k : Consumer I) : Consumer I := fun v w =>
  match f v w with
  | (some u, w') => k u w'
  | (none, w') => (.panic, w')

/-- The predicate gives `none` when it panics. -/
def filter {I : Sem} (f : V → I.W → Option Bool × I.W) (k : Consumer I) : Consumer I := fun v w =>
  match f v w with
  | (some true, w') => k v w'
  | (some false, w') => (.more, w')
  | (none, w') => (.panic, w')

/-- Calling a closure that returns a `bool`. -/
def callBool (I : Sem) (body : E) (v : V) (w : I.W) : Option Bool × I.W :=
  ((callVal I body v w).1.map I.truth, (callVal I body v w).2)

/-- `filter_map` with the closure can be written with `map`: for every iterator and every consumer. -/
def OnlyMaps (body : E) : Prop :=
  ∀ I : Sem, ∃ g : V → I.W → Option V × I.W,
    ∀ (k : Consumer I) is w, run I (filterMap (callOpt I body) k) is w = run I (map g k) is w

/-- `filter_map` with the closure can be written with `filter`. -/
def OnlyFilters (body : E) : Prop :=
  ∀ I : Sem, ∃ g : V → I.W → Option Bool × I.W,
    ∀ (k : Consumer I) is w, run I (filterMap (callOpt I body) k) is w = run I (filter g k) is w

/-- `filter_map` with the closure can be left out. -/
def DoesNothing (body : E) : Prop :=
  ∀ (I : Sem) (k : Consumer I) is w, run I (filterMap (callOpt I body) k) is w = run I k is w

/-- Some part of the expression is of the kind `q`; `inner`: also within the closures of `then`. -/
def Has (q : E → Prop) (inner : Bool) : E → Prop
  | .some' a => q (.some' a) ∨ Has q inner a
  | .thenSome c a => q (.thenSome c a) ∨ Has q inner c ∨ Has q inner a
  | .thenDo c b => q (.thenDo c b) ∨ Has q inner c ∨ (inner = true ∧ Has q inner b)
  | .ite c a b => q (.ite c a b) ∨ Has q inner c ∨ Has q inner a ∨ Has q inner b
  | .mtch s a => q (.mtch s a) ∨ Has q inner s ∨ Has q inner a
  | .acons a r => q (.acons a r) ∨ Has q inner a ∨ Has q inner r
  | .seq a b => q (.seq a b) ∨ Has q inner a ∨ Has q inner b
  | .stmt a => q (.stmt a) ∨ Has q inner a
  | .lab l e => q (.lab l e) ∨ Has q inner e
  | .brk l e => q (.brk l e) ∨ Has q inner e
  | .ret e => q (.ret e) ∨ Has q inner e
  | .set e => q (.set e) ∨ Has q inner e
  | e => q e

def IsLabel (e : E) : Prop := ∃ l b, e = .lab l b
def IsReturn (e : E) : Prop := ∃ b, e = .ret b
def IsSet (e : E) : Prop := ∃ b, e = .set b

/-- There are no labelled blocks. -/
def NoLabels (e : E) : Prop := ¬ Has IsLabel false e

/-- There is no `return` in what is returned. -/
def NoReturnInReturn (e : E) : Prop := ¬ Has (fun r => ∃ b, r = .ret b ∧ Has IsReturn false b) false e

/-- The parameter is never assigned. -/
def NeverSet (e : E) : Prop := ¬ Has IsSet true e

/-! ## Searches -/

inductive Search | find | position | rposition
  deriving DecidableEq, Repr

/-- Some item satisfies the predicate (`none`: panic): the items are made and tested in order. -/
def anyOf {I : Sem} (f : V → I.W → Option Bool × I.W) : List Nat → I.W → Option Bool × I.W
  | [], w => (some false, w)
  | i :: is, w =>
    match f (I.item i w).1 (I.item i w).2 with
    | (some true, w') => (some true, w')
    | (some false, w') => anyOf f is w'
    | (none, w') => (none, w')

/-- The first item that satisfies the predicate. -/
def findFirst {I : Sem} (f : V → I.W → Option Bool × I.W) : List Nat → I.W → Option (Option V) × I.W
  | [], w => (some none, w)
  | i :: is, w =>
    match f (I.item i w).1 (I.item i w).2 with
    | (some true, w') => (some (some (I.item i w).1), w')
    | (some false, w') => findFirst f is w'
    | (none, w') => (none, w')

/-- The index of the first item that satisfies the predicate. -/
def indexFrom {I : Sem} (f : V → I.W → Option Bool × I.W) : Nat → List Nat → I.W → Option (Option Nat) × I.W
  | _, [], w => (some none, w)
  | n, i :: is, w =>
    match f (I.item i w).1 (I.item i w).2 with
    | (some true, w') => (some (some n), w')
    | (some false, w') => indexFrom f (n + 1) is w'
    | (none, w') => (none, w')

/-- `search(f).is_some()`; `rposition` makes and tests the items from the end. -/
def searched {I : Sem} (s : Search) (f : V → I.W → Option Bool × I.W) (is : List Nat) (w : I.W) :
    Option Bool × I.W :=
  match s with
  | .find => ((findFirst f is w).1.map Option.isSome, (findFirst f is w).2)
  | .position => ((indexFrom f 0 is w).1.map Option.isSome, (indexFrom f 0 is w).2)
  | .rposition => ((indexFrom f 0 is.reverse w).1.map Option.isSome, (indexFrom f 0 is.reverse w).2)

end Verif.Sift
