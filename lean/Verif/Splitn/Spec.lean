import Verif.Splitn.Syntax

/-!
# Spec: splitting strings, as in the standard library
-/

namespace Verif.Splitn

abbrev Str := List Nat

/-- A pattern that looks for its next match in a string, from the front or from the back; `σ` is its state and that of the
world. -/
structure Searcher (σ : Type) where
  fwd : σ → Option (Nat × Nat) × σ
  bwd : σ → Option (Nat × Nat) × σ

/-- The iterators; `left` is the number of pieces still to come, if it is limited. -/
structure Iter where
  rev : Bool
  left : Option Nat
  start : Nat
  stop : Nat
  finished : Bool
  deriving DecidableEq, Repr

/-- `&s[a..b]` -/
def slice (s : Str) (a b : Nat) : Str := (s.take b).drop a

/-- Values of expressions. -/
inductive Val where
  /-- an iterator, below `skip` -/
  | iter (skip : Nat) (it : Iter)
  | opt (o : Option Str)
  | str (s : Str)
  | optTup (o : Option (List Str))
  | tup (t : List Str)
  /-- other values -/
  | misc (n : Nat)
  deriving DecidableEq, Repr

/-- Expressions have a value, panic or leave the function. -/
inductive Flow where
  | val (v : Val)
  | panic
  | ret
  deriving DecidableEq, Repr

section
variable {σ : Type} (S : Searcher σ) (hay : Str)

/-- The rest of the string, once. -/
def Iter.end_ (it : Iter) : Option Str × Iter :=
  if it.finished then (none, it) else (some (slice hay it.start it.stop), { it with finished := true })

/-- `next` of `Split` and `RSplit`. -/
def Iter.piece (it : Iter) (w : σ) : Option Str × Iter × σ :=
  if it.finished then (none, it, w)
  else if it.rev then
    match S.bwd w with
    | (some (a, b), w') => (some (slice hay b it.stop), { it with stop := a }, w')
    | (none, w') => ((it.end_ hay).1, (it.end_ hay).2, w')
  else
    match S.fwd w with
    | (some (a, b), w') => (some (slice hay it.start a), { it with start := b }, w')
    | (none, w') => ((it.end_ hay).1, (it.end_ hay).2, w')

/-- `next` of all of them. -/
def Iter.next (it : Iter) (w : σ) : Option Str × Iter × σ :=
  match it.left with
  | none => it.piece S hay w
  | some 0 => (none, it, w)
  | some 1 => ((Iter.end_ hay { it with left := some 0 }).1, (Iter.end_ hay { it with left := some 0 }).2, w)
  | some (n + 2) => Iter.piece S hay { it with left := some (n + 1) } w

/-- `nth` -/
def Iter.nth : Nat → Iter → σ → Option Str × Iter × σ
  | 0, it, w => it.next S hay w
  | k + 1, it, w =>
    match it.next S hay w with
    | (some _, it', w') => Iter.nth k it' w'
    | (none, it', w') => (none, it', w')

/-- `next_tuple` -/
def Iter.tuple : Nat → Iter → σ → Option (List Str) × Iter × σ
  | 0, it, w => (some [], it, w)
  | n + 1, it, w =>
    match it.next S hay w with
    | (some x, it', w') =>
      match Iter.tuple n it' w' with
      | (some xs, it'', w'') => (some (x :: xs), it'', w'')
      | (none, it'', w'') => (none, it'', w'')
    | (none, it', w') => (none, it', w')

/-- `split_once`, `rsplit_once` -/
def once (r : Option (Nat × Nat) × σ) : Flow × σ :=
  (.val (.optTup (r.1.map fun m => [slice hay 0 m.1, slice hay m.2 hay.length])), r.2)

/-- The first call. -/
def Base.eval (b : Base) (w : σ) : Flow × σ :=
  match b with
  | .splitn n => (.val (.iter 0 ⟨false, some n, 0, hay.length, false⟩), w)
  | .rsplitn n => (.val (.iter 0 ⟨true, some n, 0, hay.length, false⟩), w)
  | .split => (.val (.iter 0 ⟨false, none, 0, hay.length, false⟩), w)
  | .rsplit => (.val (.iter 0 ⟨true, none, 0, hay.length, false⟩), w)
  | .splitOnce => once hay (S.fwd w)
  | .rsplitOnce => once hay (S.bwd w)

variable (I : Nat → Val → σ → Flow × σ)

/-- One call. -/
def Node.eval (n : Node) (v : Val) (w : σ) : Flow × σ :=
  match n, v with
  | .next, .iter k it => let r := it.nth S hay k w; (.val (.opt r.1), r.2.2)
  | .nth k, .iter 0 it => let r := it.nth S hay k w; (.val (.opt r.1), r.2.2)
  | .skip k, .iter 0 it => (.val (.iter k it), w)
  | .tuple n, .iter 0 it => let r := it.tuple S hay n w; (.val (.optTup r.1), r.2.2)
  | .unwrap, .opt (some s) => (.val (.str s), w)
  | .unwrap, .optTup (some t) => (.val (.tup t), w)
  | .unwrap, _ => (.panic, w)
  | .try_, .opt (some s) => (.val (.str s), w)
  | .try_, .optTup (some t) => (.val (.tup t), w)
  | .try_, _ => (.ret, w)
  | .field i, .tup t => (.val (.str (t.getD i [])), w)
  | .mapField i, .optTup o => (.val (.opt (o.map fun t => t.getD i [])), w)
  | .mapSwap, .optTup o => (.val (.optTup (o.map List.reverse)), w)
  | .other tag, v => I tag v w
  | _, _ => (.val (.misc 0), w)

def evalNodes : List Node → Flow × σ → Flow × σ
  | n :: ns, (.val v, w) => evalNodes ns (n.eval S hay I v w)
  | _, r => r

def Chain.eval (c : Chain) (w : σ) : Flow × σ := evalNodes S hay I c.nodes (c.base.eval S hay w)

abbrev Env := Name → Val

/-- What remains of a variable after a call on it. -/
def after (n : Option Node) (v : Val) (w : σ) : Val :=
  match n, v with
  | some .next, .iter k it => .iter 0 (it.nth S hay k w).2.1
  | some (.nth k), .iter 0 it => .iter 0 (it.nth S hay k w).2.1
  | some (.tuple n), .iter 0 it => .iter 0 (it.tuple S hay n w).2.1
  | _, v => v

def Env.set (E : Env) (x : Name) (v : Val) : Env := fun y => if y = x then v else E y

/-- Several new values. -/
def Env.setAll (E : Env) : List Name → List Val → Env
  | [], _ => E
  | x :: xs, [] => (E.set x (.misc 0)).setAll xs []
  | x :: xs, v :: vs => (E.set x v).setAll xs vs

variable (J : Nat → List Val → σ → Except Flow (List Val) × σ)

/-- One statement. -/
def Stmt.run (s : Stmt) (E : Env) (w : σ) : Except Flow Env × σ :=
  match s with
  | .use x _ r ps =>
    match evalNodes S hay I (ps.map Parent.node) (.val (E r), w) with
    | (.val v, w') => (.ok ((E.set r (after S hay (ps.map Parent.node).head? (E r) w)).set x v), w')
    | (f, w') => (.error f, w')
  | .code tag us bs =>
    match J tag (us.map E) w with
    | (.ok vs, w') => (.ok (E.setAll bs vs), w')
    | (.error f, w') => (.error f, w')
  | .pair a b c =>
    match c.eval S hay I w with
    | (.val (.tup [x, y]), w') => (.ok ((E.set a (.str x)).set b (.str y)), w')
    | (.val _, w') => (.error .panic, w')
    | (f, w') => (.error f, w')

/-- Statements up to the end of the block. -/
def runStmts : List Stmt → Env → σ → Flow × σ
  | [], _, w => (.val (.misc 0), w)
  | s :: ss, E, w =>
    match s.run S hay I J E w with
    | (.ok E', w') => runStmts ss E' w'
    | (.error f, w') => (f, w')

/-- `let mut it = s.splitn(..); ..` -/
def runLet (b : Base) (it : Name) (ss : List Stmt) (E : Env) (w : σ) : Flow × σ :=
  match b.eval S hay w with
  | (.val v, w') => runStmts S hay I J ss (E.set it v) w'
  | r => r
end

/-- The first statement does not consume the iterator, as the compiler guarantees. -/
def Kept : List Stmt → Prop
  | .use _ _ _ ps :: _ => ∀ k, (ps.map Parent.node).head? ≠ some (.skip k)
  | _ => True

end Verif.Splitn
