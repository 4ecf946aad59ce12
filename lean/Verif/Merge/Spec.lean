/-!
# Specification: `filter` followed by `map`, and what may replace it

The items of an iterator go through two closures (`filter`, `map`) or one (`filter_map`). Closures are
evaluated in a world that they can change, and may panic (`none`). References are not distinguished
from what they refer to.
-/

namespace Verif.Merge

inductive V
  | prim (n : Nat)
  | bool (b : Bool)
  | none'
  | some' (v : V)
  | ok (v : V)
  | err (v : V)
  /-- A variant `k` with one field (of any type of the program). -/
  | con (k : Nat) (v : V)
  deriving DecidableEq, Repr

inductive P
  | wild
  /-- A new variable. -/
  | bind
  /-- `v @ p` -/
  | at' (p : P)
  | lit (n : Nat)
  /-- `K(p)` -/
  | con (k : Nat) (p : P)
  deriving DecidableEq, Repr

/-- Names of methods. -/
inductive Nm
  | isSome | isOk | unwrap | other
  deriving DecidableEq, Repr

/-- Bodies of closures with one parameter. -/
inductive E
  /-- The parameter. -/
  | var
  /-- The variable that is bound by the pattern around. -/
  | bound
  /-- Another variable or a constant. -/
  | const (k : Nat)
  /-- `*a` -/
  | deref (a : E)
  /-- `a.k` -/
  | field (k : Nat) (a : E)
  /-- A call of a function or method on `a`. -/
  | opq (k : Nat) (a : E)
  /-- `a.clone()`, `a.as_ref()` and so on, of an option or a result. -/
  | keep (k : Nat) (a : E)
  | isSome (a : E)
  | isOk (a : E)
  | unwrap (a : E)
  | expect (a msg : E)
  | unwrapOr (a d : E)
  | okOf (a : E)
  | mkSome (a : E)
  | mkNone
  | yes
  | no
  /-- `panic!()`, `unreachable!()` -/
  | panic
  /-- `match a { p if g => b, _ => c }` -/
  | sel (a : E) (p : P) (g b c : E)
  deriving DecidableEq, Repr

/-- The rest of the program. -/
structure Sem where
  W : Type
  const : Nat → V
  field : Nat → V → V
  opq : Nat → V → W → Option V × W
  /-- Cloning (and so on) the value inside. -/
  keep : Nat → V → W → Option V × W
  /-- Methods of the types of the program. -/
  meth : Nm → V → W → Option V × W
  /-- Functions of the program. -/
  user : Nat → V → W → Option V × W
  /-- The consumer of the iterator: whether it wants more. -/
  more : V → W → Bool × W
  /-- Iterating over an item of a type of the program: at most one value. -/
  iter : V → Option V

/-- The value that is bound if a pattern matches: `none` if it does not match. -/
def P.matches : P → V → Bool
  | .wild, _ => true
  | .bind, _ => true
  | .at' p, v => p.matches v
  | .lit n, v => v == .prim n
  | .con k p, .con k' v => k == k' && p.matches v
  | .con _ _, _ => false

/-- The value of the variable of a pattern (the last one). -/
def P.value : P → V → V → V
  | .bind, v, _ => v
  | .at' _, v, _ => v
  | .con _ p, .con _ v, d => p.value v d
  | _, _, d => d

def andThen {W : Type} (r : Option V × W) (f : V → W → Option V × W) : Option V × W :=
  match r with
  | (none, w) => (none, w)
  | (some v, w) => f v w

def keepV (I : Sem) (k : Nat) (v : V) (w : I.W) : Option V × I.W :=
  match v with
  | .some' a => andThen (I.keep k a w) (fun a' w => (some (.some' a'), w))
  | .ok a => andThen (I.keep k a w) (fun a' w => (some (.ok a'), w))
  | .err a => andThen (I.keep k a w) (fun a' w => (some (.err a'), w))
  | .none' => (some .none', w)
  | v => I.keep k v w

def isSomeV (I : Sem) (v : V) (w : I.W) : Option V × I.W :=
  match v with
  | .some' _ => (some (.bool true), w)
  | .none' => (some (.bool false), w)
  | v => I.meth .isSome v w

def isOkV (I : Sem) (v : V) (w : I.W) : Option V × I.W :=
  match v with
  | .ok _ => (some (.bool true), w)
  | .err _ => (some (.bool false), w)
  | v => I.meth .isOk v w

def unwrapV (I : Sem) (v : V) (w : I.W) : Option V × I.W :=
  match v with
  | .some' a => (some a, w)
  | .ok a => (some a, w)
  | .none' => (none, w)
  | .err _ => (none, w)
  | v => I.meth .unwrap v w

def unwrapOrV (v d : V) : V :=
  match v with
  | .some' a => a
  | .ok a => a
  | _ => d

def okV (v : V) : V :=
  match v with
  | .ok a => .some' a
  | _ => .none'

/-- Evaluation: `x` is the parameter, `y` the variable of the pattern around. -/
def eval (I : Sem) : E → V → V → I.W → Option V × I.W
  | .var, x, _, w => (some x, w)
  | .bound, _, y, w => (some y, w)
  | .const k, _, _, w => (some (I.const k), w)
  | .deref a, x, y, w => eval I a x y w
  | .field k a, x, y, w => andThen (eval I a x y w) (fun v w => (some (I.field k v), w))
  | .opq k a, x, y, w => andThen (eval I a x y w) (I.opq k)
  | .keep k a, x, y, w => andThen (eval I a x y w) (keepV I k)
  | .isSome a, x, y, w => andThen (eval I a x y w) (isSomeV I)
  | .isOk a, x, y, w => andThen (eval I a x y w) (isOkV I)
  | .unwrap a, x, y, w => andThen (eval I a x y w) (unwrapV I)
  | .expect a m, x, y, w => andThen (eval I a x y w) (fun v w => andThen (eval I m x y w) (fun _ w => unwrapV I v w))
  | .unwrapOr a d, x, y, w =>
      andThen (eval I a x y w) (fun v w => andThen (eval I d x y w) (fun d w => (some (unwrapOrV v d), w)))
  | .okOf a, x, y, w => andThen (eval I a x y w) (fun v w => (some (okV v), w))
  | .mkSome a, x, y, w => andThen (eval I a x y w) (fun v w => (some (.some' v), w))
  | .mkNone, _, _, w => (some .none', w)
  | .yes, _, _, w => (some (.bool true), w)
  | .no, _, _, w => (some (.bool false), w)
  | .panic, _, _, w => (none, w)
  | .sel a p g b c, x, y, w =>
      andThen (eval I a x y w) (fun v w =>
        if p.matches v then
          andThen (eval I g x (p.value v y) w) (fun t w =>
            if t = .bool true then eval I b x (p.value v y) w else eval I c x y w)
        else eval I c x y w)

/-- What becomes of an item. -/
inductive Step
  | skip
  | give (v : V)
  | panic
  deriving DecidableEq, Repr

/-- A function that is passed to an adaptor. -/
abbrev Fn (I : Sem) := V → I.W → Option V × I.W

/-- Arguments of `filter` and `map`. -/
inductive Fun
  /-- A path whose last part is this name: `Option::is_some` (`own`), or a function `k` of the program. -/
  | path (own : Bool) (k : Nat) (n : Nm)
  /-- A call of a method with this name, that gives a function `k`. -/
  | made (k : Nat) (n : Nm)
  /-- A closure; the parameter is a plain variable or `&x` (`isRef`). -/
  | closure (isRef : Bool) (body : E)
  deriving DecidableEq, Repr

/-- What a function does. -/
def call (I : Sem) : Fun → Fn I
  | .path true _ .isSome, x, w => isSomeV I x w
  | .path true _ .isOk, x, w => isOkV I x w
  | .path true _ .unwrap, x, w => unwrapV I x w
  | .path true _ .other, x, w => I.meth .other x w
  | .path false k _, x, w => I.user k x w
  | .made k _, x, w => I.user k x w
  | .closure _ e, x, w => eval I e x (.prim 0) w

/-- `.filter(p).map(q)` for one item. -/
def two (I : Sem) (p q : Fn I) (x : V) (w : I.W) : Step × I.W :=
  match p x w with
  | (some (.bool true), w') =>
    match q x w' with
    | (some v, w'') => (.give v, w'')
    | (none, w'') => (.panic, w'')
  | (some _, w') => (.skip, w')
  | (none, w') => (.panic, w')

/-- `.filter_map(f)` for one item. -/
def one (I : Sem) (f : Fn I) (x : V) (w : I.W) : Step × I.W :=
  match f x w with
  | (some (.some' v), w') => (.give v, w')
  | (some _, w') => (.skip, w')
  | (none, w') => (.panic, w')

/-- `.flatten()` for one item. -/
def flat (I : Sem) (x : V) (w : I.W) : Step × I.W :=
  match x with
  | .some' v => (.give v, w)
  | .ok v => (.give v, w)
  | .none' => (.skip, w)
  | .err _ => (.skip, w)
  | x => match I.iter x with
    | some v => (.give v, w)
    | none => (.skip, w)

/-- All items, until the consumer has enough (for `find` it is the first one): whether it ended well, what was
consumed, the world. -/
def run (I : Sem) (step : V → I.W → Step × I.W) : List V → I.W → Bool × List V × I.W
  | [], w => (true, [], w)
  | x :: l, w =>
    match step x w with
    | (.skip, w') => run I step l w'
    | (.panic, w') => (false, [], w')
    | (.give v, w') =>
      match I.more v w' with
      | (false, w'') => (true, [v], w'')
      | (true, w'') => let r := run I step l w''; (r.1, v :: r.2.1, r.2.2)

end Verif.Merge
