/-!
# Chains of methods on options

Parts of programs run in a world that they may change. They end with a value, or leave the function (or closure) they are in with `return`.
-/

namespace Verif.Chains

/-- The end of a part of a program. -/
inductive Out (X V : Type)
  | val (x : X)
  | ret (v : V)
deriving DecidableEq, Repr

/-- What the parts do: pieces of code, functions without argument, functions with one argument, conditions, expressions for options or results,
expressions for options that may use a variable, and the default value. Functions give the same type of values as the code, so that a `return`
in a closure makes sense outside of it, too. -/
structure Sem (W V : Type) where
  code : Nat → W → Out V V × W
  fn0 : Nat → W → V × W
  fn1 : Nat → V → W → V × W
  cond : Nat → W → Bool × W
  opt : Nat → W → Option V × W
  optOf : Nat → V → W → Option V × W
  dflt : V

variable {W V X Y : Type}

/-- One part after the other. -/
def andThen (a : Out X V × W) (f : X → W → Out Y V × W) : Out Y V × W :=
  match a with
  | (.val x, w) => f x w
  | (.ret v, w) => (.ret v, w)

/-- A call of a closure: `return` ends only the closure. -/
def callClosure (a : Out V V × W) : Out V V × W :=
  match a with
  | (.val x, w) => (.val x, w)
  | (.ret v, w) => (.val v, w)

/-! ## `c.then(..).unwrap_or(..)` -/

/-- `then_some(code)`, `then(|| code)`, `then(f)`. -/
inductive Then
  | value (k : Nat)
  | closure (k : Nat)
  | path (k : Nat)
deriving DecidableEq, Repr

/-- `unwrap_or(code)`, `unwrap_or_else(|| code)`, `unwrap_or_else(f)` with a path or another expression, `unwrap_or_default()`. -/
inductive Unwrap
  | or (k : Nat)
  | orElse (k : Nat)
  | orElsePath (k : Nat)
  | orElseOther (k : Nat)
  | orDefault
deriving DecidableEq, Repr

/-- `c.then(..)`. -/
def Then.run (M : Sem W V) (c : Bool) (w : W) : Then → Out (Option V) V × W
  | .value k => andThen (M.code k w) fun x w => (.val (if c then some x else none), w)
  | .closure k => if c then andThen (callClosure (M.code k w)) fun x w => (.val (some x), w) else (.val none, w)
  | .path k => if c then (.val (some (M.fn0 k w).1), (M.fn0 k w).2) else (.val none, w)

/-- `o.unwrap_or(..)`. -/
def Unwrap.run (M : Sem W V) (o : Option V) (w : W) : Unwrap → Out V V × W
  | .or k => andThen (M.code k w) fun y w => (.val (o.getD y), w)
  | .orElse k => match o with | some x => (.val x, w) | none => callClosure (M.code k w)
  | .orElsePath k | .orElseOther k => match o with | some x => (.val x, w) | none => (.val (M.fn0 k w).1, (M.fn0 k w).2)
  | .orDefault => (.val (o.getD M.dflt), w)

/-- The chain. -/
def runChain (M : Sem W V) (c : Nat) (t : Then) (u : Unwrap) (w : W) : Out V V × W :=
  andThen (t.run M (M.cond c w).1 (M.cond c w).2) fun o w => u.run M o w

/-- Blocks of an `if`: code, a call of a function, `Default::default()`. -/
inductive Block
  | code (k : Nat)
  | call (k : Nat)
  | dflt
deriving DecidableEq, Repr

/-- A block runs. -/
def Block.run (M : Sem W V) (w : W) : Block → Out V V × W
  | .code k => M.code k w
  | .call k => (.val (M.fn0 k w).1, (M.fn0 k w).2)
  | .dflt => (.val M.dflt, w)

/-- `if c { a } else { b }`. -/
def runIf (M : Sem W V) (c : Nat) (a b : Block) (w : W) : Out V V × W :=
  if (M.cond c w).1 then a.run M (M.cond c w).2 else b.run M (M.cond c w).2

/-! ## `r.map(f).unwrap_or(a)` -/

/-- The default: code, `None` or `false`. -/
inductive Dflt (V : Type)
  | code (k : Nat)
  | none (v : V)
  | false (v : V)
deriving DecidableEq, Repr

/-- The value of the default. -/
def Dflt.run (M : Sem W V) (w : W) : Dflt V → Out V V × W
  | .code k => M.code k w
  | .none v => (.val v, w)
  | .false v => (.val v, w)

/-- `o.map(f)`. -/
def mapOpt (M : Sem W V) (f : Nat) (o : Option V) (w : W) : Option V × W :=
  match o with
  | some x => (some (M.fn1 f x w).1, (M.fn1 f x w).2)
  | none => (none, w)

/-- `r.map(f).unwrap_or(a)`. -/
def runMapUnwrap (M : Sem W V) (r f : Nat) (a : Dflt V) (w : W) : Out V V × W :=
  let p := M.opt r w
  let q := mapOpt M f p.1 p.2
  andThen (a.run M q.2) fun d w => (.val (q.1.getD d), w)

/-- Methods that take the default first, or know it. -/
inductive MapOr (V : Type)
  | mapOr (a : Dflt V)
  | andThen (none : V)
  | isVariantAnd (false : V)
deriving DecidableEq, Repr

/-- `r.map_or(a, f)`, `r.and_then(f)`, `r.is_some_and(f)`. -/
def runMapOr (M : Sem W V) (r f : Nat) (m : MapOr V) (w : W) : Out V V × W :=
  let p := M.opt r w
  match m with
  | .mapOr a => Chains.andThen (a.run M p.2) fun d w => (.val ((mapOpt M f p.1 w).1.getD d), (mapOpt M f p.1 w).2)
  | .andThen d | .isVariantAnd d => (.val ((mapOpt M f p.1 p.2).1.getD d), (mapOpt M f p.1 p.2).2)

/-! ## `a.and_then(|a| b.map(|b| (a, b)))` -/

/-- The parts of the pair. -/
inductive Part
  | outer | inner | other (k : Nat)
deriving DecidableEq, Repr

/-- The value of a part. -/
def Part.val (M : Sem W V) (a b : V) (w : W) : Part → V × W
  | .outer => (a, w)
  | .inner => (b, w)
  | .other k => M.fn0 k w

/-- `r.and_then(|a| b.map(|b| (x, y)))`. -/
def runNested (M : Sem W V) (r b : Nat) (x y : Part) (w : W) : Option (V × V) × W :=
  let p := M.opt r w
  match p.1 with
  | none => (none, p.2)
  | some a =>
    let q := M.optOf b a p.2
    match q.1 with
    | none => (none, q.2)
    | some c =>
      let v := x.val M a c q.2
      let u := y.val M a c v.2
      (some (v.1, u.1), u.2)

/-- `zip` of two options. -/
def zipOpt : Option V → Option V → Option (V × V)
  | some a, some b => some (a, b)
  | _, _ => none

/-- `r.zip(b)`, or `b.zip(r)`; where `b` doesn't use the variable, `any` is as good as every value. -/
def runZip (M : Sem W V) (r b : Nat) (any : V) (swapped : Bool) (w : W) : Option (V × V) × W :=
  if swapped then
    let q := M.optOf b any w
    let p := M.opt r q.2
    (zipOpt q.1 p.1, p.2)
  else
    let p := M.opt r w
    let q := M.optOf b any p.2
    (zipOpt p.1 q.1, q.2)

/-! ## `match o { Some(x) => f(x), None => d }` -/

/-- Patterns of arms: `Some(x)` or `Ok(x)`, `None` or `Err(_)`, `_`, others like `Some(0)`. -/
inductive Pat
  | good | bad | wild | other (k : Nat)
deriving DecidableEq, Repr

/-- Bodies without `return`: code with the variable, code that doesn't use it, or a call of a function without arguments. -/
inductive Body
  | withVar (f : Nat)
  | plain (k : Nat)
  | call (k : Nat)
deriving DecidableEq, Repr

/-- Does the pattern match? -/
def Pat.fits (other : Nat → V → Bool) (o : Option V) : Pat → Bool
  | .good => o.isSome
  | .bad => o.isNone
  | .wild => true
  | .other k => match o with | some x => other k x | none => false

/-- A body runs. -/
def Body.run (M : Sem W V) (o : Option V) (w : W) : Body → Out V V × W
  | .withVar f => match o with | some x => (.val (M.fn1 f x w).1, (M.fn1 f x w).2) | none => (.val M.dflt, w)
  | .plain k => M.code k w
  | .call k => (.val (M.fn0 k w).1, (M.fn0 k w).2)

/-- A match of two arms that has one for every value. -/
def runMatch (M : Sem W V) (other : Nat → V → Bool) (r : Nat) (p1 : Pat) (b1 b2 : Body) (w : W) : Out V V × W :=
  if p1.fits other (M.opt r w).1 then b1.run M (M.opt r w).1 (M.opt r w).2 else b2.run M (M.opt r w).1 (M.opt r w).2

/-- The first argument of `map_or` or `map_or_else`: a value, a closure, or a function. -/
inductive Arg
  | value (b : Body)
  | closure (b : Body)
  | fn (k : Nat)
deriving DecidableEq, Repr

/-- `r.map_or(arg, |x| body)`, or `r.map_or_else(arg, |x| body)`; without outcome if the first argument is no value, or no function. -/
def runMapOrElse (M : Sem W V) (r : Nat) (lazy : Bool) (arg : Arg) (b : Body) (w : W) : Option (Out V V × W) :=
  let p := M.opt r w
  match lazy, arg with
  | false, .value d =>
    some (andThen (d.run M none p.2) fun d w => match p.1 with | some x => callClosure (b.run M (some x) w) | none => (.val d, w))
  | true, .closure d =>
    some (match p.1 with | some x => callClosure (b.run M (some x) p.2) | none => callClosure (d.run M none p.2))
  | true, .fn k =>
    some (match p.1 with | some x => callClosure (b.run M (some x) p.2) | none => (.val (M.fn0 k p.2).1, (M.fn0 k p.2).2))
  | _, _ => none

end Verif.Chains
