import Verif.Strip.Syntax

/-!
# Specification: what the tests do

`none` stands for a panic or code that does not compile.  References are transparent, and boundaries of
characters are not considered.
-/

namespace Verif.Strip

inductive Val where
  | num (n : Nat)
  | str (bs : List Nat)
  deriving DecidableEq, Repr

structure St where
  env : Name → Val
  log : List Val

def St.set (σ : St) (x : Name) (v : Val) : St :=
  { σ with env := fun y => if y = x then v else σ.env y }

abbrev Res := Option (Val × St)

/-- The value of a call may depend on the calls before. -/
abbrev World := List Val → Val → Val

def length : Val → Option Val
  | .str bs => some (.num bs.length)
  | .num _ => none

def minus : Val → Val → Option Val
  | .num a, .num b => if b ≤ a then some (.num (a - b)) else none
  | _, _ => none

def dropTo : Val → Val → Option Val
  | .str bs, .num n => if n ≤ bs.length then some (.str (bs.drop n)) else none
  | _, _ => none

def takeTo (closed : Bool) : Val → Val → Option Val
  | .str bs, .num n =>
    if closed then if n + 1 ≤ bs.length then some (.str (bs.take (n + 1))) else none
    else if n ≤ bs.length then some (.str (bs.take n)) else none
  | _, _ => none

def eval (w : World) : Expr → St → Res
  | .num n, σ => some (.num n, σ)
  | .str bs, σ => some (.str bs, σ)
  | .chr bs, σ => some (.str bs, σ)
  | .var x, σ => some (σ.env x, σ)
  | .len e, σ => (eval w e σ).bind fun (v, τ) => (length v).map (·, τ)
  | .sub a b, σ => (eval w a σ).bind fun (v, τ) => (eval w b τ).bind fun (u, υ) => (minus v u).map (·, υ)
  | .sliceFrom e a, σ =>
    (eval w e σ).bind fun (v, τ) => (eval w a τ).bind fun (u, υ) => (dropTo v u).map (·, υ)
  | .sliceTo c e b, σ =>
    (eval w e σ).bind fun (v, τ) => (eval w b τ).bind fun (u, υ) => (takeTo c v u).map (·, υ)
  | .addr e, σ => eval w e σ
  | .call e, σ => (eval w e σ).bind fun (v, τ) => some (w τ.log v, { τ with log := τ.log ++ [v] })
  | .seq a b, σ => (eval w a σ).bind fun (_, τ) => eval w b τ
  | .letIn _ x a b, σ => (eval w a σ).bind fun (v, τ) =>
    (eval w b (τ.set x v)).map fun (u, υ) => (u, υ.set x (τ.env x))
  | .set x e, σ => (eval w e σ).bind fun (v, τ) => some (.num 0, τ.set x v)

/-- `strip_prefix` and `strip_suffix` -/
def strip (k : Kind) (s p : List Nat) : Option (List Nat) :=
  match k with
  | .pre => if p.isPrefixOf s then some (s.drop p.length) else none
  | .suf => if p.isSuffixOf s then some (s.take (s.length - p.length)) else none

/-- `starts_with` and `ends_with` -/
def has (k : Kind) (s p : List Nat) : Bool :=
  match k with
  | .pre => p.isPrefixOf s
  | .suf => p.isSuffixOf s

/-- The old code. -/
def Test.run (w : World) (c : Test) (σ : St) : Res :=
  match σ.env c.target, eval w c.pattern σ with
  | .str s, some (.str p, τ) => if has c.kind s p then eval w c.body τ else eval w c.other τ
  | _, _ => none

/-- The new code: `if let Some(x) = target.strip_prefix(pattern) { body } else { other }`. -/
def Test.runStrip (w : World) (c : Test) (x : Name) (body : Expr) (σ : St) : Res :=
  match σ.env c.target, eval w c.pattern σ with
  | .str s, some (.str p, τ) =>
    match strip c.kind s p with
    | some v => (eval w body (τ.set x (.str v))).map fun (u, υ) => (u, υ.set x (τ.env x))
    | none => eval w c.other τ
  | _, _ => none

/-! ### Names -/

/-- The names that are not declared in the expression itself. -/
def free : Expr → List Name
  | .num _ | .str _ | .chr _ => []
  | .var x => [x]
  | .len e | .addr e | .call e => free e
  | .sub a b | .sliceFrom a b | .sliceTo _ a b | .seq a b => free a ++ free b
  | .letIn _ x a b => free a ++ (free b).filter (· != x)
  | .set x e => x :: free e

/-- Those that are assigned to. -/
def freeSets : Expr → List Name
  | .num _ | .str _ | .chr _ | .var _ => []
  | .len e | .addr e | .call e => freeSets e
  | .sub a b | .sliceFrom a b | .sliceTo _ a b | .seq a b => freeSets a ++ freeSets b
  | .letIn _ x a b => freeSets a ++ (freeSets b).filter (· != x)
  | .set x e => x :: freeSets e

/-- All the names that are assigned to. -/
def sets : Expr → List Name
  | .num _ | .str _ | .chr _ | .var _ => []
  | .len e | .addr e | .call e => sets e
  | .sub a b | .sliceFrom a b | .sliceTo _ a b | .seq a b => sets a ++ sets b
  | .letIn _ _ a b => sets a ++ sets b
  | .set x e => x :: sets e

/-- The names that are declared. -/
def lets : Expr → List Name
  | .num _ | .str _ | .chr _ | .var _ => []
  | .len e | .addr e | .call e | .set _ e => lets e
  | .sub a b | .sliceFrom a b | .sliceTo _ a b | .seq a b => lets a ++ lets b
  | .letIn _ x a b => x :: (lets a ++ lets b)

/-- No `..=`. -/
def halfOpen : Expr → Bool
  | .num _ | .str _ | .chr _ | .var _ => true
  | .len e | .addr e | .call e | .set _ e => halfOpen e
  | .sliceTo c a b => !c && halfOpen a && halfOpen b
  | .sub a b | .sliceFrom a b | .seq a b | .letIn _ _ a b => halfOpen a && halfOpen b

/-- A pattern: a literal or a variable. -/
def plain : Expr → Bool
  | .str _ | .chr _ | .var _ => true
  | _ => false

end Verif.Strip
