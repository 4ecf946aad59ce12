import Verif.Elide.Syntax

/-!
# Specification: what a lifetime that is not written stands for

The Rust Reference, "Lifetime elision": every lifetime that is not written in the parameters of a
function becomes a parameter of its own; if exactly one lifetime is used in the parameters, written
or not, it is the one of every lifetime that is not written in the result; if the receiver is a
reference to `Self`, its lifetime is the one that is used.  Function pointers and `Fn(..)` bounds
are scopes of their own.
-/

namespace Verif.Elide

/-- What a lifetime stands for. -/
inductive Region where
  /-- the parameter that is declared -/
  | named (a : Id)
  | static
  /-- the parameter that the `k`-th lifetime of the inputs introduces -/
  | fresh (k : Nat)
  /-- a lifetime that is not written in a scope inside the type -/
  | inner
  deriving DecidableEq, Repr

/-- The lifetimes of a type that belong to the scope of the function. -/
def Ty.own {L : Type} : Ty L → List L
  | .con _ => []
  | .lt l => [l]
  | .ref l t => l :: t.own
  | .app t u => t.own ++ u.own
  | .site _ => []
  | .dyn l t => l.toList ++ t.own

/-- The type with other lifetimes. -/
def Ty.map {L M : Type} (f : L → M) : Ty L → Ty M
  | .con c => .con c
  | .lt l => .lt (f l)
  | .ref l t => .ref (f l) (t.map f)
  | .app t u => .app (t.map f) (u.map f)
  | .site t => .site (t.map f)
  | .dyn l t => .dyn (l.map f) (t.map f)

/-- Inside another scope. -/
def Lt.inside : Lt → Region
  | .named a => .named a
  | .anon => .inner
  | .static => .static

/-- The type whose own lifetimes are resolved by `f`, which is told their positions, the first of
which is `n`. -/
def Ty.fill (f : Nat → Lt → Region) : Nat → Ty Lt → Ty Region
  | _, .con c => .con c
  | n, .lt l => .lt (f n l)
  | n, .ref l t => .ref (f n l) (t.fill f (n + 1))
  | n, .app t u => .app (t.fill f n) (u.fill f (n + t.own.length))
  | _, .site t => .site (t.map Lt.inside)
  | n, .dyn none t => .dyn none (t.fill f n)
  | n, .dyn (some l) t => .dyn (some (f n l)) (t.fill f (n + 1))

/-- A lifetime of the inputs, at a position. -/
def inRegion (k : Nat) : Lt → Region
  | .named a => .named a
  | .anon => .fresh k
  | .static => .static

/-- A lifetime of the result, where `r` is the one for those not written. -/
def outRegion (r : Region) (_ : Nat) : Lt → Region
  | .named a => .named a
  | .anon => r
  | .static => .static

/-- The inputs. -/
def fillAll : Nat → List (Ty Lt) → List (Ty Region)
  | _, [] => []
  | n, t :: ts => t.fill inRegion n :: fillAll (n + t.own.length) ts

/-- What the lifetimes of the inputs stand for, from position `n` on. -/
def regionsFrom : Nat → List Lt → List Region
  | _, [] => []
  | n, l :: ls => inRegion n l :: regionsFrom (n + 1) ls

/-- The lifetimes of the inputs. -/
def Sig.inputLts (s : Sig) : List Lt := s.inputs.flatMap Ty.own

/-- The only element of a list, however often it occurs. -/
def only : List Region → Option Region
  | [] => none
  | r :: rs => if rs.all (· == r) then some r else none

/-- The lifetime that stands for those not written in the result. -/
def Sig.default (s : Sig) : Option Region :=
  if s.selfRef then
    match s.inputs with
    | .ref l _ :: _ => some (inRegion 0 l)
    | _ => none
  else only (regionsFrom 0 s.inputLts)

/-- The result; `none` is an error. -/
def Sig.result (s : Sig) : Option (Ty Region) :=
  if s.output.own.contains .anon then s.default.map (fun r => s.output.fill (outRegion r) 0)
  else some (s.output.fill (outRegion .static) 0)

/-- The signature that a function has; `none` is an error. -/
def Sig.resolve (s : Sig) : Option (List (Ty Region) × Ty Region) :=
  s.result.map (fun r => (fillAll 0 s.inputs, r))

/-- The names of a type. -/
def Ty.names : Ty Lt → List Id
  | .con _ => []
  | .lt l => nm l
  | .ref l t => nm l ++ t.names
  | .app t u => t.names ++ u.names
  | .site t => t.names
  | .dyn l t => (match l with | some l => nm l | none => []) ++ t.names
where
  nm : Lt → List Id
    | .named a => [a]
    | _ => []

/-- The names of a predicate. -/
def Pred.names : Pred → List Id
  | .region a b => Ty.names.nm a ++ Ty.names.nm b
  | .bound t _ b _ => t.names ++ b.names

/-- Everything that a function mentions. -/
def Sig.names (s : Sig) : List Id :=
  s.inputs.flatMap Ty.names ++ s.output.names ++ s.preds.flatMap Pred.names ++ s.body.flatMap Ty.names.nm

/-- The names that are lifetimes of trait objects. -/
def Ty.objNames : Ty Lt → List Id
  | .con _ => []
  | .lt _ => []
  | .ref _ t => t.objNames
  | .app t u => t.objNames ++ u.objNames
  | .site t => t.objNames
  | .dyn (some (.named a)) t => a :: t.objNames
  | .dyn _ t => t.objNames

def Pred.objNames : Pred → List Id
  | .region _ _ => []
  | .bound t _ b _ => t.objNames ++ b.objNames

/-- The names that are lifetimes of trait objects, anywhere in the signature. -/
def Sig.objNames (s : Sig) : List Id :=
  s.inputs.flatMap Ty.objNames ++ s.output.objNames ++ s.preds.flatMap Pred.objNames

/-- The lifetimes that a predicate binds are not those of the function. -/
def Sig.Bound (s : Sig) : Prop :=
  ∀ t bs b c, Pred.bound t bs b c ∈ s.preds → ∀ a ∈ s.params, a ∉ bs

/-- A receiver that is a reference is written as one. -/
def Sig.Self (s : Sig) : Prop :=
  s.selfRef = true → ∃ l t ts, s.inputs = .ref l t :: ts

/-- The regions of a type. -/
def Ty.regions : Ty Region → List Region
  | .con _ => []
  | .lt l => [l]
  | .ref l t => l :: t.regions
  | .app t u => t.regions ++ u.regions
  | .site t => t.regions
  | .dyn l t => l.toList ++ t.regions

/-- `new` is `old` with other names for its parameters: the parameters `gone` are now parameters
without a name, everything else is what it was. -/
def Same (gone : List Id) (old new : List (Ty Region) × Ty Region) : Prop :=
  ∃ ρ : Region → Region,
    new = (old.1.map (Ty.map ρ), old.2.map ρ) ∧
    (∀ r, (∀ a ∈ gone, r ≠ .named a) → ρ r = r) ∧
    (∀ a ∈ gone, ∃ k, ρ (.named a) = .fresh k) ∧
    (∀ r ∈ old.1.flatMap Ty.regions ++ old.2.regions,
      ∀ r' ∈ old.1.flatMap Ty.regions ++ old.2.regions, ρ r = ρ r' → r = r')

/-! ## Lists of parameters as text -/

/-- A piece of `'a, 'b, T`. -/
inductive Tok where
  | param (a : Id)
  | comma
  deriving DecidableEq, Repr

/-- The text of a list of parameters. -/
def toks : List Id → List Tok
  | [] => []
  | [p] => [.param p]
  | p :: ps => .param p :: .comma :: toks ps

/-- The pieces from position `n` on that lie in none of the spans. -/
def keepFrom (cs : List (Nat × Nat)) : Nat → List Tok → List Tok
  | _, [] => []
  | n, t :: ts =>
    if cs.any (fun c => decide (c.1 ≤ n) && decide (n < c.2)) then keepFrom cs (n + 1) ts
    else t :: keepFrom cs (n + 1) ts

/-- Two spans that have nothing in common. -/
def Apart (c d : Nat × Nat) : Prop := c.2 ≤ d.1 ∨ d.2 ≤ c.1

end Verif.Elide
