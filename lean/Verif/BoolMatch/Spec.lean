import Verif.BoolMatch.Syntax
import Verif.Needless.Spec

/-!
# What such matches, the methods and `matches!` do
-/

namespace Verif.BoolMatch
open Needless (Pat Pats Val Env matchPat strip)

/-- The meaning of everything else. -/
structure Sem extends Needless.Sem where
  other' : Nat → Env → W → Bool × W

variable (S : Sem)

/-- The value of a reference's target. -/
def derefV : Val → Val
  | .ref v => v
  | v => v

def scrutVal : Scrut → S.W → Val × S.W
  | .plain n, w => S.scrut n w
  | .addrOf n, w => let r := S.scrut n w; (.ref r.1, r.2)
  | .deref n, w => let r := S.scrut n w; (derefV r.1, r.2)

def Body.run : Body → Env → S.W → Bool × S.W
  | .lit b, _, w => (b, w)
  | .blk b, _, w => (b, w)
  | .other n, ρ, w => S.other' n ρ w

/-- The arms in order. -/
def runArms (v : Val) (ρ : Env) : List BArm → S.W → Option (Bool × S.W)
  | [], _ => none
  | a :: as, w =>
    match matchPat S.toSem a.pat v false ρ with
    | none => runArms v ρ as w
    | some ρ' =>
      match a.guard with
      | none => some (a.body.run S ρ' w)
      | some g =>
        let r := S.guard g ρ' w
        if r.1 then some (a.body.run S ρ' r.2) else runArms v ρ as r.2

def runMatch (s : Scrut) (ρ : Env) (as : List BArm) (w : S.W) : Option (Bool × S.W) :=
  let r := scrutVal S s w
  runArms S r.1 ρ as r.2

/-- `v.is_…()`: methods look through references. -/
def holds (x : Variant) (v : Val) : Bool :=
  match (strip v false).1 with
  | .ctor c _ => c == x.ctor
  | _ => false

def runGuard (g : Option Nat) (ρ : Env) (w : S.W) : Bool × S.W :=
  match g with
  | none => (true, w)
  | some g => S.guard g ρ w

def runCall (e : Call) (ρ : Env) (w : S.W) : Bool × S.W :=
  let r := scrutVal S e.recv w
  if holds e.method r.1 then runGuard S e.guard ρ r.2 else (false, r.2)

/-- The first alternative that matches. -/
def firstOf (v : Val) (ρ : Env) : List Pat → Option Env
  | [] => none
  | p :: ps =>
    match matchPat S.toSem p v false ρ with
    | some ρ' => some ρ'
    | none => firstOf v ρ ps

def runMacro (e : Macro) (ρ : Env) (w : S.W) : Bool × S.W :=
  let r := scrutVal S e.recv w
  let b := match firstOf S r.1 ρ e.pats with
    | some ρ' => runGuard S e.guard ρ' r.2
    | none => (false, r.2)
  (b.1 != e.neg, b.2)

/-- Whether the pattern of `if let` matches. -/
def letMatches : LetPat → Val → Bool
  | .plain p, v => (matchPat S.toSem p v false (fun _ => .unit)).isSome
  | .rest c, v =>
    match (strip v false).1 with
    | .ctor d _ => c == d
    | _ => false
  | .ref p, .ref v => letMatches p v
  | .ref _, _ => false

/-- The condition `let p = s`. -/
def runLet (s : Scrut) (p : LetPat) (w : S.W) : Bool × S.W :=
  let r := scrutVal S s w
  (letMatches S p r.1, r.2)

/-- The other variant of the type. -/
def Variant.sibling : Variant → Variant
  | .ok => .err
  | .err => .ok
  | .some => .none
  | .none => .some
  | .ready => .pending
  | .pending => .ready
  | .v4 => .v6
  | .v6 => .v4

/-- The number of fields. -/
def Variant.fields : Variant → Nat
  | .none => 0
  | .pending => 0
  | _ => 1

/-- A value of this variant. -/
def Made (x : Variant) (v : Val) : Prop := ∃ vs, v = .ctor x.ctor vs ∧ vs.length = x.fields

/-- A value of the type of this variant, perhaps behind references. -/
def OfType (x : Variant) (v : Val) : Prop :=
  Made x (strip v false).1 ∨ Made x.sibling (strip v false).1

/-- The compiler's check: an arm without a guard takes the value. -/
def Taken (ρ : Env) (as : List BArm) (v : Val) : Prop :=
  ∃ a ∈ as, a.guard = none ∧ matchPat S.toSem a.pat v false ρ ≠ none

/-- The paths are those variants. -/
structure Paths : Prop where
  none : S.const Needless.noneK = .ctor Variant.none.ctor []
  pending : S.const pendingK = .ctor Variant.pending.ctor []

/-- A pattern that looks through references. -/
def Structural : Pat → Prop
  | .wild => True
  | .ctor _ _ => True
  | .path _ => True
  | .lit _ => True
  | _ => False

/-- A pattern fits the type: it has not more patterns than there are fields. -/
def Fits : LetPat → Prop
  | .plain (.ctor _ (.cons _ qs)) => qs = .nil
  | .ref p => Fits p
  | _ => True

/-- The value is a reference. -/
def IsRef : Val → Prop
  | .ref _ => True
  | _ => False

end Verif.BoolMatch
