import Verif.Pats.UnnestModel
import Verif.Common.Sort

/-!
# What an AST pattern matches

Specification for C39, independent of the lint.
-/

namespace Verif.Unnest

/-- The values of a program, seen by patterns: what each leaf pattern accepts and how values are taken apart. -/
structure Sem where
  /-- Values. -/
  V : Type
  /-- The values accepted by a literal, path, range or macro pattern. -/
  leaf : Leaf → Nat → V → Prop
  /-- The contents of a box, or what a reference refers to. -/
  unwrap : Wrap → V → Option V
  /-- The elements of a slice or array. -/
  slice : V → Option (List V)
  /-- The components of a tuple. -/
  tuple : V → Option (List V)
  /-- The fields of a value of a tuple struct or variant. -/
  tupleStruct : Nat → V → Option (List V)
  /-- The named fields of a struct or variant. -/
  struct : Nat → V → Option (Nat → Option V)
  /-- What a variable holds for a binding mode. -/
  bound : Nat → V → V

variable (S : Sem) (ρ : Nat → Option S.V)

mutual
/-- The pattern matches the value, giving its variables the values they have in `ρ`. An or-pattern matches when one of
its alternatives does. -/
def M : APat → S.V → Prop
  | .wild, _ => True
  | .rest, _ => False
  | .never, _ => False
  | .ident m x, v => ρ x = some (S.bound m v)
  | .leaf k i, v => S.leaf k i v
  | .bind m x p, v => ρ x = some (S.bound m v) ∧ M p v
  | .paren p, v => M p v
  | .wrap w p, v => ∃ u, S.unwrap w v = some u ∧ M p u
  | .slice ps, v => ∃ vs, S.slice v = some vs ∧ MList ps vs
  | .tuple ps, v => ∃ vs, S.tuple v = some vs ∧ MList ps vs
  | .tupleStruct c ps, v => ∃ vs, S.tupleStruct c v = some vs ∧ MList ps vs
  | .struct c fs ps _, v => ∃ g, S.struct c v = some g ∧ MFields fs ps g
  | .or ps, v => MAny ps v

/-- The patterns match the elements one by one, where `..` stands for any number of elements. -/
def MList : List APat → List S.V → Prop
  | [], vs => vs = []
  | p :: ps, vs =>
    (p.isRest = true ∧ ∃ mid tl, vs = mid ++ tl ∧ MList ps tl) ∨
    (∃ v tl, vs = v :: tl ∧ M p v ∧ MList ps tl)

/-- Every field pattern matches the field of its name. -/
def MFields : List (Nat × Bool) → List APat → (Nat → Option S.V) → Prop
  | f :: fs, p :: ps, g => (∃ v, g f.1 = some v ∧ M p v) ∧ MFields fs ps g
  | _, _, _ => True

/-- One of the patterns matches. -/
def MAny : List APat → S.V → Prop
  | [], _ => False
  | p :: ps, v => M p v ∨ MAny ps v
end

/-- All choices of one element from each list. -/
def choices {α : Type} : List (List α) → List (List α)
  | [] => [[]]
  | l :: ls => l.flatMap fun q => (choices ls).map fun qs => q :: qs

/-- The order of field names. -/
def nameLe (a b : Nat × APat) : Bool := decide (a.1 ≤ b.1)

/-- A struct pattern without or-patterns, with its fields in the order of their names. -/
def canonStruct (c : Nat) (d : Bool) (fields : List (Nat × APat)) : APat :=
  .struct c ((sortBy nameLe fields).map fun f => (f.1, false)) ((sortBy nameLe fields).map (·.2)) d

mutual
/-- The or-free patterns a pattern stands for, from left to right: `Some(0 | 1) | None` stands for `Some(0)`,
`Some(1)`, `None`. Parentheses, the order of struct fields and field shorthands are forgotten. -/
def exp : APat → List APat
  | .bind m x p => (exp p).map (.bind m x)
  | .paren p => exp p
  | .wrap w p => (exp p).map (.wrap w)
  | .slice ps => (choices (expEach ps)).map .slice
  | .tuple ps => (choices (expEach ps)).map .tuple
  | .tupleStruct c ps => (choices (expEach ps)).map (.tupleStruct c)
  | .struct c fs ps d => (choices (expEach ps)).map fun qs => canonStruct c d ((fs.map (·.1)).zip qs)
  | .or ps => expAny ps
  | p => [p]

/-- The or-free patterns of every pattern of a list. -/
def expEach : List APat → List (List APat)
  | [] => []
  | p :: ps => exp p :: expEach ps

/-- The or-free patterns of the alternatives. -/
def expAny : List APat → List APat
  | [] => []
  | p :: ps => exp p ++ expAny ps
end

mutual
/-- The pattern is accepted by the compiler's syntax checks: `..` only stands directly in a list of patterns (so
sub-slice bindings `x @ ..` are left out), an or-pattern has an alternative, and the fields of a struct pattern have
different names. -/
def WF : APat → Prop
  | .rest => False
  | .bind _ _ p | .paren p | .wrap _ p => WF p
  | .slice ps | .tuple ps | .tupleStruct _ ps => WFElems ps
  | .struct _ fs ps _ => WFAll ps ∧ fs.length = ps.length ∧ (fs.map (·.1)).Nodup
  | .or ps => ps ≠ [] ∧ WFAll ps
  | _ => True

/-- The elements of a list of patterns, which may be `..`. -/
def WFElems : List APat → Prop
  | [] => True
  | p :: ps => (p = .rest ∨ WF p) ∧ WFElems ps

/-- All patterns of a list. -/
def WFAll : List APat → Prop
  | [] => True
  | p :: ps => WF p ∧ WFAll ps
end

/-- The pattern lists no or-free pattern twice. -/
def NoDuplicates (p : APat) : Prop := (exp p).Nodup

end Verif.Unnest
