/-!
# Acronyms in names: what is meant

A name is a list of characters.
-/

namespace Verif.Acronyms

/-- A capital letter of ASCII. -/
def Up (c : Char) : Prop := 'A'.toNat ≤ c.toNat ∧ c.toNat ≤ 'Z'.toNat

instance (c : Char) : Decidable (Up c) := inferInstanceAs (Decidable (_ ∧ _))

/-- A letter with its case forgotten. -/
def folded (c : Char) : Char := if Up c then Char.ofNat (c.toNat + 32) else c

/-- The name consists of capital letters, at least three. -/
def AllCaps (s : List Char) : Prop := 3 ≤ s.length ∧ ∀ c ∈ s, Up c

/-- There are three capital letters in a row, or two at the end. -/
def Acronym (s : List Char) : Prop :=
  (∃ a x y z b, s = a ++ x :: y :: z :: b ∧ Up x ∧ Up y ∧ Up z) ∨ (∃ a x y, s = a ++ [x, y] ∧ Up x ∧ Up y)

/-- The names to report. After underscores, a capital letter has to come for acronyms inside a name to count. -/
def Flagged (aggressive : Bool) (s : List Char) : Prop :=
  AllCaps s ∨ (aggressive = true ∧ ∃ n c r, s = List.replicate n '_' ++ c :: r ∧ Up c ∧ Acronym (c :: r))

/-- The letter `c` between `a` and `b` is inside an acronym: there is a capital letter before and another, or the end, after it. -/
def Inside (a : List Char) (c : Char) (b : List Char) : Prop :=
  Up c ∧ (∃ a' p, a = a' ++ [p] ∧ Up p) ∧ (b = [] ∨ ∃ n b', b = n :: b' ∧ Up n)

/-- Kinds of items: a type (alias, struct, trait), an enum with the names of its variants, another. -/
inductive Kind
  | type (name : List Char)
  | enum (name : List Char) (variants : List (List Char))
  | other

/-- The names of an item that count. -/
def Kind.names : Kind → List (List Char)
  | .type n => [n]
  | .enum n vs => n :: vs
  | .other => []

/-- An item. -/
structure Item where
  inMacro : Bool
  exported : Bool
  kind : Kind

/-- The options. -/
structure Cfg where
  avoidBreaking : Bool
  aggressive : Bool

end Verif.Acronyms
