/-!
# References to footnotes that do not exist: what is meant

Texts are lists of bytes.
-/

namespace Verif.Footnote

/-- A digit in ASCII. -/
def Digit (c : Nat) : Prop := 48 ≤ c ∧ c ≤ 57

/-- `[^` digits `]` in a text: what is before, the digits, and what is after. -/
def Ref (doc a ds b : List Nat) : Prop :=
  doc = a ++ 91 :: 94 :: (ds ++ 93 :: b) ∧ ds ≠ [] ∧ ∀ c ∈ ds, Digit c

/-- The number of backslashes at the end of a text. -/
def slashes (a : List Nat) : Nat := (a.reverse.takeWhile (· == 92)).length

/-- The character after a text is escaped. -/
def Escaped (a : List Nat) : Prop := slashes a % 2 = 1

/-- The reference is the start of a definition. -/
def Defines (b : List Nat) : Prop := b.head? = some 58

/-- A part of the documentation: the length of its text in the source, and how much of the whole text it gives. -/
structure Fragment where
  len : Nat
  gives : Nat
  deriving DecidableEq, Repr

/-- A position of the whole text comes from a fragment with others before it. -/
def From (pos : Nat) (before : List Fragment) (f : Fragment) : Prop :=
  (before.map Fragment.gives).sum ≤ pos ∧ pos < (before.map Fragment.gives).sum + f.gives

end Verif.Footnote
