/-!
# Specification: words of documentation that are put in backticks
-/

namespace Verif.DocWords

abbrev Word := List Char

/-- A part of a text with what is before and after it. -/
structure Slice where
  l : Word
  w : Word
  r : Word
  deriving DecidableEq, Repr

/-- The text a slice is a part of. -/
def Slice.text (s : Slice) : Word := s.l ++ s.w ++ s.r

/-- The text with the slice in backticks. -/
def Slice.ticked (s : Slice) : Word := s.l ++ '`' :: s.w ++ '`' :: s.r

/-- Classes of characters. -/
structure Cls where
  alnum : Char → Bool
  space : Char → Bool
  upper : Char → Bool
  lower : Char → Bool

/-- What is assumed about them. -/
structure Sane (k : Cls) : Prop where
  colon : k.alnum ':' = false
  opened : k.alnum '(' = false
  closed : k.alnum ')' = false
  upperLower : ∀ c, c.isUpper = true → k.lower c = false

/-- Neither letters nor digits. -/
def Bare (k : Cls) (l : Word) : Prop := ∀ c ∈ l, k.alnum c = false

/-- An underscore that is neither everything nor escaped. -/
def Underscored (w : Word) : Prop := w ≠ ['_'] ∧ ¬ ['\\', '_'] <:+: w ∧ '_' ∈ w

def Hyphenated (w : Word) : Prop := w ≠ ['-'] ∧ '-' ∈ w

/-- The plural and `…ified` of words of capital letters. -/
def FromAcronym (w s : Word) : Prop :=
  (w = s ++ ['e', 's'] ∧ (∀ c ∈ s, c.isUpper = true) ∧ (∃ p, s = p ++ ['S'] ∨ s = p ++ ['X'])) ∨
    (w = s ++ ['i', 'f', 'i', 'e', 'd'] ∧ ∀ c ∈ s, c.isUpper = true)

/-- The word whose letters are looked at. -/
inductive Stem (w : Word) : Word → Prop
  | acronym {s : Word} : FromAcronym w s → Stem w s
  | plural {s : Word} : (¬ ∃ t, FromAcronym w t) → w = s ++ ['s'] → Stem w s
  | self : (¬ ∃ t, FromAcronym w t) → (¬ ∃ s, w = s ++ ['s']) → Stem w w

/-- `UpperCamelCase`: no digit or small letter first, and then only letters and digits, two of them capitals and one small. -/
def Camel (k : Cls) (w : Word) : Prop :=
  (∀ c r, w = c :: r → c.isDigit = false ∧ c.isLower = false) ∧
    ∃ s, Stem w s ∧ (∀ c ∈ s, k.alnum c = true) ∧ 2 ≤ (s.filter k.upper).length ∧ ∃ c ∈ s, k.lower c = true

/-- A word looks like code. -/
def Codelike (k : Cls) (w : Word) : Prop :=
  ¬ (Underscored w ∧ Hyphenated w) ∧ (Underscored w ∨ [':', ':'] <:+: w ∨ Camel k w ∨ ['(', ')'] <:+ w)

inductive Kind | url | ticks
  deriving DecidableEq, Repr

end Verif.DocWords
