import Verif.NumLit.Model

/-!
# What a numeric literal is and what it means

An independent description of Rust's numeric literals (without the type suffix): the parts they consist
of, their text and their value. Nothing here refers to the model except the enumeration of radices.
-/

namespace Verif.NumLit
open Verif

/-- Value of a digit character. -/
def digitVal (c : Char) : Nat :=
  if '0' ≤ c ∧ c ≤ '9' then c.toNat - '0'.toNat
  else if 'a' ≤ c ∧ c ≤ 'f' then c.toNat - 'a'.toNat + 10
  else if 'A' ≤ c ∧ c ≤ 'F' then c.toNat - 'A'.toNat + 10
  else 36

def Radix.base : Radix → Nat
  | .binary => 2 | .octal => 8 | .decimal => 10 | .hexadecimal => 16

/-- The prefix of literals with this radix. -/
def Radix.text : Radix → Str
  | .binary => ['0', 'b'] | .octal => ['0', 'o'] | .decimal => [] | .hexadecimal => ['0', 'x']

/-- `c` is a digit in this radix. -/
def IsDigit (r : Radix) (c : Char) : Prop := digitVal c < r.base

/-- The digits of a digit text: everything but the underscores. -/
def digitsOf (s : Str) : Str := s.filter (· != '_')

/-- Digits and underscores only. -/
def DigitText (r : Radix) (s : Str) : Prop := ∀ c ∈ s, IsDigit r c ∨ c = '_'

/-- Sign of an exponent. -/
inductive Sign
  | none | plus | minus
  deriving DecidableEq, Repr

def Sign.text : Sign → Str
  | .none => [] | .plus => ['+'] | .minus => ['-']

/-- The parts of a numeric literal without its type suffix. `neg` is a minus sign in front of it. -/
structure Lit where
  neg : Bool
  radix : Radix
  int : Str
  frac : Option Str
  exp : Option (Char × Sign × Str)
  deriving DecidableEq, Repr

/-- The literal as written. -/
def Lit.text (l : Lit) : Str :=
  (if l.neg then ['-'] else []) ++ l.radix.text ++ l.int ++
  (match l.frac with | some f => '.' :: f | none => []) ++
  (match l.exp with | some (m, s, d) => m :: s.text ++ d | none => [])

/-- The literal is a float by its own form. -/
def Lit.floatForm (l : Lit) : Bool := l.frac.isSome || l.exp.isSome

/-- Rust's grammar for literals that a type suffix may follow. The integer part has a digit, and a
decimal one starts with a digit. A fraction is only possible in radix ten; it starts with a digit. An
exponent has a digit. -/
structure Lit.Suffixable (l : Lit) : Prop where
  int_text : DigitText l.radix l.int
  int_digit : digitsOf l.int ≠ []
  int_start : l.radix = .decimal → ∀ c ∈ l.int.head?, c ≠ '_'
  float_decimal : l.floatForm = true → l.radix = .decimal
  frac_text : ∀ f ∈ l.frac, DigitText .decimal f ∧ ∃ c ∈ f.head?, c ≠ '_'
  exp_text : ∀ e ∈ l.exp, (e.1 = 'e' ∨ e.1 = 'E') ∧ DigitText .decimal e.2.2 ∧ digitsOf e.2.2 ≠ []

/-- Rust's grammar for numeric literals: as above, or an integer part followed by a point. -/
def Lit.WF (l : Lit) : Prop :=
  l.Suffixable ∨ (l.frac = some [] ∧ l.exp = none ∧ ({ l with frac := none } : Lit).Suffixable ∧
    l.radix = .decimal)

/-- Value of a list of digits. -/
def natVal (base : Nat) (ds : Str) : Nat := ds.foldl (fun n c => n * base + digitVal c) 0

def Sign.apply : Sign → Nat → Int
  | .minus, n => -(n : Int)
  | _, n => n

/-- The number a literal denotes. -/
def Lit.value (l : Lit) : Rat :=
  let frac := digitsOf (l.frac.getD [])
  let exp : Int := match l.exp with
    | some (_, s, d) => s.apply (natVal 10 (digitsOf d))
    | none => 0
  let m : Rat := natVal l.radix.base (digitsOf l.int ++ frac)
  (if l.neg then -1 else 1) * m * (10 : Rat) ^ (exp - (frac.length : Int))

end Verif.NumLit
