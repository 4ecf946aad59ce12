/-!
# Tests of characters

Characters and bytes are numbers.
-/

namespace Verif.Ascii

/-- Literals in ranges. -/
inductive Lit
  | char (n : Nat)
  | byte (n : Nat)
  | other (k : Nat)
deriving DecidableEq, Repr

/-- Patterns: `l..=h`, with a minus before a bound or not, alternatives, and others, which match what `k` says. -/
inductive Pat
  | range (negLo : Bool) (lo : Lit) (negHi : Bool) (hi : Lit)
  | half (lo hi : Lit)
  | alts (ps : List Pat)
  | other (k : Nat)

/-- The number of a literal. -/
def Lit.val (K : Nat → Nat) : Lit → Nat
  | .char n => n
  | .byte n => n
  | .other k => K k

mutual
/-- What a pattern matches. `K` are the values of other bounds, `O` what other patterns match, `N` what ranges with negative bounds match. -/
def Pat.Matches (K : Nat → Nat) (O : Nat → Nat → Prop) (N : Nat → Prop) (c : Nat) : Pat → Prop
  | .range false lo false hi => lo.val K ≤ c ∧ c ≤ hi.val K
  | .range _ _ _ _ => N c
  | .half lo hi => lo.val K ≤ c ∧ c < hi.val K
  | .alts ps => Pat.AnyMatches K O N c ps
  | .other k => O k c
/-- One of the patterns matches. -/
def Pat.AnyMatches (K : Nat → Nat) (O : Nat → Nat → Prop) (N : Nat → Prop) (c : Nat) : List Pat → Prop
  | [] => False
  | p :: ps => p.Matches K O N c ∨ Pat.AnyMatches K O N c ps
end

/-- The methods of characters and bytes. -/
inductive Method
  | isAsciiUppercase | isAsciiLowercase | isAsciiAlphabetic | isAsciiDigit | isAsciiHexdigit
deriving DecidableEq, Repr

/-- An ASCII letter from `A` to `Z`, and so on, as documented. -/
def Method.Holds (c : Nat) : Method → Prop
  | .isAsciiUppercase => 65 ≤ c ∧ c ≤ 90
  | .isAsciiLowercase => 97 ≤ c ∧ c ≤ 122
  | .isAsciiAlphabetic => (65 ≤ c ∧ c ≤ 90) ∨ (97 ≤ c ∧ c ≤ 122)
  | .isAsciiDigit => 48 ≤ c ∧ c ≤ 57
  | .isAsciiHexdigit => (48 ≤ c ∧ c ≤ 57) ∨ (65 ≤ c ∧ c ≤ 70) ∨ (97 ≤ c ∧ c ≤ 102)

/-- The tests that are looked at: `matches!(c, pat if guard)` and `range.contains(&c)`. -/
inductive Test
  | matches (pat : Pat) (guard : Option Nat)
  | contains (closed : Bool) (lo hi : Lit)

/-- What a test says. `G` are the values of guards. -/
def Test.Holds (K : Nat → Nat) (O : Nat → Nat → Prop) (N : Nat → Prop) (G : Nat → Bool) (c : Nat) : Test → Prop
  | .matches pat none => pat.Matches K O N c
  | .matches pat (some g) => pat.Matches K O N c ∧ G g = true
  | .contains true lo hi => lo.val K ≤ c ∧ c ≤ hi.val K
  | .contains false lo hi => lo.val K ≤ c ∧ c < hi.val K

end Verif.Ascii
