/-!
# Arrays of byte literals: what is meant

The text between the quotes of a literal is a list of characters.
-/

namespace Verif.ByteStr

/-- The value of a hexadecimal digit. -/
def hexDigit (c : Char) : Option Nat :=
  if '0' ≤ c ∧ c ≤ '9' then some (c.toNat - 48)
  else if 'a' ≤ c ∧ c ≤ 'f' then some (c.toNat - 87)
  else if 'A' ≤ c ∧ c ≤ 'F' then some (c.toNat - 55)
  else none

/-- The value of `\xab`. -/
def hexByte (a b : Char) : Option Nat := (hexDigit a).bind fun x => (hexDigit b).map fun y => 16 * x + y

/-- The value of the other escapes. -/
def escape (c : Char) : Option Nat :=
  if c = 'n' then some 10 else if c = 'r' then some 13 else if c = 't' then some 9 else if c = '\\' then some 92
  else if c = '0' then some 0 else if c = '\'' then some 39 else if c = '"' then some 34 else none

/-- The byte of `b'…'`, `none` if it is not a literal. -/
def byteLit : List Char → Option Nat
  | ['\\', 'x', a, b] => hexByte a b
  | ['\\', c] => escape c
  | [c] => if c = '\\' ∨ c = '\'' ∨ c = '\n' ∨ c = '\r' ∨ c = '\t' ∨ 128 ≤ c.toNat then none else some c.toNat
  | _ => none

/-- The bytes of `b"…"`, `none` if it is not a literal. (A backslash at the end of a line is not needed here.) -/
def byteString : List Char → Option (List Nat)
  | [] => some []
  | '\\' :: 'x' :: a :: b :: r => (hexByte a b).bind fun v => (byteString r).map (v :: ·)
  | '\\' :: c :: r => (escape c).bind fun v => (byteString r).map (v :: ·)
  | '"' :: _ => none
  | c :: r => if c = '\\' ∨ c = '\r' ∨ 128 ≤ c.toNat then none else (byteString r).map (c.toNat :: ·)

/-- An element of an array. -/
inductive Elem
  /-- A byte literal with its text between the quotes, written where the array is or in a macro. -/
  | byte (text : List Char) (sameContext : Bool)
  | other
deriving DecidableEq, Repr

/-- Where the array is used. -/
structure Site where
  /-- It is borrowed, `&[…]`. -/
  borrowed : Bool
  /-- It is used as a slice anyway. -/
  slice : Bool
  /-- There is a comment or a `cfg` inside. -/
  remarks : Bool
deriving DecidableEq, Repr

end Verif.ByteStr
