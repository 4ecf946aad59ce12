/-!
# Escapes in string literals

Literals are lists of bytes: what is written between the quotes.
-/

namespace Verif.Octal

/-- Where a reader of a literal is. -/
inductive State
  | normal
  | esc
  | hex1
  | hex2 (h : Nat)
  | open_
  | body (acc : List Nat)
  | blank
deriving DecidableEq, Repr

/-- The value of a hexadecimal digit. -/
def hexVal (c : Nat) : Nat :=
  if c ≤ 57 then c - 48 else if c ≤ 70 then c - 55 else c - 87

/-- One step of reading: the bytes of the string that are known now, and where the reader is. `enc` gives the bytes for the digits between the
braces of `\u{…}`. -/
def step (enc : List Nat → List Nat) : State → Nat → List Nat × State
  | .normal, c => if c = 92 then ([], .esc) else ([c], .normal)
  | .esc, c =>
    if c = 48 then ([0], .normal)
    else if c = 110 then ([10], .normal)
    else if c = 114 then ([13], .normal)
    else if c = 116 then ([9], .normal)
    else if c = 120 then ([], .hex1)
    else if c = 117 then ([], .open_)
    else if c = 10 then ([], .blank)
    else ([c], .normal)
  | .hex1, c => ([], .hex2 (hexVal c))
  | .hex2 h, c => ([16 * h + hexVal c], .normal)
  | .open_, _ => ([], .body [])
  | .body acc, c => if c = 125 then (enc acc.reverse, .normal) else ([], .body (c :: acc))
  | .blank, c =>
    if c = 32 ∨ c = 9 ∨ c = 10 ∨ c = 13 then ([], .blank)
    else if c = 92 then ([], .esc)
    else ([c], .normal)

/-- The bytes of the string, from a place on. -/
def decode (enc : List Nat → List Nat) : State → List Nat → List Nat
  | _, [] => []
  | st, c :: s => (step enc st c).1 ++ decode enc (step enc st c).2 s

/-- Where the reader is after reading. -/
def after (enc : List Nat → List Nat) : State → List Nat → State
  | st, [] => st
  | st, c :: s => after enc (step enc st c).2 s

/-- No backslash inside of an escape: what the compiler accepts. -/
def Valid (enc : List Nat → List Nat) : State → List Nat → Prop
  | _, [] => True
  | st, c :: s => (c = 92 → st = .normal ∨ st = .esc ∨ st = .blank) ∧ Valid enc (step enc st c).2 s

/-- Between two escapes or characters. -/
def State.Between : State → Prop
  | .normal | .blank => True
  | _ => False

/-- Kinds of literals that are looked at: `"…"`, `b"…"` and `c"…"`. -/
inductive Kind
  | str | byteStr | cStr
deriving DecidableEq, Repr

/-- What is before the text of a literal. -/
def Kind.pre : Kind → List Nat
  | .str => [34]
  | .byteStr => [98, 34]
  | .cStr => [99, 34]

/-- The literal as it is written. -/
def token (k : Kind) (s : List Nat) : List Nat := k.pre ++ s ++ [34]

/-- `0` to `7`. -/
def IsOctal (c : Nat) : Prop := 48 ≤ c ∧ c ≤ 55

/-- The number that octal digits stand for. -/
def octal (ds : List Nat) : Nat := ds.foldl (fun n d => 8 * n + (d - 48)) 0

/-- The text between `start` and `start + len` is replaced. -/
def edit (s : List Nat) (start len : Nat) (new : List Nat) : List Nat := s.take start ++ new ++ s.drop (start + len)

/-- After `\0` there is the octal digit `d`, and then `t`. The text `\0` with one or two digits has `len` bytes; `hi` and `lo` are the digits of a
number with two digits. -/
def Digits (d : Nat) (t : List Nat) (len hi lo : Nat) : Prop :=
  IsOctal d ∧ ((∃ b t', t = b :: t' ∧ IsOctal b ∧ len = 4 ∧ hi = d ∧ lo = b) ∨
    ((∀ b t', t = b :: t' → ¬ IsOctal b) ∧ len = 3 ∧ hi = 48 ∧ lo = d))

end Verif.Octal
