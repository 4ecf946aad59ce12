import Verif.Octal.Spec

/-! Model of `clippy_lints/src/octal_escapes.rs`. Literals whose text isn't in the source are left out. -/

namespace Verif.Octal.Model

open Verif.Octal

/-- What a report is made of: where it begins, its length, and the digits (`clippy_lints/src/octal_escapes.rs:72-84`). -/
structure Report where
  start : Nat
  len : Nat
  hi : Nat
  lo : Nat
deriving DecidableEq, Repr

/-- `b'0'..=b'7'` (`clippy_lints/src/octal_escapes.rs:73-74`). -/
def isOct (c : Nat) : Bool := 48 ≤ c && c ≤ 55

/-- The loop of `check_expr` (`clippy_lints/src/octal_escapes.rs:65-113`), for the rest of a text of `n` bytes; `off` is `start_offset`. -/
def scan (off n : Nat) : List Nat → List Report
  | [] => []
  | [_] => []
  | c :: d :: s =>
    if c = 92 then
      if d = 48 then
        match s with
        | [] => []
        | [a] => if isOct a then [⟨off + (n - 0) - 3, 3, 48, a⟩] else []
        | a :: b :: t =>
          if isOct a then
            if isOct b then ⟨off + (n - t.length) - 4, 4, a, b⟩ :: scan off n t
            else ⟨off + (n - (t.length + 1)) - 3, 3, 48, a⟩ :: scan off n (b :: t)
          else scan off n (a :: b :: t)
      else scan off n s
    else scan off n (d :: s)
termination_by s => s.length

/-- `start_offset` (`clippy_lints/src/octal_escapes.rs:56-60`). -/
def startOffset : Kind → Nat
  | .str => 1
  | .byteStr | .cStr => 2

/-- `check_expr` (`clippy_lints/src/octal_escapes.rs:53-115`). -/
def check (k : Kind) (s : List Nat) : List Report := scan (startOffset k) s.length s

/-- A digit of `{:02x}` (`clippy_lints/src/octal_escapes.rs:99`). -/
def hexDigit (n : Nat) : Nat := if n < 10 then 48 + n else 87 + n

/-- The suggested hexadecimal escape (`clippy_lints/src/octal_escapes.rs:99`); the bits of the digits don't overlap, so that the disjunction is a
sum. -/
def hexSugg (r : Report) : List Nat :=
  let v := (r.hi - 48) * 8 + (r.lo - 48)
  [92, 120, hexDigit (v / 16), hexDigit (v % 16)]

/-- The suggested null escape (`clippy_lints/src/octal_escapes.rs:105`). -/
def nullSugg (r : Report) : List Nat := [92, 120, 48, 48, r.hi, r.lo]

end Verif.Octal.Model
