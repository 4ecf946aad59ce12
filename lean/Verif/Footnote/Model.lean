import Verif.Footnote.Spec

/-!
# References to footnotes that do not exist: the linter
-/

namespace Verif.Footnote

/-- `u8::is_ascii_digit`; clippy_lints/src/doc/doc_suspicious_footnotes.rs:122. -/
def isDigit (c : Nat) : Bool := 48 ≤ c && c ≤ 57

/-- The loop of `all_numbers_upto_brace`; clippy_lints/src/doc/doc_suspicious_footnotes.rs:118-125. -/
def numbers (i j : Nat) : List Nat → Option Nat
  | [] => none
  | c :: r => if c == 93 && j != 0 then some (i + j + 1) else if !isDigit c || j ≥ 64 then none else numbers i (j + 1) r

/-- `all_numbers_upto_brace`; clippy_lints/src/doc/doc_suspicious_footnotes.rs:117-127. -/
def allNumbers (text : List Nat) (i : Nat) : Option Nat := numbers i 0 ((text.drop i).take 64)

/-- What happens at a bracket; clippy_lints/src/doc/doc_suspicious_footnotes.rs:20-39. -/
inductive Outcome where
  /-- Nothing. -/
  | silent
  /-- `start - 1` is below zero: a panic where overflow is checked. -/
  | overflow
  /-- A report up to a position. -/
  | report (stop : Nat)
  deriving DecidableEq, Repr

/-- The test before the bracket; clippy_lints/src/doc/doc_suspicious_footnotes.rs:23. -/
def before (doc : List Nat) (start stop : Nat) : Outcome :=
  if start == 0 then .overflow else if doc[start - 1]? != some 92 then .report stop else .silent

/-- The tests at a bracket; clippy_lints/src/doc/doc_suspicious_footnotes.rs:20-23. -/
def at_ (doc : List Nat) (start : Nat) : Outcome :=
  if doc[start + 1]? == some 94 then
    match allNumbers doc (start + 2) with
    | some stop => if doc[stop]? != some 58 then before doc start stop else .silent
    | none => .silent
  else .silent

/-- The loop that finds the fragment, with what was found so far; clippy_lints/src/doc/doc_suspicious_footnotes.rs:27-36. The result is the number of the fragment. -/
def findFragment (start pos k : Nat) (last : Option Nat) : List Fragment → Option Nat
  | [] => last
  | f :: r => if start ≥ pos && start < pos + f.len then some k else findFragment start (pos + f.len) (k + 1) last r

/-- `this_fragment`; clippy_lints/src/doc/doc_suspicious_footnotes.rs:24-37. -/
def thisFragment (start : Nat) (fs : List Fragment) : Option Nat :=
  findFragment start 0 0 (if fs.isEmpty then none else some (fs.length - 1)) fs

/-- The positions of brackets in the range; clippy_lints/src/doc/doc_suspicious_footnotes.rs:14-19. -/
def brackets (lo : Nat) : List Nat → List Nat
  | [] => []
  | c :: r => if c == 91 then lo :: brackets (lo + 1) r else brackets (lo + 1) r

/-- `check` without the texts of suggestions: what happens at each bracket of a range; clippy_lints/src/doc/doc_suspicious_footnotes.rs:13-115. -/
def check (doc : List Nat) (lo hi : Nat) : List (Nat × Outcome) :=
  (brackets lo ((doc.drop lo).take (hi - lo))).map fun s => (s, at_ doc s)

end Verif.Footnote
