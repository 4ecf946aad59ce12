import Verif.StrCase.Spec

/-!
# Matches on strings in another case: the linter
-/

namespace Verif.StrCase

/-- `MatchExprVisitor::visit_expr` with `case_altered`: the first method found, from the outside in; the parts of other code from left to
right; clippy_lints/src/matches/match_str_case_mismatch.rs:45-68. -/
def visit : Scr → Option Method
  | .var _ => none
  | .meth m true _ => some m
  | .meth _ false e => visit e
  | .same e => visit e
  | .other _ a b => (visit a).or (visit b)

/-- `c.to_lowercase().next() == Some(c)`; clippy_lints/src/matches/match_str_case_mismatch.rs:83 (and 85 for the large form). -/
def firstIs (f : Char → List Char) (c : Char) : Bool := (f c).head? == some c

/-- `char::is_ascii_uppercase`; clippy_lints/src/matches/match_str_case_mismatch.rs:84. -/
def isUp (c : Char) : Bool := decide (65 ≤ c.toNat) && decide (c.toNat ≤ 90)

/-- `char::is_ascii_lowercase`; clippy_lints/src/matches/match_str_case_mismatch.rs:86. -/
def isLow (c : Char) : Bool := decide (97 ≤ c.toNat) && decide (c.toNat ≤ 122)

/-- `case_check` in `verify_case`; clippy_lints/src/matches/match_str_case_mismatch.rs:82-87. -/
def caseCheck (U : Unicode) : Method → List Char → Bool
  | .lower, s => s.all (firstIs U.lower)
  | .asciiLower, s => !s.any isUp
  | .upper, s => s.all (firstIs U.upper)
  | .asciiUpper, s => !s.any isLow

/-- `verify_case`: the first arm with a text in the wrong case, as its number and text; clippy_lints/src/matches/match_str_case_mismatch.rs:81-103. -/
def verifyCase (U : Unicode) (m : Method) : List Pat → Option (Nat × List Char)
  | [] => none
  | .text t :: r => if !caseCheck U m t then some (0, t) else (verifyCase U m r).map fun p => (p.1 + 1, p.2)
  | .other _ :: r => (verifyCase U m r).map fun p => (p.1 + 1, p.2)

/-- The changed text in `lint`; clippy_lints/src/matches/match_str_case_mismatch.rs:106-111. The methods are those of the standard library. -/
def suggestion (U : Unicode) : Method → List Char → List Char
  | .lower, t => lowerFrom U [] t
  | .asciiLower, t => t.map asciiSmall
  | .upper, t => t.flatMap U.upper
  | .asciiUpper, t => t.map asciiLarge

/-- `check` for a scrutinee of type `&str`: the arm and its new text; clippy_lints/src/matches/match_str_case_mismatch.rs:26-37. -/
def check (U : Unicode) (e : Scr) (arms : List Pat) : Option (Nat × List Char) :=
  match visit e with
  | none => none
  | some m => (verifyCase U m arms).map fun p => (p.1, suggestion U m p.2)

/-- The source code that replaces the literal, `format!("\"{suggestion}\"")`; clippy_lints/src/matches/match_str_case_mismatch.rs:119. -/
def rendered (t : List Char) : List Char := '"' :: (t ++ ['"'])

/-- Replaces the literal of an arm, which is what applying the suggestion does; clippy_lints/src/matches/match_str_case_mismatch.rs:113-121. -/
def fixArm (arms : List Pat) : Nat → List Char → List Pat := fun i u => arms.set i (.text u)

end Verif.StrCase
