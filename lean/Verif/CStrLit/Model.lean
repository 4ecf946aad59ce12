import Verif.CStrLit.Spec

/-!
# Byte strings that end with NUL: the linter
-/

namespace Verif.CStrLit

/-- `is_nul_terminated` for the bytes of a literal; clippy_lints/src/methods/manual_c_str_literals.rs:183-190. -/
def isNulTerminated (bytes : List Nat) : Bool := bytes.getLast? == some 0

/-- `str::trim_start_matches` for a character; clippy_lints/src/methods/manual_c_str_literals.rs:156. -/
def trimStart (c : Char) : List Char → List Char
  | [] => []
  | d :: r => if d == c then trimStart c r else d :: r

/-- The text before the last `"`, and that from it on (`rfind`); clippy_lints/src/methods/manual_c_str_literals.rs:159. -/
def splitQuote : List Char → Option (List Char × List Char)
  | [] => none
  | c :: r =>
    match splitQuote r with
    | some (a, b) => some (c :: a, b)
    | none => if c == '"' then some ([], c :: r) else none

/-- Whether a text ends with another; clippy_lints/src/methods/manual_c_str_literals.rs:162, 166, 170. -/
def endsWith (s t : List Char) : Bool := (s.drop (s.length - t.length)) == t

/-- The text without its last characters; clippy_lints/src/methods/manual_c_str_literals.rs:163, 167, 171. -/
def cut (n : Nat) (s : List Char) : List Char := s.take (s.length - n)

/-- The text before the closing quote without NUL; clippy_lints/src/methods/manual_c_str_literals.rs:160-176. -/
def dropNul (s : List Char) : Option (List Char) :=
  if endsWith s [Char.ofNat 0] then some (cut 1 s)
  else if endsWith s ['\\', 'x', '0', '0'] then some (cut 4 s)
  else if endsWith s ['\\', '0'] then some (cut 2 s)
  else none

/-- `rewrite_as_cstr` for a literal with its text and bytes; clippy_lints/src/methods/manual_c_str_literals.rs:151-180. -/
def rewriteAsCStr (snippet : List Char) (bytes : List Nat) : Option (List Char) :=
  if !isNulTerminated bytes then none
  else match splitQuote ('c' :: trimStart 'b' snippet) with
    | some (a, b) => (dropNul a).map (· ++ b)
    | none => some ('c' :: trimStart 'b' snippet)

end Verif.CStrLit
