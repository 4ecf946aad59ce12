import Verif.Ascii.Spec

/-! Model of `clippy_lints/src/manual_is_ascii_check.rs`. Versions and types are left out. -/

namespace Verif.Ascii.Model

open Verif.Ascii

/-- `CharRange` (`clippy_lints/src/manual_is_ascii_check.rs:74-90`). -/
inductive CharRange
  | lowerChar | upperChar | fullChar | digit | lowerHexLetter | upperHexLetter | hexDigit | otherwise
deriving DecidableEq, Repr

/-- `check_lit_range` (`clippy_lints/src/manual_is_ascii_check.rs:231-240`). -/
def checkLitRange : Lit → Lit → CharRange
  | .char 97, .char 122 | .byte 97, .byte 122 => .lowerChar
  | .char 65, .char 90 | .byte 65, .byte 90 => .upperChar
  | .char 97, .char 102 | .byte 97, .byte 102 => .lowerHexLetter
  | .char 65, .char 70 | .byte 65, .byte 70 => .upperHexLetter
  | .char 48, .char 57 | .byte 48, .byte 57 => .digit
  | _, _ => .otherwise

/-- The ranges of alternatives taken together (`clippy_lints/src/manual_is_ascii_check.rs:188-198`). -/
def combine (rs : List CharRange) : CharRange :=
  if rs.length = 2 && rs.contains .upperChar && rs.contains .lowerChar then .fullChar
  else if rs.length = 3 && rs.contains .digit && rs.contains .lowerHexLetter && rs.contains .upperHexLetter then .hexDigit
  else .otherwise

mutual
/-- `check_pat` with `check_range` (`clippy_lints/src/manual_is_ascii_check.rs:183-203`, `:215-229`). -/
def checkPat : Pat → CharRange
  | .alts ps => combine (checkPats ps)
  | .range false lo false hi => checkLitRange lo hi
  | .range true _ _ _ => .otherwise
  | .range false _ true _ => .otherwise
  | .half _ _ => .otherwise
  | .other _ => .otherwise
/-- `check_pat` of all alternatives (`clippy_lints/src/manual_is_ascii_check.rs:186`). -/
def checkPats : List Pat → List CharRange
  | [] => []
  | p :: ps => checkPat p :: checkPats ps
end

/-- `check_is_ascii` (`clippy_lints/src/manual_is_ascii_check.rs:150-181`). -/
def suggestion : CharRange → Option Method
  | .upperChar => some .isAsciiUppercase
  | .lowerChar => some .isAsciiLowercase
  | .fullChar => some .isAsciiAlphabetic
  | .digit => some .isAsciiDigit
  | .hexDigit => some .isAsciiHexdigit
  | .otherwise | .lowerHexLetter | .upperHexLetter => none

/-- `check_expr` (`clippy_lints/src/manual_is_ascii_check.rs:93-135`) with `check_expr_range` (`:205-213`). -/
def check : Test → Option Method
  | .matches pat _ => suggestion (checkPat pat)
  | .contains closed lo hi => if closed then suggestion (checkLitRange lo hi) else none

end Verif.Ascii.Model
