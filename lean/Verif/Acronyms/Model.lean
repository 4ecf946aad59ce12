import Verif.Acronyms.Spec

/-!
# Acronyms in names: the linter
-/

namespace Verif.Acronyms

/-- `char::is_ascii_uppercase`, as used in clippy_lints/src/upper_case_acronyms.rs:61. -/
def isUp (c : Char) : Bool := decide (65 ≤ c.toNat) && decide (c.toNat ≤ 90)

/-- `char::to_ascii_lowercase`, as used in clippy_lints/src/upper_case_acronyms.rs:81 and 97. -/
def toLow (c : Char) : Char := if isUp c then Char.ofNat (c.toNat + 32) else c

/-- The loop of `contains_acronym` with its counter; clippy_lints/src/upper_case_acronyms.rs:59-70. -/
def containsFrom (count : Nat) : List Char → Bool
  | [] => count == 2
  | c :: r => if isUp c then (if count + 1 == 3 then true else containsFrom (count + 1) r) else containsFrom 0 r

/-- `contains_acronym`; clippy_lints/src/upper_case_acronyms.rs:58-71. -/
def containsAcronym (s : List Char) : Bool := containsFrom 0 s

/-- `s.clone().next().is_none_or(|c| c.is_ascii_uppercase())`; clippy_lints/src/upper_case_acronyms.rs:95. -/
def nextUp : List Char → Bool
  | [] => true
  | c :: _ => isUp c

/-- The loop that makes the replacement of a name with an acronym; clippy_lints/src/upper_case_acronyms.rs:91-102. -/
def lowered (prevUpper : Bool) : List Char → List Char
  | [] => []
  | c :: r => (if prevUpper && nextUp r then toLow c else c) :: lowered (isUp c) r

/-- The replacement of a name of capital letters; clippy_lints/src/upper_case_acronyms.rs:78-82. The name is not empty there. -/
def initial : List Char → List Char
  | [] => []
  | c :: r => c :: r.map toLow

/-- `trim_start_matches('_')`; clippy_lints/src/upper_case_acronyms.rs:85. -/
def trimmed : List Char → List Char
  | [] => []
  | c :: r => if c == '_' then trimmed r else c :: r

/-- `starts_with(|c: char| c.is_ascii_uppercase())`; clippy_lints/src/upper_case_acronyms.rs:86. -/
def startsUp : List Char → Bool
  | [] => false
  | c :: _ => isUp c

/-- The number of bytes, `s.len()`; clippy_lints/src/upper_case_acronyms.rs:77. -/
def bytes : List Char → Nat
  | [] => 0
  | c :: r => c.utf8Size + bytes r

/-- `check_ident`: the replacement that is suggested; clippy_lints/src/upper_case_acronyms.rs:73-106. Bytes of a character
that is not ASCII are no capital letters, so all bytes are capital letters when all characters are. -/
def checkIdent (aggressive : Bool) (s : List Char) : Option (List Char) :=
  if decide (2 < bytes s) && s.all isUp then some (initial s)
  else if aggressive && startsUp (trimmed s) && containsAcronym (trimmed s) then some (lowered false s)
  else none

/-- The report for one name; clippy_lints/src/upper_case_acronyms.rs:108-122. -/
def report (aggressive : Bool) (s : List Char) : List (List Char × List Char) :=
  match checkIdent aggressive s with
  | some r => [(s, r)]
  | none => []

/-- `check_item`: the reports; clippy_lints/src/upper_case_acronyms.rs:126-147. -/
def checkItem (g : Cfg) (i : Item) : List (List Char × List Char) :=
  if i.inMacro || (g.avoidBreaking && i.exported) then []
  else match i.kind with
    | .type n => report g.aggressive n
    | .enum n vs => report g.aggressive n ++ vs.flatMap (report g.aggressive)
    | .other => []

end Verif.Acronyms
