import Verif.Common.Text

/-!
# Numeric literals: parsing and digit grouping

Model of clippy_utils/src/numeric_literal.rs and of the grouping checks of
clippy_lints/src/literal_representation.rs. All texts are ASCII, so characters stand for bytes.
-/

namespace Verif.NumLit
open Verif

/-- `Radix` — clippy_utils/src/numeric_literal.rs:4-15. -/
inductive Radix
  | binary | octal | decimal | hexadecimal
  deriving DecidableEq, Repr

/-- `Radix::suggest_grouping` — numeric_literal.rs:20-25. -/
def Radix.grouping : Radix → Nat
  | .binary | .hexadecimal => 4
  | .octal | .decimal => 3

/-- `NumericLiteral` — numeric_literal.rs:35-51. -/
structure Num where
  radix : Radix
  pre : Option Str
  integer : Str
  fraction : Option Str
  exponent : Option (Str × Str)
  suffix : Option Str
  deriving DecidableEq, Repr

/-- The loop of `split_digit_parts` — numeric_literal.rs:123-142. `i` is the byte index of the head of
`rest` in `digits`. Every slice taken is in bounds: an underscore before the exponent marker comes after
the point. -/
def splitGo (digits : Str) : (i : Nat) → (rest integer : Str) → (fraction : Option Str) →
    Str × Option Str × Option (Str × Str)
  | _, [], integer, fraction => (integer, fraction, none)
  | i, c :: cs, integer, fraction =>
      if c = '.' then splitGo digits (i + 1) cs (digits.take i) (some (digits.drop (i + 1)))
      else if c = 'e' ∨ c = 'E' then
        let expStart := if (digits.take i).getLast? = some '_' then i - 1 else i
        let exponent := some ((digits.take (i + 1)).drop expStart, digits.drop (i + 1))
        if integer.length > expStart then (digits.take expStart, fraction, exponent)
        else (integer, some ((digits.take expStart).drop (integer.length + 1)), exponent)
      else splitGo digits (i + 1) cs integer fraction

/-- `split_digit_parts` — numeric_literal.rs:117-146. -/
def splitDigitParts (digits : Str) (float : Bool) : Str × Option Str × Option (Str × Str) :=
  if float then splitGo digits 0 digits digits none else (digits, none, none)

/-- The radix chosen by `new` — numeric_literal.rs:75-85. -/
def radixOf (lit : Str) : Radix :=
  let unsigned := lit.dropWhile (· == '-')
  if ['0', 'x'].isPrefixOf unsigned then .hexadecimal
  else if ['0', 'b'].isPrefixOf unsigned then .binary
  else if ['0', 'o'].isPrefixOf unsigned then .octal
  else .decimal

/-- `NumericLiteral::new` — numeric_literal.rs:74-110. -/
def parse (lit : Str) (suffix : Option Str) (float : Bool) : Num :=
  let radix := radixOf lit
  let (pre, sans) := if radix = .decimal then (none, lit) else (some (lit.take 2), lit.drop 2)
  let sans := if suffix.isSome ∧ sans.getLast? = some '_' then sans.dropLast else sans
  let (integer, fraction, exponent) := splitDigitParts sans float
  { radix, pre, integer, fraction, exponent, suffix }

/-- `iter::zip(digits, (0..group_size).cycle())` — numeric_literal.rs:222-227; `i` is the cycling
index. -/
def cycleDigits (size : Nat) : (i : Nat) → Str → Str
  | _, [] => []
  | i, c :: cs => (if i = 0 then ['_', c] else [c]) ++ cycleDigits size ((i + 1) % size) cs

/-- `group_digits` — numeric_literal.rs:191-228. `none` is the panic on `count() - 1` when there are no
digits (with overflow checks; without them the subtraction wraps around). -/
def groupDigits (input : Str) (size : Nat) (partialFirst zeroPad : Bool) : Option Str :=
  let digits := input.filter (· != '_')
  let (sign, digits) := if digits.head? = some '-' then (['-'], digits.tail) else ([], digits)
  if partialFirst then
    if digits.length = 0 then none
    else
      let first := (digits.length - 1) % size + 1
      let pad := if zeroPad then List.replicate (size - first) '0' else []
      some (sign ++ pad ++ digits.take first ++ cycleDigits size 0 (digits.drop first))
  else some (sign ++ digits.take size ++ cycleDigits size 0 (digits.drop size))

/-- `NumericLiteral::format` up to the suffix — numeric_literal.rs:149-178; `none` is a panic of
`group_digits`. -/
def Num.unsuffixed (n : Num) : Option Str := do
  let size := n.radix.grouping
  let integer ← groupDigits n.integer size true (n.radix = .hexadecimal)
  let output := n.pre.getD [] ++ integer
  let output ← match n.fraction with
    | some fraction => do
        let fraction ← groupDigits fraction size false false
        pure (output ++ '.' :: fraction)
    | none => pure output
  match n.exponent with
    | some (separator, exponent) =>
        if exponent ≠ [] ∧ exponent ≠ ['0'] then do
          let exponent ← groupDigits exponent size true false
          pure (output ++ separator ++ exponent)
        else if exponent = ['0'] ∧ n.fraction = none ∧ n.suffix = none then
          pure (output ++ ['.', '0'])
        else pure output
    | none => pure output

/-- The suffix is written last — numeric_literal.rs:180-186. -/
def addSuffix (suffix : Option Str) (output : Str) : Str :=
  match suffix with
  | some suffix => (if output.getLast? = some '.' then output ++ ['0'] else output) ++ '_' :: suffix
  | none => output

/-- `NumericLiteral::format` — numeric_literal.rs:149-189. -/
def Num.format (n : Num) : Option Str := n.unsuffixed.map (addSuffix n.suffix)

/-- The free function `format` — numeric_literal.rs:30-32. -/
def format (lit : Str) (suffix : Option Str) (float : Bool) : Option Str :=
  (parse lit suffix float).format

/-- `split_suffix` — numeric_literal.rs:231-239, given the length of the type suffix the compiler parsed. -/
def splitSuffix (src : Str) (suffixLen : Option Nat) : Str × Option Str :=
  match suffixLen with
  | some k => if k ≤ src.length then (src.take (src.length - k), some (src.drop (src.length - k)))
              else (src, none)
  | none => (src, none)

/-- `NumericLiteral::from_lit_kind` for a numeric literal kind — numeric_literal.rs:55-70. The check of
the first character after blanks is not modelled (it is true of every literal). -/
def fromLitKind (src : Str) (suffixLen : Option Nat) (float : Bool) : Num :=
  let (unsuffixed, suffix) := splitSuffix src suffixLen
  parse unsuffixed suffix float

/-! ## Grouping checks of `literal_representation.rs` -/

/-- The warnings that ask for regrouping — clippy_lints/src/literal_representation.rs:158-165. -/
inductive Warning
  | unreadable | inconsistent | large | unusualBytes
  deriving DecidableEq, Repr

/-- Tail of `get_group_size` from the second `groups.next()` on — literal_representation.rs:401-413. -/
def groupSizeTail (first : Nat) (rest : List Nat) (lintUnreadable : Bool) : Except Warning (Option Nat) :=
  match rest with
  | second :: more =>
      if ¬ (more.all (· == second)) ∨ first > second then .error .inconsistent
      else if second > 4 then .error .large
      else .ok (some second)
  | [] => if first > 5 ∧ lintUnreadable then .error .unreadable else .ok none

/-- `get_group_size` — literal_representation.rs:385-414, on the lengths of the groups. For the radices
other than ten, the first `next`/`all` exhaust the iterator when they do not return early. -/
def getGroupSize (first : Nat) (rest : List Nat) (radix : Radix) (lintUnreadable : Bool) :
    Except Warning (Option Nat) :=
  if radix = .decimal then groupSizeTail first rest lintUnreadable
  else
    match rest with
    | second :: more =>
        if ¬ (more.all (· == second)) ∨ first > second then .error .unusualBytes
        else groupSizeTail first [] lintUnreadable
    | [] => groupSizeTail first [] lintUnreadable

/-- `parts_consistent` — literal_representation.rs:365-381. -/
def partsConsistent (int frac : Option Nat) (intSize fracSize : Nat) : Bool :=
  match int, frac with
  | none, none => true
  | some i, none => fracSize ≤ i
  | none, some f => intSize ≤ f
  | some i, some f => i = f

/-- Lengths of the pieces of `s.split('_')`. -/
def groupLens (s : Str) : List Nat := (Text.split ['_'] s).map List.length

/-- The closure `result` of `check_lit` — literal_representation.rs:243-261. `split` yields at least one
piece, so the fallback pattern is never reached. -/
def checkGroups (n : Num) (lintFraction : Bool) : Except Warning Unit := do
  let int ← match groupLens n.integer with
    | first :: rest => getGroupSize first rest n.radix true
    | [] => .ok none
  match n.fraction with
  | some fraction => do
      let frac ← match (groupLens fraction).reverse with
        | first :: rest => getGroupSize first rest n.radix lintFraction
        | [] => .ok none
      if partsConsistent int frac n.integer.length fraction.length then .ok ()
      else .error .inconsistent
  | none => .ok ()

end Verif.NumLit
