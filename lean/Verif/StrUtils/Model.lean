import Verif.Common.Text

/-!
# String helpers for names

Model of clippy_utils/src/str_utils.rs. Strings are lists of characters; byte positions are computed from
the UTF-8 lengths. The Unicode tables behind `char::is_uppercase` and friends are a parameter.
-/

namespace Verif.StrUtils
open Verif

/-- The Unicode case functions the code calls. -/
structure Casing where
  upper : Char → Bool
  lower : Char → Bool
  toUpper : Char → Str
  toLower : Char → Str

/-- `str::len`. -/
def byteLen (s : Str) : Nat := (s.map Char.utf8Size).sum

/-- `s.char_indices().enumerate()`, started at the given positions: (character index, byte index,
character). -/
def charIndices : (ci bi : Nat) → Str → List (Nat × Nat × Char)
  | _, _, [] => []
  | ci, bi, c :: cs => (ci, bi, c) :: charIndices (ci + 1) (bi + c.utf8Size) cs

/-- `StrIndex`: (`char_index`, `byte_index`) — str_utils.rs:3-13. -/
abbrev StrIndex := Nat × Nat

/-- The loop of `camel_case_start_from_idx` — str_utils.rs:98-118, over the characters from the back. -/
def startLoop (k : Casing) (startIdx : Nat) : (down : Bool) → (last : StrIndex) →
    List (Nat × Nat × Char) → StrIndex
  | _, last, [] => last
  | down, last, (ci, bi, c) :: rest =>
      if bi < startIdx then last
      else if down then
        if k.upper c then startLoop k startIdx false (ci, bi) rest
        else if !k.lower c then last
        else startLoop k startIdx down last rest
      else if k.lower c then startLoop k startIdx true last rest
      else if k.upper c then startLoop k startIdx down (ci, bi) rest
      else last

/-- `camel_case_start_from_idx` — str_utils.rs:84-121. -/
def camelCaseStartFromIdx (k : Casing) (s : Str) (startIdx : Nat) : StrIndex :=
  match (charIndices 0 0 s).reverse with
  | [] => (s.length, byteLen s)
  | (_, _, first) :: rest =>
      if !k.lower first then (s.length, byteLen s)
      else startLoop k startIdx true (s.length, byteLen s) rest

/-- The `while` loop of `camel_case_indices` — str_utils.rs:140-145. Each round moves the index forward,
so `byteLen s` rounds are enough; the fuel is only there for termination. -/
def indicesLoop (k : Casing) (s : Str) : (fuel : Nat) → StrIndex → List StrIndex
  | 0, idx => [idx]
  | fuel + 1, idx =>
      if idx.2 < byteLen s then idx :: indicesLoop k s fuel (camelCaseStartFromIdx k s (idx.2 + 1))
      else [idx]

/-- `camel_case_indices` — str_utils.rs:136-148. -/
def camelCaseIndices (k : Casing) (s : Str) : List StrIndex :=
  indicesLoop k s (byteLen s) (camelCaseStartFromIdx k s 0)

/-- The characters of `s` from byte position `pos` on; `none` if `pos` is not a character boundary. -/
def dropBytes : Str → Nat → Option Str
  | s, 0 => some s
  | [], _ + 1 => none
  | c :: cs, pos + 1 => if c.utf8Size ≤ pos + 1 then dropBytes cs (pos + 1 - c.utf8Size) else none

/-- The characters of `s` before byte position `pos`. -/
def takeBytes : Str → Nat → Option Str
  | _, 0 => some []
  | [], _ + 1 => none
  | c :: cs, pos + 1 =>
      if c.utf8Size ≤ pos + 1 then (takeBytes cs (pos + 1 - c.utf8Size)).map (c :: ·) else none

/-- `&s[a..b]`; `none` is the panic on a bad position. -/
def slice (s : Str) (a b : Nat) : Option Str :=
  if a ≤ b then (dropBytes s a).bind fun t => takeBytes t (b - a) else none

/-- `offsets.windows(2).map(|w| &s[w[0]..w[1]])`. -/
def pieces (s : Str) : List Nat → Option (List Str)
  | a :: b :: rest => do
      let p ← slice s a b
      let ps ← pieces s (b :: rest)
      pure (p :: ps)
  | _ => some []

/-- `camel_case_split` — str_utils.rs:156-166; `none` is a panic. -/
def camelCaseSplit (k : Casing) (s : Str) : Option (List Str) :=
  match (camelCaseIndices k s).map (·.2) with
  | [] => none
  | o :: os => pieces s (if o ≠ 0 then 0 :: o :: os else o :: os)

/-- `count_match_start` — str_utils.rs:192-206: (`char_count`, `byte_count`). -/
def countMatchStart (s1 s2 : Str) : Nat × Nat :=
  let iter1 := (charIndices 0 0 s1).map fun x => (x.1, x.2.2)
  let iter2 := (charIndices 0 0 s2).map fun x => (x.2.1, x.2.2)
  match ((iter1.zip iter2).takeWhile fun p => p.1.2 == p.2.2).getLast? with
  | none => (0, 0)
  | some ((ci, _), (bi, c)) => (ci + 1, bi + c.utf8Size)

/-- `count_match_end` — str_utils.rs:218-237. -/
def countMatchEnd (s1 s2 : Str) : Nat × Nat :=
  if s1.length = 0 then (0, 0)
  else
    let iter1 := (charIndices 0 0 s1).reverse.map fun x => (x.1, x.2.2)
    let iter2 := (charIndices 0 0 s2).reverse.map fun x => (x.2.1, x.2.2)
    match ((iter1.zip iter2).takeWhile fun p => p.1.2 == p.2.2).getLast? with
    | none => (0, 0)
    | some ((ci, _), (bi, _)) => (s1.length - ci, byteLen s2 - bi)

/-- The loop of `to_snake_case` — str_utils.rs:249-259; `i` is the index of the next character. -/
def snakeGo (k : Casing) : (i : Nat) → Str → Str
  | _, [] => []
  | i, c :: cs =>
      (if k.upper c then (if i ≠ 0 then ['_'] else []) ++ k.toLower c else [c]) ++ snakeGo k (i + 1) cs

/-- `to_snake_case` — str_utils.rs:247-261. -/
def toSnakeCase (k : Casing) (name : Str) : Str := snakeGo k 0 name

/-- The loop of `to_camel_case` — str_utils.rs:273-288; `none` is the early return. -/
def camelGo (k : Casing) : (up : Bool) → Str → Option Str
  | _, [] => some []
  | up, c :: cs =>
      if k.upper c then none
      else if c = '_' then camelGo k true cs
      else (camelGo k false cs).map ((if up then k.toUpper c else [c]) ++ ·)

/-- `to_camel_case` — str_utils.rs:270-290. -/
def toCamelCase (k : Casing) (name : Str) : Str := (camelGo k true name).getD name

/-- The case functions on ASCII characters; no other character has a case. -/
def ascii : Casing where
  upper c := 'A' ≤ c ∧ c ≤ 'Z'
  lower c := 'a' ≤ c ∧ c ≤ 'z'
  toUpper c := [if 'a' ≤ c ∧ c ≤ 'z' then Char.ofNat (c.toNat - 32) else c]
  toLower c := [if 'A' ≤ c ∧ c ≤ 'Z' then Char.ofNat (c.toNat + 32) else c]

end Verif.StrUtils
