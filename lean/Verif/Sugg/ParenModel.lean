import Verif.Common.Text

/-! # Enclosing parentheses, on characters -/

namespace Verif.Sugg
open Verif

/-- The `for` loop of `has_enclosing_paren` — sugg.rs:438-447: the characters left after the loop. -/
def charsAfter : (depth : Int) → Str → Str
  | _, [] => []
  | depth, c :: cs =>
      let depth := if c = '(' then depth + 1 else if c = ')' then depth - 1 else depth
      if depth = 0 then cs else charsAfter depth cs

/-- `has_enclosing_paren` — sugg.rs:434-452. -/
def enclosed : Str → Bool
  | [] => false
  | c :: cs => if c = '(' then (charsAfter 1 cs).isEmpty else false

/-- `strip_enclosing_paren` — sugg.rs:455-468. `none` is a panic: an empty rest, or (for borrowed text) a
last character longer than a byte. -/
def stripEnclosing (borrowed : Bool) (s : Str) : Option Str :=
  if enclosed s then
    match s.drop 1 with
    | [] => none
    | rest =>
        if borrowed && rest.getLast?.any (fun c => c.utf8Size ≠ 1) then none else some rest.dropLast
  else some s

/-- The text `maybe_paren` gives for a `MaybeParen` — sugg.rs:365-371. -/
def parenthesize (s : Str) : Str := if enclosed s then s else '(' :: s ++ [')']

end Verif.Sugg
