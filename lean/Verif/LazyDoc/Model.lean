import Verif.LazyDoc.Spec

/-!
# Lines of documentation that continue a paragraph: the linter
-/

namespace Verif.LazyDoc

/-- `map_container_to_text`; clippy_lints/src/doc/lazy_continuation.rs:10-16. `none` is the panic of the slice of 18 spaces. -/
def toText : Container → Option (List Char)
  | .quote => some ['>', ' ']
  | .list n => if n ≤ 18 then some (List.replicate n ' ') else none

/-- `str::starts_with` for a text; clippy_lints/src/doc/lazy_continuation.rs:45. -/
def startsWith : List Char → List Char → Bool
  | [], _ => true
  | c :: r, d :: s => c == d && startsWith r s
  | _ :: _, [] => false

/-- `str::find('>')`; clippy_lints/src/doc/lazy_continuation.rs:51. -/
def find : List Char → Option Nat
  | [] => none
  | c :: r => if c == '>' then some 0 else (find r).map (· + 1)

/-- The test for the second branch; clippy_lints/src/doc/lazy_continuation.rs:50-51. -/
def findIn (c : Container) (s : List Char) : Option Nat :=
  match c with
  | .quote => find s
  | .list _ => none

/-- The loop over the containers: how many characters are kept, and the suggestion; clippy_lints/src/doc/lazy_continuation.rs:41-59. Positions are
characters, which are bytes for spaces and `>`. -/
def markers : List Container → List Char → Nat → List Char → Option (Nat × List Char)
  | [], _, keep, sugg => some (keep, sugg)
  | c :: cs, s, keep, sugg =>
    match toText c with
    | none => none
    | some t =>
      if startsWith t s then markers cs (s.drop t.length) (keep + t.length) sugg
      else match findIn c s with
        | some i => markers cs (s.drop (i + 1)) (keep + (i + 1)) sugg
        | none => markers cs s keep (sugg ++ t)

/-- `chars().filter(|c| *c == ch).count()`; clippy_lints/src/doc/lazy_continuation.rs:26 and 78. -/
def count (ch : Char) (s : List Char) : Nat := (s.filter fun c => c == ch).length

/-- `blockquote_level`; clippy_lints/src/doc/lazy_continuation.rs:27-30. -/
def level (cs : List Container) : Nat := (cs.filter fun c => match c with | .quote => true | .list _ => false).length

/-- `list_indentation`; clippy_lints/src/doc/lazy_continuation.rs:79-88. -/
def indentation (cs : List Container) : Nat := (cs.map fun c => match c with | .list n => n | .quote => 0).sum

/-- What happens: nothing, a report, or a panic; clippy_lints/src/doc/lazy_continuation.rs:18-126. -/
inductive Outcome
  | silent
  | report (r : Report)
  | panic
deriving DecidableEq, Repr

/-- The part of `check` for items of lists; clippy_lints/src/doc/lazy_continuation.rs:77-125. -/
def checkList (s : List Char) (cs : List Container) (hasSpan : Bool) : Outcome :=
  if count ' ' s != indentation cs && hasSpan then
    if count ' ' s < indentation cs then .report (.lessIndented (List.replicate (indentation cs - count ' ' s) ' '))
    else .report (.moreIndented (List.replicate (indentation cs) ' '))
  else .silent

/-- `check` for the text `doc[cooked_range]`; clippy_lints/src/doc/lazy_continuation.rs:18-126. `hasSpan` says whether the text has a place in the
source. -/
def check (s : List Char) (cs : List Container) (hasSpan : Bool) : Outcome :=
  if count '>' s < level cs && hasSpan then
    match markers cs s 0 [] with
    | some (k, t) => .report (.unquoted k t)
    | none => .panic
  else if count '>' s != 0 && level cs != 0 then .silent
  else checkList s cs hasSpan

end Verif.LazyDoc
