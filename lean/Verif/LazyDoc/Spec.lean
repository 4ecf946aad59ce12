/-!
# Lines of documentation that continue a paragraph: what is meant

The text between a line break and the next text of the paragraph is a list of characters.
-/

namespace Verif.LazyDoc

/-- What a paragraph is in: a quote, or an item of a list whose text starts `n` characters after its marker. -/
inductive Container
  | quote
  | list (n : Nat)
deriving DecidableEq, Repr

/-- The number of quotes. -/
def quotes : List Container → Nat
  | [] => 0
  | .quote :: r => quotes r + 1
  | .list _ :: r => quotes r

/-- The columns that the items of lists take. -/
def columns : List Container → Nat
  | [] => 0
  | .quote :: r => columns r
  | .list n :: r => n + columns r

/-- How often a character is in a text. -/
def occurs (c : Char) : List Char → Nat
  | [] => 0
  | d :: r => (if d = c then 1 else 0) + occurs c r

/-- Takes `n` spaces away. -/
def dropSpaces : Nat → List Char → Option (List Char)
  | 0, s => some s
  | n + 1, ' ' :: s => dropSpaces n s
  | _ + 1, _ => none

/-- Takes the marker of a quote away: at most `n` spaces, `>`, and a space if there is one. -/
def dropMarker : Nat → List Char → Option (List Char)
  | _, '>' :: ' ' :: s => some s
  | _, '>' :: s => some s
  | n + 1, ' ' :: s => dropMarker n s
  | _, _ => none

/-- Takes the start of a line away that continues a paragraph in the containers (CommonMark: at most three spaces before `>`). What is left belongs to
the paragraph; `none` is a line that does not continue all of them, a lazy one. -/
def strip : List Container → List Char → Option (List Char)
  | [], s => some s
  | .quote :: r, s => (dropMarker 3 s).bind (strip r)
  | .list n :: r, s => (dropSpaces n s).bind (strip r)

/-- The usual start of a line in the containers. -/
def usual : List Container → List Char
  | [] => []
  | .quote :: r => '>' :: ' ' :: usual r
  | .list n :: r => List.replicate n ' ' ++ usual r

/-- What is reported. -/
inductive Report
  /-- A line of a quote without enough markers: after `keep` characters, the rest is replaced. -/
  | unquoted (keep : Nat) (text : List Char)
  /-- A line of an item without enough spaces: these are inserted at the end. -/
  | lessIndented (text : List Char)
  /-- A line of an item with too many spaces: this is the replacement. -/
  | moreIndented (text : List Char)
deriving DecidableEq, Repr

/-- The start of the line after applying the suggestion. -/
def Report.applied (s : List Char) : Report → List Char
  | .unquoted k t => s.take k ++ t
  | .lessIndented t => s ++ t
  | .moreIndented t => t

end Verif.LazyDoc
