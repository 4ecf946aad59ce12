import Verif.DocWords.Slices
import Verif.Safety.Spec

/-!
# Model: the search for safety comments
-/

namespace Verif.Safety

open Verif.DocWords (bytes splitBytes)

/-- `HasSafetyComment` — clippy_lints/src/undocumented_unsafe_blocks.rs:538-542; the position is that in the file. -/
inductive Res | no | yes (pos : Nat) (doc : Bool)
  deriving DecidableEq, Repr

/-- `str::find` — clippy_lints/src/undocumented_unsafe_blocks.rs:838, 856, 877. -/
def find (x : Word) : Word → Option Nat
  | [] => if x.isEmpty then some 0 else none
  | c :: r => if x.isPrefixOf (c :: r) then some 0 else (find x r).map (· + c.utf8Size)

/-- `"SAFETY:"` — clippy_lints/src/undocumented_unsafe_blocks.rs:838, 859, 877. -/
def word : Word := ['S', 'A', 'F', 'E', 'T', 'Y', ':']

/-- `to_ascii_uppercase().find("SAFETY:")` — clippy_lints/src/undocumented_unsafe_blocks.rs:838, 877. -/
def findSafety (w : Word) : Option Nat := find word (w.map Char.toUpper)

/-- `is_attribute` — clippy_lints/src/undocumented_unsafe_blocks.rs:896-898. -/
def isAttribute (k : Cls) (t : Word) : Bool :=
  (['#', '['].isPrefixOf t || ['#', '!', '['].isPrefixOf t) && [']'].isSuffixOf (t.reverse.dropWhile k.sp).reverse

/-- The lines with their positions — clippy_lints/src/undocumented_unsafe_blocks.rs:808-817, in the order of the text. Simplified: the beginnings of the
lines are right, so that the text is given as lines (and `n` bytes before them). -/
def placed (k : Cls) : Nat → List Word → List (Nat × Word)
  | _, [] => []
  | n, l :: r => (n + (bytes l - bytes (l.dropWhile k.sp)), l.dropWhile k.sp) :: placed k (n + bytes l) r

/-- The lines that are looked at — clippy_lints/src/undocumented_unsafe_blocks.rs:808-818. -/
def lines (k : Cls) (acc : Bool) (n : Nat) (ls : List Word) : List (Nat × Word) :=
  (placed k n ls).reverse.filter (fun l => !(l.2.isEmpty || (acc && isAttribute k l.2)))

/-- `line.strip_prefix("///").or_else(…)` — clippy_lints/src/undocumented_unsafe_blocks.rs:832. -/
def docText (t : Word) : Option Word :=
  if ['/', '/', '/'].isPrefixOf t then some (t.drop 3) else if ['/', '/', '!'].isPrefixOf t then some (t.drop 3) else none

/-- The line is a fence — clippy_lints/src/undocumented_unsafe_blocks.rs:832-834. -/
def isFence (k : Cls) (t : Word) : Bool :=
  match docText t with
  | some d => ['`', '`', '`'].isPrefixOf (d.dropWhile k.sp)
  | none => false

/-- What is found in a line comment — clippy_lints/src/undocumented_unsafe_blocks.rs:838. -/
def inLine (code : Bool) (t : Word) : Option Nat := if !code then findSafety t else none

/-- The line comments — clippy_lints/src/undocumented_unsafe_blocks.rs:824-850. -/
def slashLoop (k : Cls) (code : Bool) : List (Nat × Word) → Res
  | [] => .no
  | (s, t) :: rest =>
    if ['/', '/'].isPrefixOf t then
      match inLine (if isFence k t then !code else code) t with
      | some p => .yes (s + p) (['/', '/', '/'].isPrefixOf t)
      | none => slashLoop k (if isFence k t then !code else code) rest
    else .no

/-- `[…].into_iter().flatten().min()` — clippy_lints/src/undocumented_unsafe_blocks.rs:856. -/
def minFind (t : Word) : Option Nat :=
  match find ['/', '/'] t, find ['/', '*'] t with
  | some a, some b => some (min a b)
  | some a, none => some a
  | none, b => b

/-- `trimmed.get(..7).is_some_and(…)` — clippy_lints/src/undocumented_unsafe_blocks.rs:859. -/
def startsSafety (t : Word) : Bool :=
  match splitBytes 7 t with
  | some (a, _) => a.map Char.toUpper == word
  | none => false

/-- A comment after code — clippy_lints/src/undocumented_unsafe_blocks.rs:856-868; the outer `none` is a panic. -/
def trailing (k : Cls) (s : Nat) (t : Word) : Option (Option Res) :=
  match minFind t with
  | none => some none
  | some n =>
    match splitBytes (n + 2) t with
    | none => none
    | some (_, after) =>
      if startsSafety (after.dropWhile k.sp) then some (some (.yes (s + (n + (2 + (bytes after - bytes (after.dropWhile k.sp))))) false))
      else some none

/-- The rest of a block comment in `d` others — clippy_lints/src/undocumented_unsafe_blocks.rs:875-877 (`rustc_lexer`): the comment and what follows. -/
def close : Nat → Word → Word × Word
  | _, [] => ([], [])
  | d, '/' :: '*' :: r => ('/' :: '*' :: (close (d + 1) r).1, (close (d + 1) r).2)
  | 0, '*' :: '/' :: r => (['*', '/'], r)
  | d + 1, '*' :: '/' :: r => ('*' :: '/' :: (close d r).1, (close d r).2)
  | d, c :: r => (c :: (close d r).1, (close d r).2)

/-- A block comment, from its beginning to the end of the text — clippy_lints/src/undocumented_unsafe_blocks.rs:874-887. -/
def blockText (k : Cls) (s : Nat) (t text : Word) : Res :=
  match findSafety ('/' :: '*' :: (close 0 (text.drop 2)).1) with
  | some p => if (close 0 (text.drop 2)).2.all k.lex then .yes (s + p) (['/', '*', '*'].isPrefixOf t) else .no
  | none => .no

/-- The search for a block comment — clippy_lints/src/undocumented_unsafe_blocks.rs:871-893; `none` is a panic. -/
def blockLoop (k : Cls) (total : Word) : List (Nat × Word) → Option Res
  | [] => some .no
  | (s, t) :: rest =>
    if ['/', '*'].isPrefixOf t then
      match splitBytes s total with
      | none => none
      | some (_, text) => some (blockText k s t text)
    else blockLoop k total rest

/-- The last line is not a line comment — clippy_lints/src/undocumented_unsafe_blocks.rs:856-893. -/
def other (k : Cls) (total : Word) (s : Nat) (t : Word) (rest : List (Nat × Word)) : Option Res :=
  match trailing k s t with
  | none => none
  | some (some r) => some r
  | some none => blockLoop k total ((s, t) :: rest)

/-- `text_has_safety_comment` — clippy_lints/src/undocumented_unsafe_blocks.rs:802-894; `before` is the text before the lines. -/
def check (k : Cls) (acc : Bool) (before : Word) (ls : List Word) : Option Res :=
  match lines k acc (bytes before) ls with
  | [] => some .no
  | (s, t) :: rest =>
    if ['/', '/'].isPrefixOf t then some (slashLoop k false ((s, t) :: rest)) else other k (before ++ ls.flatten) s t rest

end Verif.Safety
