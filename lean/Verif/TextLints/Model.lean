import Verif.Common.Text

/-!
# Text-level lints: raw strings, tabs in doc comments, re-indentation
-/

namespace Verif.TextLints
open Verif

/-! ## Raw strings -/

/-- The `try_fold` over the literal's bytes — clippy_lints/src/raw_strings.rs:140-167. State: the
variables `following_quote`, `req` and the accumulator. The three bytes it distinguishes are ASCII,
so characters stand for bytes. Early `Break(req)` returns `req`. -/
def scan (max : Nat) : Bool → Nat → Nat → Str → Nat
  | _, _, acc, [] => acc
  | fq, req, acc, b :: bs =>
      if b = '"' ∧ fq = false then scan max true 1 acc bs
      else if b = '#' then scan max fq (req + if fq then 1 else 0) acc bs
      else if fq then
        if req = max then req else scan max false req (Nat.max acc req) bs
      else scan max fq req acc bs

/-- Number of hashes `check_raw_string` keeps — raw_strings.rs:140-170; the chained `once(&0)` is the
NUL at the end. -/
def requiredHashes (allowOneHash : Bool) (max : Nat) (str : Str) : Nat :=
  let req := scan max false 0 0 (str ++ ['\x00'])
  if allowOneHash then Nat.max req 1 else req

/-- The literal after applying the hash suggestion, if the lint fires — raw_strings.rs:171-190:
`max - req` hashes are removed on both sides. -/
def hashSuggestion (allowOneHash : Bool) (max : Nat) (str : Str) : Option Nat :=
  let req := requiredHashes allowOneHash max str
  if req < max then some req else none

/-- Whether `needless_raw_strings` proposes a plain literal — raw_strings.rs:109. -/
def plainSuggested (str : Str) : Bool := !(str.any fun c => c = '\\' || c = '"')

/-! ## Tabs in doc comments -/

/-- `get_chunks_of_tabs` — clippy_lints/src/tabs_in_doc_comments.rs:102-123: one step of the iterator per
recursive call, with its state (`offset`, `haystack`). Bytes are natural numbers. Simplification: the
conversion to `u32`, which panics for comments of 4 GiB, is not modelled. -/
def chunksOfTabs (offset : Nat) (haystack : List Nat) : List (Nat × Nat) :=
  match h : haystack.findIdx? (· == 9) with
  | none => []
  | some i =>
      let len := 1 + ((haystack.drop (i + 1)).takeWhile (· == 9)).length
      let start := offset + i
      let stop := start + len
      (start, stop) :: chunksOfTabs stop (haystack.drop (i + len))
termination_by haystack.length
decreasing_by
  have := (List.findIdx?_eq_some_iff_findIdx_eq.mp h).1
  simp only [List.length_drop]
  omega

/-! ## Re-indentation -/

/-- Removes one carriage return from the (reversed) end of a line. -/
def stripCr : Str → Str
  | '\r' :: cur => cur
  | cur => cur

/-- `str::lines`: pieces terminated by `\n`, without the terminator and one `\r` before it; a final
piece without terminator is kept as it is unless it is empty. `cur` is the current piece, reversed. -/
def linesGo : (cur s : Str) → List Str
  | cur, [] => if cur.isEmpty then [] else [cur.reverse]
  | cur, c :: cs =>
      if c = '\n' then (stripCr cur).reverse :: linesGo [] cs else linesGo (c :: cur) cs

def lines (s : Str) : List Str := linesGo [] s

/-- `[..].join("\n")`. -/
def joinNl : List Str → Str
  | [] => []
  | [l] => l
  | l :: ls => l ++ '\n' :: joinNl ls

/-- Number of leading `ch` characters — clippy_utils/src/source.rs:508. -/
def leading (ch : Char) (l : Str) : Nat := (l.takeWhile (· == ch)).length

/-- The minimum `x` over the non-empty lines — source.rs:500-513. -/
def minLeading (ch : Char) (ls : List Str) : Nat :=
  ((ls.filter (fun l => !l.isEmpty)).map (leading ch)).min?.getD 0

/-- The closure applied to one line that is not the ignored first one — source.rs:516-524. -/
def shiftLine (x indent : Nat) (l : Str) : Str :=
  if l.isEmpty then l
  else if x > indent then l.drop (x - indent)
  else List.replicate (indent - x) ' ' ++ l

/-- `reindent_multiline_inner` on the list of lines — source.rs:499-527. -/
def reindentLines (ls : List Str) (ignoreFirst : Bool) (indent : Nat) (ch : Char) : List Str :=
  let x := minLeading ch (ls.drop (if ignoreFirst then 1 else 0))
  match ls, ignoreFirst with
  | l :: rest, true => l :: rest.map (shiftLine x indent)
  | ls, _ => ls.map (shiftLine x indent)

/-- `reindent_multiline_inner` — source.rs:499-527. -/
def reindentInner (s : Str) (ignoreFirst : Bool) (indent : Option Nat) (ch : Char) : Str :=
  joinNl (reindentLines (lines s) ignoreFirst (indent.getD 0) ch)

/-- `reindent_multiline` — source.rs:493-497. -/
def reindentMultiline (s : Str) (ignoreFirst : Bool) (indent : Option Nat) : Str :=
  let sSpace := reindentInner s ignoreFirst indent ' '
  let sTab := reindentInner sSpace ignoreFirst indent '\t'
  reindentInner sTab ignoreFirst indent ' '

end Verif.TextLints
