import Verif.Common.StrOrd
import Verif.Dev.CargoModel

/-!
# Sorting the lint declarations of a file

Model of `/repo/clippy_dev/src/generate.rs`. Positions count characters instead of bytes.
-/

namespace Verif.Dev

/-- `LintPass`, /repo/clippy_dev/src/parse.rs:256-266, without the file. `isImpl` is `mac`. -/
structure LintPass where
  docs : Str
  name : Str
  lt : Option Str
  isImpl : Bool
  start : Nat
  stop : Nat
  lints : List Str
deriving DecidableEq, Repr

/-- `LintPassMac::name`, parse.rs:247-254. -/
def macName (isImpl : Bool) : Str := if isImpl then str!"impl_lint_pass" else str!"declare_lint_pass"

/-- The lines kept by `write_comment_lines`, generate.rs:222-232. -/
def commentLines (s : Str) : List Str := ((Text.split ['\n'] s).map trimStart).filter (· ≠ [])

/-- Items with a separator between them. -/
def joinWith (sep : Str) : List Str → Str
  | [] => []
  | [x] => x
  | x :: xs => x ++ sep ++ joinWith sep xs

/-- `write_list`, generate.rs:240-256: the text, and whether it is on more than one line. -/
def writeList (items : List Str) (limit : Nat) (indent : Str) : Str × Bool :=
  if limit < (items.map List.length).sum then
    ((items.map fun i => '\n' :: (indent ++ i ++ [','])).flatten, true)
  else (joinWith (str!", ") items, false)

/-- The lifetime argument, generate.rs:205-207. -/
def ltText : Option Str → Str
  | some lt => '<' :: (lt ++ ['>'])
  | none => []

/-- What comes before the list in `gen_mac`, generate.rs:194-208, and its part on the last line. -/
def macHead (p : LintPass) : Str × Str :=
  let docs := commentLines p.docs
  let name := p.name ++ ltText p.lt ++ str!" => ["
  if docs = [] then (macName p.isImpl ++ str!"!(" ++ name, macName p.isImpl ++ str!"!(" ++ name)
  else (macName p.isImpl ++ str!"!(" ++ (docs.map fun l => str!"\n    " ++ l).flatten ++ str!"\n    " ++ name,
    str!"    " ++ name)

/-- `LintPass::gen_mac`, generate.rs:193-219. -/
def genMac (p : LintPass) : Str :=
  let hasDocs : Bool := commentLines p.docs ≠ []
  let list := writeList p.lints (80 - (macHead p).2.length) (if hasDocs then str!"        " else str!"    ")
  (macHead p).1 ++ list.1 ++
    (if list.2 then if hasDocs then str!"\n    " else str!"\n" else []) ++
    (if hasDocs then str!"]\n);" else str!"]);")

/-- `&s[a..b]`, none if it panics. -/
def slice (s : Str) (a b : Nat) : Option Str := getRange s a b

/-- `s.ends_with("\n\n")`. -/
def endsWithBlankLine (s : Str) : Bool := s.reverse.take 2 == ['\n', '\n']

/-- What is kept of the text `s` between two declarations, generate.rs:294-306; `before` is `src[..pos]`. -/
def keepGap (before s : Str) : Str :=
  if trimStart s = [] then []
  else match s with
    | '\n' :: '\n' :: r => if endsWithBlankLine before then r else '\n' :: r
    | '\n' :: r => r
    | _ => s

/-- The `fold`, generate.rs:293-308; `pos` is the end of the first range. -/
def foldGaps (src : Str) (pos : Nat) : Nat → List (Nat × Nat) → Option (Str × Nat)
  | start, [] => some ([], start)
  | start, r :: rs =>
    match slice src start r.1, slice src 0 pos, foldGaps src pos r.2 rs with
    | some s, some before, some (rest, e) => some (keepGap before s ++ rest, e)
    | _, _, _ => none

/-- What is kept of the text after the last declaration, generate.rs:310-312. -/
def keepTail (s : Str) : Str :=
  match s with
  | '\n' :: '\n' :: r => r
  | '\n' :: r => r
  | _ => s

/-- The texts of the ranges, each with an empty line after it, generate.rs:278-281. -/
def declTexts (src : Str) : List (Nat × Nat) → Option Str
  | [] => some []
  | r :: rs =>
    match slice src r.1 r.2, declTexts src rs with
    | some s, some rest => some (s ++ str!"\n\n" ++ rest)
    | _, _ => none

/-- The rest of the file after its start, generate.rs:275-312, for the ranges in the order of their start. -/
def genRest (src : Str) (lints : List (Str × Nat × Nat)) (passes : List LintPass) (ranges : List (Nat × Nat)) :
    Option Str :=
  match ranges with
  | [] => some src
  | r :: rs =>
    match slice src 0 r.1, declTexts src (lints.map (·.2)), foldGaps src r.2 r.2 rs with
    | some pre, some decls, some (gaps, pos) =>
      match slice src pos src.length with
      | some s => some (pre ++ decls ++
          (passes.map fun p => genMac { p with lints := sortBy strLe p.lints } ++ str!"\n\n").flatten ++ gaps ++ keepTail s)
      | none => none
    | _, _, _ => none

/-- `gen_sorted_lints_file`, generate.rs:260-314; none if it panics. -/
def genSorted (src : Str) (lints : List (Str × Nat × Nat)) (passes : List LintPass) : Option Str :=
  genRest src (sortBy (fun a b => strLe a.1 b.1) lints) (sortBy (fun a b => strLe a.name b.name) passes)
    (sortBy (fun a b => a.1 ≤ b.1) (lints.map (·.2) ++ passes.map fun p => (p.start, p.stop)))

end Verif.Dev
