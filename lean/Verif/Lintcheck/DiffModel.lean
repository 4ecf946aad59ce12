import Verif.Common.StrOrd

/-!
# Comparing two runs of lintcheck

Model of `/repo/lintcheck/src/json.rs`. Reading and writing JSON isn't modelled.
-/

namespace Verif.Lintcheck

/-- `LintJson`, /repo/lintcheck/src/json.rs:21-28; `file_url` is only printed and isn't modelled. -/
structure Warning where
  name : Str
  fileLine : Str
  rendered : Str
deriving DecidableEq, Repr

/-- `a.key() <= b.key()`, json.rs:31-33: first the name, then the place. -/
def keyLe (a b : Warning) : Bool :=
  strLe a.name b.name && (!strLe b.name a.name || strLe a.fileLine b.fileLine)

/-- The order of the lints in the output of a run, json.rs:111. -/
def output (ws : List Warning) : List Warning := sortBy keyLe ws

/-- `EitherOrBoth` of the crate itertools. -/
inductive Change
  | left (old : Warning) | right (new : Warning) | both (old new : Warning)
deriving DecidableEq, Repr

/-- `change.as_ref().into_left().name`, json.rs:133. -/
def Change.name : Change → Str
  | .left o => o.name
  | .right n => n.name
  | .both o _ => o.name

/-- The part of `merge_join_by` (itertools) which looks for the place of one element `a` of the first list; `cont` treats the rest of the
first list. -/
def mergeGo (a : Warning) (as : List Warning) (cont : List Warning → List Change) : List Warning → List Change
  | [] => (a :: as).map .left
  | b :: bs =>
    if keyLe a b then
      if keyLe b a then .both a b :: cont bs
      else .left a :: cont (b :: bs)
    else .right b :: mergeGo a as cont bs

/-- `itertools::merge_join_by` with the comparison of the keys, json.rs:132: the smaller head is taken alone, equal heads together. -/
def mergeJoin : List Warning → List Warning → List Change
  | [] => fun bs => bs.map .right
  | a :: as => mergeGo a as (mergeJoin as)

/-- `chunk_by` of itertools: runs of neighbours with the same key. -/
def chunkBy {α : Type} (key : α → Str) : List α → List (Str × List α)
  | [] => []
  | x :: xs =>
    match chunkBy key xs with
    | [] => [(key x, [x])]
    | (k, g) :: rest => if key x = k then (k, x :: g) :: rest else (key x, [x]) :: (k, g) :: rest

/-- `LintWarnings`, json.rs:189-194. -/
structure Row where
  name : Str
  added : List Warning
  removed : List Warning
  changed : List (Warning × Warning)
deriving DecidableEq, Repr

/-- The warnings only in the new run, json.rs:146. -/
def addedOf (cs : List Change) : List Warning := cs.filterMap fun c => match c with | .right n => some n | _ => none

/-- The warnings only in the old run, json.rs:145. -/
def removedOf (cs : List Change) : List Warning := cs.filterMap fun c => match c with | .left o => some o | _ => none

/-- The warnings whose text has changed, json.rs:140-144. -/
def changedOf (cs : List Change) : List (Warning × Warning) :=
  cs.filterMap fun c => match c with | .both o n => if o.rendered ≠ n.rendered then some (o, n) else none | _ => none

/-- `!added.is_empty() || ..`, json.rs:150. -/
def Row.shown (r : Row) : Bool := !r.added.isEmpty || !r.removed.isEmpty || !r.changed.isEmpty

/-- The rows of `diff`, json.rs:132-158. -/
def diff (old new : List Warning) : List Row :=
  ((chunkBy Change.name (mergeJoin old new)).map fun g => ⟨g.1, addedOf g.2, removedOf g.2, changedOf g.2⟩).filter Row.shown

/-! ## The report -/

/-- `truncate_after`, json.rs:170-179, for a nonempty list of rows; `none` is `usize::MAX`. -/
def truncateAfter (truncate : Bool) (rows : Nat) : Option Nat :=
  if truncate then some (max (min 300 (1000 / rows)) 15) else none

/-- The limit of a section, json.rs:211-213. -/
def sectionLimit (t : Option Nat) : Option Nat := t.map (· / 3)

/-- `truncate`, json.rs:272-284: what is shown, and the number printed as truncated. -/
def truncateList {α : Type} (limit : Option Nat) (l : List α) : List α × Nat :=
  match limit with
  | none => (l, 0)
  | some n => if l.length > n then (l.take n, l.length - n) else (l, 0)

/-- `to_html_id`, json.rs:294-296. `replace` is `split` and `join`. -/
def toHtmlId (name : Str) : Str :=
  (List.intercalate (str!"user-content-") (Text.split (str!"clippy::") name)).map fun c => if c = '_' then '-' else c

/-- The link of `count_string`, json.rs:300-309, if any. -/
def countLink (lint label : Str) (count : Nat) : Option Str :=
  if count = 0 then none else some (toHtmlId lint ++ str!"-" ++ label)

/-- The links at the top of the section of a lint, json.rs:203-208. -/
def rowLinks (r : Row) : List Str :=
  [countLink r.name (str!"added") r.added.length, countLink r.name (str!"removed") r.removed.length,
    countLink r.name (str!"changed") r.changed.length].filterMap id

/-- The ids of the headings of the section of a lint, json.rs:200, 222, 243, 286-290. -/
def rowIds (r : Row) : List Str :=
  toHtmlId r.name ::
    ((match r.added with | [] => [] | w :: _ => [toHtmlId w.name ++ str!"-Added"]) ++
      (match r.removed with | [] => [] | w :: _ => [toHtmlId w.name ++ str!"-Removed"]) ++
      (match r.changed with | [] => [] | w :: _ => [toHtmlId w.1.name ++ str!"-Changed"]))

/-- The links of the summary table, json.rs:68-69. -/
def summaryLinks (rows : List Row) : List Str := rows.map fun r => toHtmlId r.name

end Verif.Lintcheck
