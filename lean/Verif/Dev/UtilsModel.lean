import Verif.Common.Text

/-!
# Helpers of `cargo dev`

Model of parts of `/repo/clippy_dev/src/utils.rs`. Texts are lists of characters.
-/

namespace Verif.Dev

/-- Rust `s.split_once(pat)` for a string pattern: the text before and after the first occurrence. -/
def splitOnceStr (pat : Str) : Str → Option (Str × Str)
  | [] => if pat.isEmpty then some ([], []) else none
  | c :: cs =>
    if pat.isPrefixOf (c :: cs) then some ([], (c :: cs).drop pat.length)
    else (splitOnceStr pat cs).map fun r => (c :: r.1, r.2)

/-- A panic of `update_text_region`. -/
inductive RegionErr
  | noStart
  | noEnd
deriving DecidableEq, Repr

/-- `update_text_region`, utils.rs:433-455, with an empty output buffer; `ins` is the text the callback appends. The new
text and whether it is reported as changed. -/
def updateTextRegion (start stop src ins : Str) : Except RegionErr (Str × Bool) :=
  match splitOnceStr start src with
  | none => .error .noStart
  | some (pre, rest) =>
    match splitOnceStr stop rest with
    | none => .error .noEnd
    | some (old, post) => .ok (pre ++ start ++ ins ++ stop ++ post, decide (ins ≠ old))

/-! ## Updating files -/

/-- `UpdateMode`, utils.rs:325-329. -/
inductive Mode
  | change
  | check
deriving DecidableEq, Repr

/-- The contents of the files. -/
abbrev Files := Nat → Str

/-- `f` with another value at `p`. -/
def setFile (f : Files) (p : Nat) (s : Str) : Files := fun q => if q = p then s else f q

/-- `replace_contents`, utils.rs:128-138: the data is written over the beginning of the file, then the file is cut. -/
def replaceContents (old data : Str) : Str := (data ++ old.drop data.length).take data.length

/-- An update of one file: the path and the callback, which returns the new text and whether it changed. -/
structure Update where
  path : Nat
  run : Str → Str × Bool

/-- `update_file_checked_inner`, utils.rs:349-370: the files afterwards and whether the process goes on (`false`: it exits
with 1). -/
def updateFile (mode : Mode) (u : Update) (fs : Files) : Files × Bool :=
  match mode, (u.run (fs u.path)).2 with
  | .check, true => (fs, false)
  | .change, true => (setFile fs u.path (replaceContents (fs u.path) (u.run (fs u.path)).1), true)
  | _, false => (fs, true)

/-- Updates in sequence, as in `gen_decls`; the process stops at the first failure. -/
def updateAll (mode : Mode) : List Update → Files → Files × Bool
  | [], fs => (fs, true)
  | u :: us, fs =>
    if (updateFile mode u fs).2 then updateAll mode us (updateFile mode u fs).1 else updateFile mode u fs

/-! ## Splitting argument lists -/

/-- `usize::div_ceil`. -/
def divCeil (a b : Nat) : Nat := (a + b - 1) / b

/-- The state of the iterator, utils.rs:563-569. The arguments are given by their length in bytes. -/
structure Splitter where
  args : List Nat
  minBatch : Nat
  batch : Nat
  threads : Nat
deriving DecidableEq, Repr

/-- The loop over `args.by_ref().take(batch_size)`, utils.rs:583-606: the arguments taken, the remaining ones, the length
counted and whether the limit was hit. `cmdLen` is the length so far, `n` how many arguments may still be taken. -/
def takeArgs : Nat → Nat → List Nat → List Nat × List Nat × Nat × Bool
  | 0, cmdLen, args => ([], args, cmdLen, false)
  | _, cmdLen, [] => ([], [], cmdLen, false)
  | n + 1, cmdLen, a :: args =>
    if cmdLen + (a + 8) + 8 > 30000 then ([a], args, cmdLen + (a + 8) + 8, true)
    else
      let r := takeArgs n (cmdLen + (a + 8) + 8) args
      (a :: r.1, r.2)

/-- `next`, utils.rs:577-609: the next command, if any, and the new state. -/
def nextBatch (s : Splitter) : Option (List Nat) × Splitter :=
  let threads := if s.threads > 1 then s.threads - 1 else s.threads
  let r := takeArgs s.batch 0 s.args
  let batch := if r.2.2.2 then max (divCeil r.2.1.length threads) s.minBatch else s.batch
  (if r.2.2.1 ≠ 0 then some r.1 else none, { args := r.2.1, minBatch := s.minBatch, batch := batch, threads := threads })

/-- The commands produced until the iterator ends; `fuel` bounds the number of steps. -/
def batches : Nat → Splitter → List (List Nat)
  | 0, _ => []
  | fuel + 1, s =>
    match nextBatch s with
    | (none, _) => []
    | (some b, s') => b :: batches fuel s'

/-- `split_args_for_threads`, utils.rs:558-618: every step but the last takes an argument, so this many steps are
enough. -/
def splitArgs (minBatch threads : Nat) (args : List Nat) : List (List Nat) :=
  batches (args.length + 1)
    { args, minBatch, batch := max (divCeil args.length threads) minBatch, threads }

/-! ## Grouping -/

/-- `slice_groups`, utils.rs:654-674; `fuel` bounds the number of groups. -/
def sliceGroupsGo {α : Type} (splitIdx : α → List α → Nat) : Nat → List α → List (List α)
  | 0, _ => []
  | _, [] => []
  | fuel + 1, head :: tail =>
    let idx := splitIdx head tail + 1
    if idx ≤ (head :: tail).length then
      (head :: tail).take idx :: sliceGroupsGo splitIdx fuel ((head :: tail).drop idx)
    else []

/-- `slice_groups`: every step takes an element, so this many steps are enough. -/
def sliceGroups {α : Type} (splitIdx : α → List α → Nat) (l : List α) : List (List α) :=
  sliceGroupsGo splitIdx l.length l

/-- The callback at generate.rs:142-144 and parse.rs:290-292: how many of the next elements have the same key. -/
def sameKey {α κ : Type} [DecidableEq κ] (key : α → κ) (head : α) (tail : List α) : Nat :=
  (tail.takeWhile fun x => decide (key head = key x)).length

end Verif.Dev
