import Verif.DupMod.Spec

/-!
# Files loaded as modules more than once: the linter
-/

namespace Verif.DupMod

/-- `Modules`: the places and the levels of the lint, a level being whether it is `allow` or `expect`, and the expectation; clippy_lints/src/duplicate_mod.rs:51-55. -/
structure Modules where
  spans : List Nat
  levels : List (Bool × Option Nat)
  deriving DecidableEq, Repr

/-- The two pushes; clippy_lints/src/duplicate_mod.rs:76-77. -/
def add (v : Modules) (i : Item) : Modules := ⟨v.spans ++ [i.span], v.levels ++ [(i.quiet, i.expect)]⟩

/-- `entry(..).or_insert(..)` in the ordered map and the pushes; clippy_lints/src/duplicate_mod.rs:71-77. -/
def enter : List (Nat × Modules) → Item → List (Nat × Modules)
  | [], i => [(i.file, add ⟨[], []⟩ i)]
  | (k, v) :: r, i =>
    if i.file < k then (i.file, add ⟨[], []⟩ i) :: (k, v) :: r
    else if i.file = k then (k, add v i) :: r
    else (k, v) :: enter r i

/-- All calls of `check_item`; clippy_lints/src/duplicate_mod.rs:65-79. -/
def collect : List (Nat × Modules) → List Item → List (Nat × Modules)
  | m, [] => m
  | m, i :: r => collect (enter m i) r

/-- The places where the lint is not silent; clippy_lints/src/duplicate_mod.rs:94-104. -/
def keep (v : Modules) : List Nat := (v.spans.zip v.levels).filterMap (fun x => if x.2.1 then none else some x.1)

/-- The expectations that are fulfilled for a file; clippy_lints/src/duplicate_mod.rs:88-100. -/
def fulfilled (v : Modules) : List Nat :=
  if v.spans.length < 2 then [] else (v.spans.zip v.levels).filterMap (fun x => x.2.2)

/-- The report for a file: the first place and the others; clippy_lints/src/duplicate_mod.rs:88-125. -/
def report (k : Nat) (v : Modules) : List (Nat × Nat × List Nat) :=
  if v.spans.length < 2 then []
  else if (keep v).length < 2 then []
  else match keep v with
    | [] => []
    | a :: r => [(k, a, r)]

/-- The reports of `check_crate_post`; clippy_lints/src/duplicate_mod.rs:81-127. -/
def check (its : List Item) : List (Nat × Nat × List Nat) := (collect [] its).flatMap (fun x => report x.1 x.2)

/-- The expectations fulfilled by `check_crate_post`; clippy_lints/src/duplicate_mod.rs:81-127. -/
def expects (its : List Item) : List Nat := (collect [] its).flatMap (fun x => fulfilled x.2)

end Verif.DupMod
