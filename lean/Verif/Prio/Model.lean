import Verif.Prio.Spec

/-!
# Priorities of lints and groups in `Cargo.toml`: the linter
-/

namespace Verif.Prio

/-- `LintConfig`; clippy_lints/src/cargo/lint_groups_priority.rs:21-25. -/
structure Config where
  level : String
  priority : Option Int
deriving DecidableEq, Repr

/-- `LintConfig::priority`; clippy_lints/src/cargo/lint_groups_priority.rs:27-29. -/
def Config.prio (c : Config) : Int := c.priority.getD 0

/-- `LintConfig::is_implicit`; clippy_lints/src/cargo/lint_groups_priority.rs:31-33. -/
def Config.isImplicit (c : Config) : Bool := c.priority.isNone

/-- The priority of a table, `none` if the entry is not understood; clippy_lints/src/cargo/lint_groups_priority.rs:41-46. -/
def parsePriority : Option (Option Int) → Option (Option Int)
  | none => some none
  | some none => none
  | some (some p) => some (some p)

/-- `LintConfig::parse`; clippy_lints/src/cargo/lint_groups_priority.rs:35-52. -/
def parse : Value → Option Config
  | .text l => some ⟨l, none⟩
  | .table l p =>
    match l with
    | some (some level) => (parsePriority p).map fun q => ⟨level, q⟩
    | _ => none
  | .other => none

/-- The rows that are understood, with a test for groups; clippy_lints/src/cargo/lint_groups_priority.rs:56-68. -/
def collect (keep : String → Bool) : List (String × Value) → List (String × Config)
  | [] => []
  | (n, v) :: r =>
    if n != "warnings" && keep n then
      match parse v with
      | some c => (n, c) :: collect keep r
      | none => collect keep r
    else collect keep r

/-- `i64::saturating_sub(1)`; clippy_lints/src/cargo/lint_groups_priority.rs:94. -/
def satPred (p : Int) : Int := if p ≤ -9223372036854775808 then -9223372036854775808 else p - 1

/-- The minimum of a list, with a default; clippy_lints/src/cargo/lint_groups_priority.rs:95-96. -/
def minOr (d : Int) : List Int → Int
  | [] => d
  | x :: r => r.foldl min x

/-- `low_priority`; clippy_lints/src/cargo/lint_groups_priority.rs:92-96. -/
def lowPriority (lints : List (String × Config)) : Int := minOr (-1) (lints.map fun l => satPred l.2.prio)

/-- The lint with the same priority; clippy_lints/src/cargo/lint_groups_priority.rs:71-73. -/
def conflict (lints : List (String × Config)) (g : Config) : Option (String × Config) :=
  lints.reverse.find? fun l => l.2.prio == g.prio && l.2.level != g.level

/-- What is reported for a group, with the suggested value; clippy_lints/src/cargo/lint_groups_priority.rs:74-107. -/
structure Report where
  group : String
  prio : Int
  implicit : Bool
  lint : String
  sugg : Value
deriving DecidableEq, Repr

/-- The loop over the groups; clippy_lints/src/cargo/lint_groups_priority.rs:70-109. -/
def reports (lints : List (String × Config)) : List (String × Config) → List Report
  | [] => []
  | (n, g) :: r =>
    match conflict lints g with
    | some (l, _) => ⟨n, g.prio, g.isImplicit, l, .table (some (some g.level)) (some (some (lowPriority lints)))⟩ :: reports lints r
    | none => reports lints r

/-- `check_table`; clippy_lints/src/cargo/lint_groups_priority.rs:55-110. -/
def checkTable (isGroup : String → Bool) (rows : List (String × Value)) : List Report :=
  reports (collect (fun n => !isGroup n) rows) (collect isGroup rows)

end Verif.Prio
