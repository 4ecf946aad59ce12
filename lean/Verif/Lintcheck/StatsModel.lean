import Verif.Common.NatStr
import Verif.Dev.CargoModel

/-!
# The statistics in the log of lintcheck

Model of `gather_stats`, `read_stats_from_file` and `print_stats` of `/repo/lintcheck/src/output.rs`. A `HashMap` is the list of its
entries in the order of its iterator, which is arbitrary.
-/

namespace Verif.Lintcheck
open Verif.Dev (trim)

/-- One step of the counting, /repo/lintcheck/src/output.rs:165-167. -/
def bump (n : Str) : List (Str × Nat) → List (Str × Nat)
  | [] => [(n, 1)]
  | e :: es => if e.1 = n then (e.1, e.2 + 1) :: es else e :: bump n es

/-- The counts of the lints, output.rs:164-167, for the names of the warnings. -/
def counter (names : List Str) : List (Str × Nat) := names.foldl (fun c n => bump n c) []

/-- The sort key, output.rs:173. -/
def statsKey (e : Str × Nat) : Str := padLeft '0' 4 (natStr e.2) ++ str!", " ++ e.1

/-- The sorted statistics, output.rs:170-173. -/
def sortedStats (c : List (Str × Nat)) : List (Str × Nat) := sortBy (fun a b => strLe (statsKey a) (statsKey b)) c

/-- A line of the table, output.rs:179, without the line break. -/
def statsLine (e : Str × Nat) : Str := str!"| " ++ padRight ' ' 50 e.1 ++ str!" |  " ++ padLeft ' ' 4 (natStr e.2) ++ str!" |"

/-- The header of the table, output.rs:175-176, without the last line break. -/
def statsHeader : Str × Str :=
  (str!"| lint                                               | count |", str!"| -------------------------------------------------- | ----- |")

/-- The table, output.rs:175-183. -/
def statsTable (c : List (Str × Nat)) : Str :=
  statsHeader.1 ++ str!"\n" ++ statsHeader.2 ++ str!"\n" ++ ((sortedStats c).map fun e => statsLine e ++ str!"\n").flatten

/-- The log, output.rs:139-154: `pre` is the version and the reports, `ices` the text after the last heading. -/
def logText (pre : Str) (c : List (Str × Nat)) (ices : Str) : Str :=
  pre ++ str!"\n\n### Stats:\n\n" ++ statsTable c ++ str!"\n\n### ICEs:\n" ++ ices

/-- A line without the carriage return at its end. -/
def stripCr (l : Str) : Str := match l.getLast? with | some '\r' => l.dropLast | _ => l

/-- `str::lines`. -/
def lines (s : Str) : List Str :=
  (if (Text.split ['\n'] s).getLast? = some [] then (Text.split ['\n'] s).dropLast else Text.split ['\n'] s).map stripCr

/-- The result of a line: nothing, an entry, or the panic of `unwrap`, output.rs:205-214. The counts are `usize` of 64 bits. -/
def readLine (l : Str) : Option (Except Unit (Str × Nat)) :=
  match Text.split ['|'] l with
  | _ :: lint :: count :: _ =>
    some (match parseDec (2 ^ 64 - 1) (trim count) with
      | some n => .ok (trim lint, n)
      | none => .error ())
  | _ => none

/-- `read_stats_from_file`, output.rs:189-216, for the text of the file. -/
def readStats (text : Str) : List (Except Unit (Str × Nat)) :=
  ((((lines text).dropWhile fun l => l ≠ str!"### Stats:").drop 4).takeWhile fun l => (str!"| ").isPrefixOf l).filterMap readLine

/-- `HashMap::get`. -/
def lookup (c : List (Str × Nat)) (n : Str) : Option Nat := (c.find? fun e => e.1 = n).map Prod.snd

/-- The lines of `print_stats`, output.rs:219-262: the lint, the old and the new count. -/
def printStats (old new : List (Str × Nat)) (lintFilter : List Str) : List (Str × Nat × Nat) :=
  let same := old.filter fun e => lookup new e.1 = some e.2
  let old' := old.filter fun e => (lookup same e.1).isNone
  let new' := new.filter fun e => (lookup same e.1).isNone
  (new'.filter fun e => (lookup old' e.1).isNone).map (fun e => (e.1, 0, e.2)) ++
    new'.filterMap (fun e => (lookup old' e.1).map fun v => (e.1, v, e.2)) ++
    ((old'.filter fun e => (lookup new' e.1).isNone).filter fun e => lintFilter.isEmpty || lintFilter.contains e.1).map
      fun e => (e.1, e.2, 0)

end Verif.Lintcheck
