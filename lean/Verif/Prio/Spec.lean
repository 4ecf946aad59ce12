/-!
# Priorities of lints and groups in `Cargo.toml`: what is meant
-/

namespace Verif.Prio

/-- The value of a key. `none` inside is a value of another type or, for a priority, one that does not fit in 64 bits. -/
inductive Value
  /-- A text, the level. -/
  | text (level : String)
  /-- A table with the values of `level` and `priority`, if there are any. -/
  | table (level : Option (Option String)) (priority : Option (Option Int))
  | other
deriving DecidableEq, Repr

/-- A setting: a lint or a group of lints gets a level. -/
structure Setting where
  name : String
  level : String
  prio : Int
deriving DecidableEq, Repr

/-- The setting of a row; the priority is 0 if it is not given. -/
def settingOf (n : String) (v : Value) : Option Setting :=
  match v with
  | .text l => some ⟨n, l, 0⟩
  | .table (some (some l)) none => some ⟨n, l, 0⟩
  | .table (some (some l)) (some (some p)) => some ⟨n, l, p⟩
  | _ => none

/-- The settings of a table. The row `warnings` is not a lint. -/
def settings (rows : List (String × Value)) : List Setting := rows.filterMap fun r => if r.1 = "warnings" then none else settingOf r.1 r.2

/-- An order in which Cargo may hand over the settings: by priority, and anyhow among equal ones. -/
def Handed (l p : List Setting) : Prop := p.Perm l ∧ p.Pairwise (fun a b => a.prio ≤ b.prio)

/-- The level of a lint: that of the last setting that concerns it, its own or one of a group that contains it. -/
def LevelIs (members : String → String → Bool) (lint : String) (p : List Setting) (level : String) : Prop :=
  ∃ a s b, p = a ++ s :: b ∧ s.level = level ∧ (s.name = lint ∨ members s.name lint = true) ∧ ∀ t ∈ b, t.name ≠ lint ∧ members t.name lint = false

end Verif.Prio
