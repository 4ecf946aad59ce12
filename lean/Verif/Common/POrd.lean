/-
Rust's comparison operators on types with `PartialOrd` (specification, not taken from /repo).
`cmp` is `partial_cmp`; the laws are those the standard library documents for `PartialOrd`.
-/

namespace Verif

/-- The six comparison operators. -/
inductive Cmp | eq | ne | lt | le | gt | ge
  deriving DecidableEq, Repr

/-- A lawful `PartialOrd` (with the agreeing `PartialEq`). -/
structure POrd (α : Type) where
  cmp : α → α → Option Ordering
  dual : ∀ a b, cmp b a = (cmp a b).map Ordering.swap
  lt_trans : ∀ {a b c}, cmp a b = some .lt → cmp b c = some .lt → cmp a c = some .lt
  eq_left : ∀ {a b}, cmp a b = some .eq → ∀ c, cmp a c = cmp b c

/-- Every two values are comparable (`Ord`). -/
def POrd.Total {α} (P : POrd α) : Prop := ∀ a b, ∃ o, P.cmp a b = some o

/-- The value of `a op b`. -/
def POrd.holds {α} (P : POrd α) : Cmp → α → α → Bool
  | .eq, a, b => P.cmp a b == some .eq
  | .ne, a, b => !(P.cmp a b == some .eq)
  | .lt, a, b => P.cmp a b == some .lt
  | .le, a, b => P.cmp a b == some .lt || P.cmp a b == some .eq
  | .gt, a, b => P.cmp a b == some .gt
  | .ge, a, b => P.cmp a b == some .gt || P.cmp a b == some .eq

theorem POrd.eq_right {α} (P : POrd α) {a b : α} (h : P.cmp a b = some .eq) (c : α) :
    P.cmp c a = P.cmp c b := by
  rw [P.dual a c, P.dual b c, P.eq_left h]

theorem POrd.gt_iff {α} (P : POrd α) {a b : α} : P.cmp a b = some .gt ↔ P.cmp b a = some .lt := by
  rw [P.dual a b]
  cases P.cmp a b with
  | none => simp
  | some o => cases o <;> simp [Ordering.swap]

theorem POrd.eq_symm {α} (P : POrd α) {a b : α} (h : P.cmp a b = some .eq) : P.cmp b a = some .eq := by
  rw [P.dual, h]; rfl

/-- `<` on the integers. -/
def intOrd : POrd Int where
  cmp a b := some (compare a b)
  dual a b := by simp only [compare, compareOfLessAndEq, Option.map_some, Option.some.injEq]
                 split <;> (try split) <;> (try split) <;> (try split) <;> simp <;> omega
  lt_trans {a b c} := by
    simp only [compare, compareOfLessAndEq, Option.some.injEq]
    repeat' split
    all_goals simp
    all_goals omega
  eq_left {a b} h c := by
    have : a = b := by
      simp only [compare, compareOfLessAndEq, Option.some.injEq] at h
      revert h; repeat' split
      all_goals simp
      assumption
    rw [this]

theorem intOrd_total : intOrd.Total := fun _ _ => ⟨_, rfl⟩

/-- A stand-in for floats: `none` is NaN, which is not comparable with anything, itself included. -/
def floatOrd : POrd (Option Int) where
  cmp a b := match a, b with
    | some a, some b => some (compare a b)
    | _, _ => none
  dual a b := by
    cases a <;> cases b <;> simp
    exact Option.some.inj (intOrd.dual _ _)
  lt_trans {a b c} := by
    cases a <;> cases b <;> cases c <;> simp
    intro h1 h2
    exact Option.some.inj (intOrd.lt_trans (congrArg some h1) (congrArg some h2))
  eq_left {a b} h c := by
    cases a <;> cases b <;> simp at h
    cases c <;> simp
    rw [h]

theorem intOrd_holds (op : Cmp) (a b : Int) : intOrd.holds op a b = match op with
    | .eq => decide (a = b) | .ne => decide (a ≠ b) | .lt => decide (a < b) | .le => decide (a ≤ b)
    | .gt => decide (a > b) | .ge => decide (a ≥ b) := by
  cases op <;> simp only [POrd.holds, intOrd, compare, compareOfLessAndEq] <;>
    (rcases Int.lt_trichotomy a b with h | h | h
     · simp [h, show ¬ b ≤ a by omega, show ¬ a = b by omega, Int.le_of_lt h, show ¬ b < a by omega]
     · subst h; simp
     · simp [h, show ¬ a < b by omega, show ¬ a = b by omega, Int.le_of_lt h, show ¬ a ≤ b by omega])

end Verif
