import Verif.Pats.SameArmsProps

/-!
# C38: suggestions that change what a match does
-/

namespace Verif.Pats

/-- The body that runs. -/
def bodyRun (arms : List Arm) (v : Val) : Option Nat := (runMatch (fun _ _ => true) arms v).map (·.1)

/-- An arm without guard. -/
def arm (p : SPat) (body : Nat) : Arm := ⟨p, none, body, false⟩

/-- The patterns `n` and `l..=h`. -/
def num (n : Nat) : SPat := .lit (.int n) false
def rng (l h : Nat) : SPat := .range (some (.lit l false)) (some (.lit h false)) true

/-! Non-vacuity of `same_arms_partial`, for all three suggestions. -/

def demoMerge : List Arm := [arm (num 1) 0, arm (num 2) 1, arm (.bind 7 (num 3)) 5, arm (num 4) 0, arm .wild 2]

example : searchSame (eqArms demoMerge) 5 = [[0, 3]] ∧
    checkSameArms true demoMerge = [.merge 3 [0] [0, 3]] ∧
    bodyRun (applySugg demoMerge (.merge 3 [0] [0, 3])) (.int 1) = some 0 := by decide +kernel

example : ∀ a ∈ demoMerge, Plain (fun _ => none) (fun _ => none) a.pat ∧ a.allowed = false := by
  intro a ha
  simp only [demoMerge, List.mem_cons, List.not_mem_nil, or_false] at ha
  rcases ha with rfl | rfl | rfl | rfl | rfl <;> simp [arm, num, Plain]

example : checkSameArms true [arm (num 9) 3, arm (num 1) 0, arm (rng 1 2) 1, arm (num 4) 0, arm .wild 2] =
    [.merge 1 [3] [1, 3]] := by decide +kernel

example : checkSameArms true [arm (num 1) 0, arm (rng 3 5) 1, arm .wild 0] = [.remove [0]] := by decide +kernel

/-- Constructors and constants with their names. -/
example : Plain (fun c => some c.id) (fun v => match v with | .int 5 => some 9 | _ => none)
    (.tupleStruct (some true) (some 3) ⟨3, .tuple⟩ 2
      [.or [.bind 1 .wild, .bind 1 (.constPath (some 9) (num 5))]] true []) := by
  refine ⟨rfl, fun _ => rfl, fun h => (by cases h), ⟨⟨?_, trivial, ?_, trivial⟩, trivial⟩, trivial⟩
  · intro p hp
    simp only [List.mem_cons, List.not_mem_nil, or_false] at hp
    rcases hp with rfl | rfl <;> simp [names, namesFirst]
  · intro v e he
    cases v <;> simp [binds, num, litMatches, when] at he
    · rename_i x
      obtain ⟨rfl, rfl⟩ := he
      exact ⟨rfl, trivial, rfl⟩

/-! ## Violations -/

/-- `9 => C, 1..=5 => A, 0..=1 => B, 4..=9 => A, _ => D`: the two arms overlap each other, so that the first moves
forward although it overlaps the arm in between. For 1 the result changes from A to B. -/
def badSplit : List Arm := [arm (num 9) 2, arm (rng 1 5) 0, arm (rng 0 1) 1, arm (rng 4 9) 0, arm .wild 3]

theorem split_violation : checkSameArms true badSplit = [.merge 3 [1] [1, 3]] ∧
    bodyRun badSplit (.int 1) = some 0 ∧
    bodyRun (applySugg badSplit (.merge 3 [1] [1, 3])) (.int 1) = some 1 := by decide +kernel

/-- `1 => A, 5 => A, 5..=6 => B, _ => A`: only the first arm of a group is compared with the wildcard arm. For
5 the result changes from A to B. -/
def badRemove : List Arm := [arm (num 1) 0, arm (num 5) 0, arm (rng 5 6) 1, arm .wild 0]

theorem group_remove_violation : checkSameArms true badRemove = [.remove [0, 1]] ∧
    bodyRun badRemove (.int 5) = some 0 ∧ bodyRun (applySugg badRemove (.remove [0, 1])) (.int 5) = some 1 := by
  decide +kernel

/-- `0 => C, 10 => A, 5 => B, 5..=6 => A, 7 => A, _ => D`: the arms of a group are only compared with the first
one. For 5 the result changes from B to A. -/
def badGroup : List Arm :=
  [arm (num 0) 2, arm (num 10) 0, arm (num 5) 1, arm (rng 5 6) 0, arm (num 7) 0, arm .wild 3]

theorem group_merge_violation : checkSameArms true badGroup = [.merge 1 [3, 4] [1, 3, 4]] ∧
    bodyRun badGroup (.int 5) = some 1 ∧
    bodyRun (applySugg badGroup (.merge 1 [3, 4] [1, 3, 4])) (.int 5) = some 0 := by decide +kernel

/-- An arm on which the lint is allowed hides the arm the others were compared with: with `allow` on the first
arm of `7 => A, 5 => A, 5..=6 => B, 6..=8 => A, _ => C`, 5 changes from A to B. -/
def badAllow : List Arm :=
  [⟨num 7, none, 0, true⟩, arm (num 5) 0, arm (rng 5 6) 1, arm (rng 6 8) 0, arm .wild 2]

theorem allow_violation : checkSameArms true badAllow = [.merge 3 [1] [1, 3]] ∧
    bodyRun badAllow (.int 5) = some 0 ∧
    bodyRun (applySugg badAllow (.merge 3 [1] [1, 3])) (.int 5) = some 1 := by decide +kernel

/-- For a signed integer `..0 => A, ..5 => B, 7 => A, _ => C`: `..0` and `..5` are judged not to overlap, as an
open start counts as 0. For -1 the result changes from A to B. -/
def badOpen : List Arm := [arm (.range none (some (.lit 0 false)) false) 0,
  arm (.range none (some (.lit 5 false)) false) 1, arm (num 7) 0, arm .wild 2]

theorem open_start_violation : checkSameArms true badOpen = [.merge 2 [0] [0, 2]] ∧
    bodyRun badOpen (.int (-1)) = some 0 ∧
    bodyRun (applySugg badOpen (.merge 2 [0] [0, 2])) (.int (-1)) = some 1 := by decide +kernel

/-- With `const X: i32 = 1; const Y: i32 = 1;`, `X => A, Y => B, 7 => A, _ => C`: different constants are
judged not to overlap. For 1 the result changes from A to B. -/
def badConst : List Arm :=
  [arm (.constPath (some 10) (num 1)) 0, arm (.constPath (some 11) (num 1)) 1,
   arm (.constPath (some 12) (num 7)) 0, arm .wild 2]

theorem const_violation : checkSameArms true badConst = [.merge 2 [0] [0, 2]] ∧
    bodyRun badConst (.int 1) = some 0 ∧
    bodyRun (applySugg badConst (.merge 2 [0] [0, 2])) (.int 1) = some 1 := by decide +kernel

/-- The tuple struct `S` matched as `S(1) => A, S { 0: 1 } => B, S(7) => A, _ => C`: the two ways of writing are
judged not to overlap. For `S(1)` the result changes from A to B. -/
def badSyntax : List Arm :=
  let c : Con := ⟨4, .tuple⟩
  [arm (.tupleStruct (some false) (some 5) c 1 [num 1] false []) 0, arm (.struct (some 4) c [0] [num 1]) 1,
   arm (.tupleStruct (some false) (some 5) c 1 [num 7] false []) 0, arm .wild 2]

theorem syntax_violation : checkSameArms true badSyntax = [.merge 2 [0] [0, 2]] ∧
    bodyRun badSyntax (.adt ⟨4, .tuple⟩ [(0, .int 1)]) = some 0 ∧
    bodyRun (applySugg badSyntax (.merge 2 [0] [0, 2])) (.adt ⟨4, .tuple⟩ [(0, .int 1)]) = some 1 := by
  decide +kernel

/-- In an `impl` of `S`, `Self { x: 1 } => A, S { x: 1 } => B, Self { x: 7 } => A, _ => C`: `Self` and `S` are
judged to be different structs. -/
def badSelf : List Arm :=
  let c : Con := ⟨4, .record⟩
  [arm (.struct none c [0] [num 1]) 0, arm (.struct (some 4) c [0] [num 1]) 1,
   arm (.struct none c [0] [num 7]) 0, arm .wild 2]

theorem self_violation : checkSameArms true badSelf = [.merge 2 [0] [0, 2]] ∧
    bodyRun badSelf (.adt ⟨4, .record⟩ [(0, .int 1)]) = some 0 ∧
    bodyRun (applySugg badSelf (.merge 2 [0] [0, 2])) (.adt ⟨4, .record⟩ [(0, .int 1)]) = some 1 := by
  decide +kernel

end Verif.Pats
