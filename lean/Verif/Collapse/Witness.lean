import Verif.Collapse.Props

/-!
# Collapsing: examples and counterexamples
-/

namespace Verif.Collapse.Witness

open Verif.Guard (Id Pat Pats Fields Val Code Env Prog WfPat)

/-- A condition is true if its first variable is `1`, or if it has number `0`. -/
def prog : Prog where
  eq _ _ := true
  meth _ _ _ := true
  other _ _ := .lit 0
  cond k vs := k == 0 || match vs with
    | some (.lit 1) :: _ => true
    | _ => false
  body k _ := k

/-- A block without variables. -/
abbrev blk (k : Nat) : Blk := .code ⟨[], k⟩

/-- `Some(p)` -/
abbrev some_ (p : Pat) : Pat := .con 0 (.cons p .nil)

/-- `None` -/
abbrev none_ : Pat := .con noneCon .nil

/-- `(p, q)` -/
abbrev pair (p q : Pat) : Pat := .con 9 (.cons p (.cons q .nil))

/-- The number of the code that is the result. -/
def num (r : List Ev × Option R) : Option Nat :=
  match r.2 with
  | some (.code k _) => some k
  | _ => none

section Fine

/-- `match v { Some(n) => if n == 1 { 10 } else { 50 }, None => 20, _ => 50 }` -/
def ifArms : List Arm :=
  [⟨some_ (.bind false 0), [], .ite ⟨[0], 5⟩ (blk 10) (some (blk 50))⟩, ⟨none_, [], .blk (blk 20)⟩,
   ⟨.wild, [], .blk (blk 50)⟩]

example : checkMatch ifArms 0 = .guard ⟨[0], 5⟩ (blk 10) := rfl

example : FallsWild (some_ (.bind false 0)) (ifArms.drop 1) := by
  refine ⟨[⟨none_, [], .blk (blk 20)⟩], ⟨.wild, [], .blk (blk 50)⟩, rfl, .wild, rfl, ?_⟩
  intro m hm _ _ v hv
  simp only [List.mem_singleton] at hm
  subst hm
  cases v with
  | con d vs =>
    simp only [Guard.pm] at hv ⊢
    by_cases h : d = 0
    · subst h
      rw [if_neg (fun h => nomatch h.1)]
    · rw [if_neg (fun hh => h hh.1)] at hv
      exact absurd rfl hv
  | _ => rfl

example (a : Arm) (h : ifArms[0]? = some a) : Scoped a (ifArms.drop 1) := by
  cases h
  refine ⟨?_, ?_, ?_⟩ <;> simp [ifArms, Body.uses, Blk.uses, Guard.vars, Guard.varsAll, Body.binds]

/-- `match v { (Some(n), y) => match n { 1 => f(y), _ => 50 }, _ => 50 }` -/
def nestArms : List Arm :=
  [⟨pair (some_ (.bind false 0)) (.bind false 1), [],
    .mtch (.loc 0) [⟨.lit 1, none, .code ⟨[1], 10⟩⟩, ⟨.wild, none, blk 50⟩]⟩,
   ⟨.wild, [], .blk (blk 50)⟩]

example : checkMatch nestArms 0 = .help (some (pair (some_ (.lit 1)) (.bind false 1))) (.code ⟨[1], 10⟩) := rfl

example (a : Arm) (h : nestArms[0]? = some a) : WfPat a.pat ∧ (∀ x, OnVar x a.body → Once x a.pat) ∧ Inner a.body ∧
    Falls a.pat (nestArms.drop 1) ∧ Scoped a (nestArms.drop 1) := by
  cases h
  refine ⟨.con (.cons (.con (.cons .bind .nil)) (.cons .bind .nil)), ?_, ⟨fun w => .inr ?_, fun w _ => .inr .wild⟩,
    ⟨[], _, rfl, .wild, rfl, fun _ hm => by cases hm⟩, ⟨?_, ?_, ?_⟩⟩
  · intro x hx
    cases hx
    exact ⟨by decide +kernel, .con (.cons (.con (.cons .bind .nil)) (.cons .bind .nil))⟩
  · simp [Guard.pm]
  all_goals simp [nestArms, Body.uses, Blk.uses, Guard.vars, Guard.varsAll, Body.binds]

/-- `if let Some(n) = v { if let Some(y) = n { f(y) } else { 50 } } else { 50 }` -/
example : checkIfLet (some_ (.bind false 0)) (.ifLet (some_ (.bind false 1)) (.loc 0) (.code ⟨[1], 10⟩) (some (blk 50)))
    (some (.blk (blk 50))) = .help (some (some_ (some_ (.bind false 1)))) (.code ⟨[1], 10⟩) := rfl

example : Scoped ⟨some_ (.bind false 0), [], .ifLet (some_ (.bind false 1)) (.loc 0) (.code ⟨[1], 10⟩) (some (blk 50))⟩
    [⟨.wild, [], (some (Body.blk (blk 50))).getD (.blk .unit)⟩] := by
  refine ⟨?_, ?_, ?_⟩ <;> simp [Body.uses, Blk.uses, Guard.vars, Guard.varsAll, Body.binds]

end Fine

section Wrong

/-- What becomes of the arms. -/
def apply (arms : List Arm) (idx : Nat) : Option (List Arm) :=
  (arms[idx]?.bind fun a => newArm a (checkMatch arms idx)).map fun a => arms.set idx a

/-- `match o { None => 50, Some(n) => if n == 1 { 10 } else { 50 } }`: the new `match` is not exhaustive. -/
def noneArms : List Arm :=
  [⟨none_, [], .blk (blk 50)⟩, ⟨some_ (.bind false 0), [], .ite ⟨[0], 5⟩ (blk 10) (some (blk 50))⟩]

theorem not_exhaustive : ∃ arms', apply noneArms 1 = some arms' ∧
    (run prog [] (.con 0 (.cons (.lit 2) .nil)) noneArms).2.isSome = true ∧
    (run prog [] (.con 0 (.cons (.lit 2) .nil)) arms').2.isSome = false :=
  ⟨_, rfl, by decide +kernel, by decide +kernel⟩

/-- `match o { None if g => if c { 10 } else { 50 }, None => 20, _ => 50 }` -/
def guardArms : List Arm :=
  [⟨none_, [⟨[], 0⟩], .ite ⟨[], 5⟩ (blk 10) (some (blk 50))⟩, ⟨none_, [], .blk (blk 20)⟩, ⟨.wild, [], .blk (blk 50)⟩]

theorem falls_to_none : ∃ arms', apply guardArms 0 = some arms' ∧
    num (run prog [] (.con noneCon .nil) guardArms) = some 50 ∧ num (run prog [] (.con noneCon .nil) arms') = some 20 :=
  ⟨_, rfl, by decide +kernel, by decide +kernel⟩

/-- `match n { 1 => if c { 10 } else { 50 }, x @ (1 | 2) => 20, _ => 50 }`: a binding with a subpattern counts as a
wildcard. -/
def atArms : List Arm :=
  [⟨.lit 1, [], .ite ⟨[], 5⟩ (blk 10) (some (blk 50))⟩,
   ⟨.bindAt false 0 (.or (.cons (.lit 1) (.cons (.lit 2) .nil))), [], .blk (blk 20)⟩, ⟨.wild, [], .blk (blk 50)⟩]

theorem falls_to_subpattern : ∃ arms', apply atArms 0 = some arms' ∧
    num (run prog [] (.lit 1) atArms) = some 50 ∧ num (run prog [] (.lit 1) arms') = some 20 :=
  ⟨_, rfl, by decide +kernel, by decide +kernel⟩

/-- `match v { (Some(n), 1) => match n { 1 => 10, _ => 50 }, (_, 1) => 20, _ => 50 }` -/
def betweenArms : List Arm :=
  [⟨pair (some_ (.bind false 0)) (.lit 1), [], .mtch (.loc 0) [⟨.lit 1, none, blk 10⟩, ⟨.wild, none, blk 50⟩]⟩,
   ⟨pair .wild (.lit 1), [], .blk (blk 20)⟩, ⟨.wild, [], .blk (blk 50)⟩]

theorem falls_between : ∃ arms', apply betweenArms 0 = some arms' ∧
    num (run prog [] (.con 9 (.cons (.con 0 (.cons (.lit 2) .nil)) (.cons (.lit 1) .nil))) betweenArms) = some 50 ∧
    num (run prog [] (.con 9 (.cons (.con 0 (.cons (.lit 2) .nil)) (.cons (.lit 1) .nil))) arms') = some 20 :=
  ⟨_, rfl, by decide +kernel, by decide +kernel⟩

/-- `if let Some(n @ (1 | 2)) = v { if let 1 | 3 = n { 10 } else { 50 } } else { 50 }` -/
theorem subpattern : ∃ p', checkIfLet (some_ (.bindAt false 0 (.or (.cons (.lit 1) (.cons (.lit 2) .nil)))))
      (.ifLet (.or (.cons (.lit 1) (.cons (.lit 3) .nil))) (.loc 0) (blk 10) (some (blk 50))) (some (.blk (blk 50))) =
      .help (some p') (blk 10) ∧
    num (run prog [] (.con 0 (.cons (.lit 3) .nil)) (ifLet (some_ (.bindAt false 0 (.or (.cons (.lit 1) (.cons (.lit 2)
      .nil))))) (.ifLet (.or (.cons (.lit 1) (.cons (.lit 3) .nil))) (.loc 0) (blk 10) (some (blk 50)))
      (some (.blk (blk 50))))) = some 50 ∧
    num (run prog [] (.con 0 (.cons (.lit 3) .nil)) (ifLet p' (.blk (blk 10)) (some (.blk (blk 50))))) = some 10 :=
  ⟨_, rfl, by decide +kernel, by decide +kernel⟩

/-- `Foo { a: _, x }`: the flag for struct patterns is lost at `_`, so the help text describes `Foo { a: _, Some(1) }`. -/
theorem field_after_wildcard : checkIfLet (.strct 0 (.named 7 .wild (.short false 0 .nil)))
    (.ifLet (.lit 1) (.loc 0) (blk 10) none) none = .help none (blk 10) := rfl

/-- `(Foo { .. }, x)`: the flag is still set behind the struct pattern, so the help text describes `(Foo { .. }, x: 1)`. -/
theorem behind_struct : checkIfLet (pair (.strct 0 .nil) (.bind false 0)) (.ifLet (.lit 1) (.loc 0) (blk 10) none) none =
    .help none (blk 10) := rfl

/-- `Foo { f: x }`: the help text describes `Foo { f: x: 1 }`. -/
theorem renamed_field : checkIfLet (.strct 0 (.named 7 (.bind false 0) .nil)) (.ifLet (.lit 1) (.loc 0) (blk 10) none)
    none = .help none (blk 10) := rfl

/-- The property without its hypotheses is false. -/
theorem not_same : ¬ ∀ (S : Prog) (env : Env) (v : Val) (arms arms' : List Arm) (idx : Nat), apply arms idx = some arms' →
    num (run S env v arms) = num (run S env v arms') := by
  intro h
  obtain ⟨arms', h1, h2, h3⟩ := falls_to_none
  have := h prog [] (.con noneCon .nil) guardArms arms' 0 h1
  rw [h2, h3] at this
  cases this

end Wrong

end Verif.Collapse.Witness
