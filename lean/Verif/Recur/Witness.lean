import Verif.Recur.Props

/-!
# `only_used_in_recursion`: examples and counterexamples
-/

namespace Verif.Recur.Witness

/-- Integers; `0` is `==`, `1` is `-`, `2` is `+`, `3` is `/`, which panics for zero. -/
def ints : Sem Int where
  unit := 0
  lit c := c
  truth v := v != 0
  prim op a b :=
    match op with
    | 0 => some (if a = b then 1 else 0)
    | 1 => some (a - b)
    | 2 => some (a + b)
    | _ => if b = 0 then none else some (a / b)
  un _ a := some (-a)
  addr a := a
  cast _ a := a
  get _ a := a
  set _ _ w := w
  ext _ _ _ := some 0

/-- All but division. -/
def tot (op : Nat) : Bool := op < 3

theorem ints_total : Total ints tot where
  bin op h a b := by
    have : op < 3 := by simpa [tot] using h
    match op, this with
    | 0, _ => simp [ints]
    | 1, _ => simp [ints]
    | 2, _ => simp [ints]
  un _ _ _ := by simp [ints]

/-- `if n == 0 { 0 } else { f(n - 1, arg) }` -/
def rec2 (arg : Ex) : Ex :=
  .ifElse (.bin 0 true (.var 0) (.const 0)) (.const 0)
    (.call (.cons (.bin 1 true (.var 0) (.const 1)) (.cons arg .nil)))

def fn2 (body : Ex) : Fn := ⟨2, fun _ => true, body⟩

/-- `f(n - 1, p + 1)` -/
def plain : Fn := fn2 (rec2 (.bin 2 true (.var 1) (.const 1)))

example : reported plain = [1] ∧ Tame (isReported plain) tot plain.body ∧ Total ints tot ∧
    run ints plain 5 [3, 7] [] = (.ok 0, []) := by
  refine ⟨by decide +kernel, ?_, ints_total, by decide +kernel⟩
  simp only [plain, fn2, rec2, Tame, TameL, and_true, true_and]
  exact ⟨fun h => absurd h (by decide +kernel), fun _ => rfl, fun _ => rfl⟩

/-- Two parameters that are exchanged, `f(n - 1, q, p)`, are reported, and so is `self.x` as an
argument; a parameter in the condition is not, and neither is one that is handed to it. -/
example : reported ⟨3, fun _ => true, .ifElse (.var 0) (.const 0)
    (.call (.cons (.const 0) (.cons (.field false 1 (.var 2)) (.cons (.var 1) .nil))))⟩ = [1, 2] := by decide +kernel

example : reported ⟨3, fun _ => true, .ifElse (.var 0) (.const 0)
    (.call (.cons (.var 1) (.cons (.var 2) (.cons (.var 2) .nil))))⟩ = [] := by decide +kernel

/-- A parameter that is updated, `p = p + 1; f(n - 1, p)`. -/
example : reported (fn2 (.block (.expr (.assign (.var 1) (.bin 2 true (.var 1) (.const 1))) .nil)
    (rec2 (.var 1)))) = [1] := by decide +kernel

/-- `Closed` as in `reported_largest`. -/
example : Closed plain (· = 1) := by
  have hs := reported_closed plain
  have : ∀ p, p ∈ reported plain ↔ p = 1 := by
    intro p
    rw [show reported plain = [1] by decide +kernel, List.mem_singleton]
  simpa only [this] using hs

/-- A reported parameter that matters. -/
def Matters (f : Fn) : Prop := 1 ∈ reported f ∧ ∃ n a b c, run ints f n [a, b] [] ≠ run ints f n [a, c] []

theorem matters_not {f : Fn} (h : Matters f) : ¬Irrelevant ints f (isReported f) := by
  obtain ⟨h1, n, a, b, c, hne⟩ := h
  intro hi
  refine hne (hi n [] [a, b] [a, c] rfl fun i hF => ?_)
  match i with
  | 0 => rfl
  | 1 => rw [show isReported f 1 = true by simpa [isReported] using h1] at hF; cases hF
  | i + 2 => simp

/-- `f(n - 1, p && log())`: the parameter decides whether there is an effect. -/
theorem and_effect : Matters (fn2 (rec2 (.logic true (.var 1) (.other 0 .nil)))) :=
  ⟨by decide +kernel, 3, 1, 1, 0, by decide +kernel⟩

/-- `p && log();` likewise, even without a value. -/
theorem and_statement : Matters (fn2 (.block (.expr (.logic true (.var 1) (.other 0 .nil)) .nil) (rec2 (.var 1)))) :=
  ⟨by decide +kernel, 3, 1, 1, 0, by decide +kernel⟩

/-- `f(n - 1, 10 / p)` panics for zero. -/
theorem div_panics : Matters (fn2 (rec2 (.bin 3 true (.const 10) (.var 1)))) :=
  ⟨by decide +kernel, 3, 1, 1, 0, by decide +kernel⟩

/-- `p += 1; f(n - 1, p)` with an operator of the user, which can do anything. -/
theorem user_assign : Matters (fn2 (.block (.expr (.assignOp 0 false (.var 1) (.const 1)) .nil) (rec2 (.var 1)))) :=
  ⟨by decide +kernel, 3, 1, 1, 0, by decide +kernel⟩

end Verif.Recur.Witness
