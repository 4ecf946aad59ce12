import Verif.Asserts.Props

/-!
# Assertions for indices: examples, and suggestions which change the behaviour
-/

namespace Verif.Asserts.Witness

abbrev v (k : Nat) : P := .idx (.lit k)

/-- `assert!(v.len() > n)`. -/
abbrev gt (n : Nat) : P := .guard .gt false n true .skip

/-- `assert!(v.len() > 1); v[0]; v[..=5];` -/
def good : P := .seq (gt 1) (.seq (v 0) (.idx (.range 0 true 5)))

example : lint good = some (.replaceGt 5) ∧ (Report.replaceGt 5).apply good = some (.seq (gt 5) (.seq (v 0) (.idx (.range 0 true 5)))) ∧
    good.events = [.assert .intLt 1, .index 0, .index 5] := by decide +kernel
example : good.Straight := ⟨⟨rfl, rfl⟩, trivial, trivial⟩

/-- `v[0]; v[2..4];` -/
example : lint (.seq (v 0) (.idx (.range 2 false 4))) = some (.add 3) ∧ (P.seq (v 0) (.idx (.range 2 false 4))).Straight := ⟨by decide +kernel, trivial, trivial⟩

example : lint (.seq (.guard .le true 6 true .skip) (.seq (v 0) (v 5))) = none ∧ lint (.seq (v 5) (v 0)) = none := by decide +kernel

/-- `assert!(v.len() > 1); if c { v[0]; v[5] }`: with three elements, the code may be fine, but never with the suggestion, which is machine
applicable. -/
theorem conditional : ∃ p', let p := P.seq (gt 1) (.cond (.seq (v 0) (v 5)) .skip)
    (lint p).bind (·.apply p) = some p' ∧ runs 3 p .ok ∧ ¬ runs 3 p' .ok := by
  refine ⟨.seq (gt 5) (.cond (.seq (v 0) (v 5)) .skip), by decide +kernel, ?_, ?_⟩ <;> simp [runs, Op.holds]

/-- `if !(v.len() > 1) { return } v[0]; v[5];`: the guard is replaced by an assertion, so the code panics where it did return. -/
theorem leaves : ∃ p', let p := P.seq (.guard .gt false 1 false .skip) (.seq (v 0) (v 5))
    (lint p).bind (·.apply p) = some p' ∧ runs 0 p .leave ∧ ¬ runs 0 p' .leave := by
  refine ⟨.seq (gt 5) (.seq (v 0) (v 5)), by decide +kernel, ?_, ?_⟩ <;> simp [runs, Op.holds]

/-- `if !(v.len() > 1) { panic!() } else { v[9] } v[0]; v[10];`: the second branch is dropped, here with an index. -/
theorem else_dropped : ∃ p', let p := P.seq (.guard .gt false 1 true (v 9)) (.seq (v 0) (v 10))
    (lint p).bind (·.apply p) = some p' ∧ p.indices.length = 3 ∧ p'.indices.length = 2 :=
  ⟨.seq (gt 10) (.seq (v 0) (v 10)), by decide +kernel, by decide +kernel, by decide +kernel⟩

/-- `assert!(v.len() == 2); v[0]; v[5];`: this always panics, with the suggestion it doesn't for six elements. -/
theorem equality : ∃ p', let p := P.seq (.guard .eq false 2 true .skip) (.seq (v 0) (v 5))
    (lint p).bind (·.apply p) = some p' ∧ ¬ runs 6 p .ok ∧ runs 6 p' .ok := by
  refine ⟨.seq (.guard .eq false 6 true .skip) (.seq (v 0) (v 5)), by decide +kernel, ?_, ?_⟩ <;> simp [runs, Op.holds, Idx.InBounds, Idx.Ordered]

/-- `assert!(v.len() < 100); v[0]; v[5];`: the upper bound is dropped. -/
theorem upper_bound : ∃ p', let p := P.seq (.guard .lt false 100 true .skip) (.seq (v 0) (v 5))
    (lint p).bind (·.apply p) = some p' ∧ ¬ runs 200 p .ok ∧ runs 200 p' .ok := by
  refine ⟨.seq (gt 5) (.seq (v 0) (v 5)), by decide +kernel, ?_, ?_⟩ <;> simp [runs, Op.holds, Idx.InBounds, Idx.Ordered]

/-- `assert!(v.len() > 0); assert!(v.len() > 5); v[0]; v[5];`: only the first assertion is considered, so this is reported, although the second one
covers all indices. -/
theorem second_ignored : lint (.seq (gt 0) (.seq (gt 5) (.seq (v 0) (v 5)))) = some (.replaceGt 5) := by decide +kernel

end Verif.Asserts.Witness
