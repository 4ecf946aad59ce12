import Verif.Indexing.Props

/-!
# C80: indices that panic and are not reported, and ranges that are reported and never panic
-/

namespace Verif.Indexing.Witness

/-- The default configuration, outside of constants and tests. -/
def env : Env := ⟨true, false, false, false, false, 64⟩

theorem env_on : env.On := ⟨rfl, rfl, rfl⟩

/-- A bound that is the constant `n`. -/
def c (n : Nat) : Bound := ⟨some (.int n)⟩

theorem c_val {n : Nat} (h : n < 2 ^ 64) : BoundVal 64 (some (c n)) (some n) :=
  .some h fun _ h => by cases h; rfl

/-- `x[3..1]` of an array with four items: both bounds are in the array, and both lints are silent,
but it always panics. -/
theorem reversed : check env (.array (some 4)) (.range ⟨some (c 3), some (c 1), false⟩) = none ∧
    ∀ v, Has 64 (.range ⟨some (c 3), some (c 1), false⟩) v → panics 4 v := by
  refine ⟨by decide +kernel, fun v h => ?_⟩
  cases h with
  | range hs he =>
    have e1 := constStart_eq (x := 3) rfl hs
    have e2 := constEnd_eq (len := 4) (c := false) (x := 1) rfl he
    show rangePanics _ _ _ _
    unfold rangePanics
    rw [e1, e2]
    exact .inl (by decide)

/-- `x[0]` and `x[1..]` of an array `[T; N]` in a generic function: silent, and they panic for
`N = 0`. -/
theorem generic : check env (.array none) (.single (c 0) false true) = none ∧
    check env (.array none) (.range ⟨some (c 1), none, false⟩) = none ∧
    lenOk 64 (.array none) 0 ∧ Has 64 (.single (c 0) false true) (.usize 0) ∧
    Has 64 (.range ⟨some (c 1), none, false⟩) (.range (some 1) none false) ∧
    panics 0 (.usize 0) ∧ panics 0 (.range (some 1) none false) :=
  ⟨by decide +kernel, by decide +kernel, (by decide : 0 < 2 ^ 64),
    .single (by decide) (fun _ h => by cases h; rfl), .range (c_val (by decide)) .none,
    Nat.le_refl _, .inl (by decide)⟩

/-- `x[R]`, where `const R: Range<usize> = 2..9`: silent, whatever the range is. -/
theorem const_range : check env (.array (some 4)) (.single ⟨some .other⟩ false false) = none ∧
    Has 64 (.single ⟨some .other⟩ false false) (.range (some 2) (some 9) false) ∧
    panics 4 (.range (some 2) (some 9) false) :=
  ⟨by decide +kernel, .other, .inr (by decide)⟩

/-- `x[const { 9 }]`: silent. -/
theorem const_block : check env (.array (some 4)) (.single (c 9) true true) = none ∧
    Has 64 (.single (c 9) true true) (.usize 9) ∧ panics 4 (.usize 9) :=
  ⟨by decide +kernel, .single (by decide) (fun _ h => by cases h; rfl), (by decide : 4 ≤ 9)⟩

/-- So silence is not always safe, even where nothing switches the lints off. -/
theorem not_always : ¬ ∀ (b : Base) (i : Index) (len : Nat) (v : Val), check env b i = none →
    b ≠ .other → lenOk 64 b len → Has 64 i v → ¬ panics len v :=
  fun h => h _ _ 4 _ const_block.1 (by decide) rfl const_block.2.1 const_block.2.2

/-- `v[0..]`, `v[..0]` and `v[0..0]` of a slice are reported, and never panic. -/
theorem harmless (r : Range) (h : Harmless r) (ne : ¬ (r.start = none ∧ r.end_ = none)) :
    check env .sliceLike (.range r) = some .mayPanic ∧
    ∀ len v, Has 64 (.range r) v → ¬ panics len v := by
  obtain ⟨st, en, cl⟩ := r
  obtain ⟨hs, he⟩ := h
  simp only at hs he ne
  constructor
  · rcases hs with rfl | rfl <;> rcases he with rfl | ⟨rfl, rfl⟩ <;> first | rfl | exact absurd ⟨rfl, rfl⟩ ne
  · intro len v hv
    cases hv with
    | @range _ s e h1 h2 =>
      show ¬ rangePanics len s e cl
      have e1 : s.getD 0 = 0 := by
        rcases hs with rfl | rfl
        · exact constStart_eq rfl h1
        · exact constStart_eq rfl h1
      have e2 : endVal len cl e ≤ len := by
        rcases he with rfl | ⟨rfl, rfl⟩
        · exact Nat.le_of_eq (constEnd_eq rfl h2)
        · rw [constEnd_eq (x := 0) rfl h2]; exact Nat.zero_le _
      unfold rangePanics
      omega

end Verif.Indexing.Witness
