import Verif.Flow.EagerProps

/-!
# C41: examples and violations
-/

namespace Verif.Eager

open Verif.RInt (IT)

/-- A local variable. -/
def local_ : EExpr := .node (.path false false) []

/-- The literal `2`. -/
def two : EExpr := .node .pure []

/-- Only the literal is a constant. -/
def evalTwo : EExpr → Option Cst
  | .node .pure [] => some (.int 2)
  | _ => none

/-- A program in which the literal has the value 2, everything else can have any value, and functions other than the
harmless ones can have any effect. -/
def demo : World where
  eval := evalTwo
  vals e v := evalTwo e = none ∨ v = 2
  fx f _ := ¬ (f.promotable = true ∨ (f.stdAccessor = true ∧ f.isUnsafe = false))
  evalRight e c v h hv := by
    unfold evalTwo at h hv
    split at h
    · rcases hv with hv | hv
      · simp at hv
      · subst hv; simpa using h.symm
    · simp at h
  promotableHarmless f eff h hf := hf (.inl h)
  accessorHarmless f eff h hu hf := hf (.inr ⟨h, hu⟩)

/-- `v.len()` on a slice. -/
def sliceLen : FnInfo := ⟨true, str!"len", true, false, false, false, false⟩

/-- `unsafe { p.as_ref() }` on a `NonNull`. -/
def nonNullAsRef : FnInfo := ⟨true, str!"as_ref", true, false, false, false, true⟩

/-- `s.trim()` on a `str`. -/
def strTrim : FnInfo := ⟨true, str!"trim", true, false, false, false, false⟩

def i32 : OpTy := .int ⟨true, 32⟩

theorem sub_cases {p e : EExpr} (h : Sub p e) : p = e ∨ ∃ k args c, e = .node k args ∧ c ∈ args ∧ Sub p c := by
  cases h with
  | refl => exact .inl rfl
  | part hm hs => exact .inr ⟨_, _, _, rfl, hm, hs⟩

theorem sub_leaf {p : EExpr} {k : Kind} (h : Sub p (.node k [])) : p = .node k [] := by
  rcases sub_cases h with h | ⟨_, _, _, he, hm, _⟩
  · exact h
  · cases he; simp at hm

/-- `(x.len() / 2, y)` is evaluated eagerly, and `Can` allows panics: `x / y` can panic in the same program. -/
example : let e : EExpr := .node .pure [.node (.bin .div i32 i32) [.node (.method sliceLen false) [local_], two], local_]
    SafeReads e ∧ switchToEager demo.eval e = true ∧
    Can demo (.node (.bin .div i32 i32) [local_, local_]) .panic := by
  refine ⟨?_, by rfl, ?_⟩
  · intro k args h
    rcases sub_cases h with h | ⟨_, _, c, he, hm, h⟩
    · cases h; rfl
    cases he
    simp only [List.mem_cons, List.not_mem_nil, or_false] at hm
    rcases hm with hm | hm <;> subst hm
    · rcases sub_cases h with h | ⟨_, _, c, he, hm, h⟩
      · cases h; rfl
      cases he
      simp only [List.mem_cons, List.not_mem_nil, or_false] at hm
      rcases hm with hm | hm <;> subst hm
      · rcases sub_cases h with h | ⟨_, _, c, he, hm, h⟩
        · cases h; decide
        cases he
        simp only [List.mem_cons, List.not_mem_nil, or_false] at hm
        subst hm
        have := sub_leaf h; cases this; rfl
      · have := sub_leaf h; cases this; rfl
    · have := sub_leaf h; cases this; rfl
  · exact .here ⟨rfl, local_, local_, 1, 0, rfl, rfl, .inl rfl, .inl rfl, .inl rfl⟩

/-- `f(x).trim()` is evaluated lazily and has nothing opaque in it. -/
example : let e : EExpr := .node (.method strTrim false) [.node .callOther [local_]]
    (∀ k as, Sub (.node k as) e → k.opaque = false) ∧ switchToLazy demo.eval e = true := by
  refine ⟨?_, by rfl⟩
  intro k args h
  rcases sub_cases h with h | ⟨_, _, c, he, hm, h⟩
  · cases h; rfl
  cases he
  simp only [List.mem_cons, List.not_mem_nil, or_false] at hm
  subst hm
  rcases sub_cases h with h | ⟨_, _, c, he, hm, h⟩
  · cases h; rfl
  cases he
  simp only [List.mem_cons, List.not_mem_nil, or_false] at hm
  subst hm
  have := sub_leaf h; cases this; rfl

/-- No constant operation is among the nodes, so nothing is rejected by the compiler. -/
theorem not_rejected_leaf {w : World} {k : Kind} (h : ¬ LocalRejected w k []) : ¬ Rejected w (.node k []) := by
  rintro ⟨k', args', hs, hr⟩
  have := sub_leaf hs
  cases this
  exact h hr

theorem not_rejected_one {w : World} {k : Kind} {e : EExpr} (h : ¬ LocalRejected w k [e]) (he : ¬ Rejected w e) :
    ¬ Rejected w (.node k [e]) := by
  rintro ⟨k', args', hs, hr⟩
  rcases sub_cases hs with hs | ⟨_, _, c, hc, hm, hs'⟩
  · cases hs; exact h hr
  · cases hc
    rw [List.mem_singleton] at hm
    subst hm
    exact he ⟨_, _, hs', hr⟩

/-- **Violation of C41.** `unsafe { u.flag }` for a union `u` is taken to be fine to evaluate eagerly
(eager_or_lazy.rs:299), although reading a field that is not active is undefined behaviour: `c.then(|| unsafe { u.flag })`
becomes `c.then_some(unsafe { u.flag })`. -/
theorem union_violation : let e : EExpr := .node .pure [.node (.field true) [local_]]
    switchToEager demo.eval e = true ∧ Can demo e .ub ∧ ¬ Rejected demo e :=
  ⟨by rfl, .part (List.mem_singleton.2 rfl) (.here ⟨rfl, rfl⟩),
    not_rejected_one id (not_rejected_one id (not_rejected_leaf id))⟩

/-- **Violation of C41.** The same for a `static mut`, eager_or_lazy.rs:191-196. -/
theorem static_mut_violation : let e : EExpr := .node .pure [.node (.path false true) []]
    switchToEager demo.eval e = true ∧ Can demo e .ub ∧ ¬ Rejected demo e :=
  ⟨by rfl, .part (List.mem_singleton.2 rfl) (.here ⟨rfl, rfl⟩), not_rejected_one id (not_rejected_leaf id)⟩

/-- **Violation of C41.** `unsafe { p.as_ref() }` for a `NonNull` pointer is taken to be fine to evaluate eagerly, since
its name begins with `as_` (eager_or_lazy.rs:59-66), although `unsafe { &*p.as_ptr() }` is not. -/
theorem nonnull_violation : let e : EExpr := .node .pure [.node (.method nonNullAsRef false) [local_]]
    switchToEager demo.eval e = true ∧ Can demo e .ub ∧ ¬ Rejected demo e := by
  refine ⟨by rfl, .part (List.mem_singleton.2 rfl) (.here ?_),
    not_rejected_one id (not_rejected_one id (not_rejected_leaf id))⟩
  show ¬ _
  decide

/-- **Violation of C41.** `s.await.trim()`, with a `String` dereferenced to `str`, is taken to be better evaluated lazily
although it contains a `yield`: the parts of an automatically dereferenced expression are not looked at
(eager_or_lazy.rs:130-141). So `opt.unwrap_or(s.await.trim())` is to become `opt.unwrap_or_else(|| s.await.trim())`. -/
theorem await_violation : let e : EExpr := .node (.method strTrim false) [.node .autoderef [.node .jump [local_]]]
    switchToLazy demo.eval e = true ∧ HasJump e :=
  ⟨by rfl, [local_], .part (List.mem_singleton.2 rfl) (.part (List.mem_singleton.2 rfl) .refl)⟩

/-- **Violation of C41.** The negation of a float literal is taken to be expensive (eager_or_lazy.rs:214, :225-226 and
:283-285), so `opt.or(Some(-1.0))` is to become `opt.or_else(|| Some(-1.0))`; it is harmless, and so is the negation of
an integer literal, which is not taken to be expensive. -/
theorem neg_float_violation : let e : EExpr := .node (.ctor false) [.node (.neg .float) [two]]
    switchToLazy demo.eval e = true ∧ (∀ eff, ¬ Can demo e eff) ∧
    switchToEager demo.eval (.node (.ctor false) [.node (.neg i32) [two]]) = true := by
  refine ⟨by rfl, ?_, by rfl⟩
  intro eff h
  cases h with
  | here h => exact h
  | part hm h =>
    rw [List.mem_singleton] at hm
    subst hm
    cases h with
    | here h => exact h
    | part hm h =>
      rw [List.mem_singleton] at hm
      subst hm
      cases h with
      | here h => exact h
      | part hm _ => simp at hm

/-- **Violation of C41.** A part can be classified worse than the whole: here a loop, below a dereference. -/
theorem part_violation : let p : EExpr := .node .loop []
    let e : EExpr := .node .autoderef [p]
    Sub p e ∧ (eagerness demo.eval e).rank < (eagerness demo.eval p).rank :=
  ⟨.part (List.mem_singleton.2 rfl) .refl, by decide⟩

end Verif.Eager
