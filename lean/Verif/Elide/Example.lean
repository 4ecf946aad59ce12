import Verif.Elide.Props
import Verif.Elide.Cut

/-!
# Examples, and a function that is broken
-/

namespace Verif.Elide

/-- `fn f<'a, 'b>(&'a self, x: Foo<'b>, y: &u8, g: fn(&u8) -> &u8) -> Bar<'_>` -/
def ex1 : Sig :=
  ⟨[0, 1], [], [.ref (.named 0) (.con 0), .app (.con 1) (.lt (.named 1)), .ref .anon (.con 2),
    .site (.app (.ref .anon (.con 2)) (.ref .anon (.con 2)))], .app (.con 3) (.lt .anon), true, false, []⟩

/-- `fn f(&self, x: Foo<'_>, y: &u8, g: fn(&u8) -> &u8) -> Bar<'_>` -/
example : check ex1 = some [0, 1] ∧ elide [0, 1] ex1 =
    ⟨[], [], [.ref .anon (.con 0), .app (.con 1) (.lt .anon), .ref .anon (.con 2),
      .site (.app (.ref .anon (.con 2)) (.ref .anon (.con 2)))], .app (.con 3) (.lt .anon), true, false, []⟩ := by
  decide +kernel

example : ∃ new, (elide [0, 1] ex1).resolve = some new ∧
    Same [0, 1] ([.ref (.named 0) (.con 0), .app (.con 1) (.lt (.named 1)), .ref (.fresh 2) (.con 2),
      .site (.app (.ref .inner (.con 2)) (.ref .inner (.con 2)))], .app (.con 3) (.lt (.named 0))) new :=
  (elide_same_partial ex1 [0, 1] (by decide +kernel) (fun _ => ⟨_, _, _, rfl⟩) (by intro t bs b c h; cases h)
    (by decide +kernel) _ (by decide +kernel)).1

/-- `fn f<'a>(x: &'a u8) -> Foo<'a>`, whose lifetime occurs in the result -/
def ex2 : Sig := ⟨[0], [], [.ref (.named 0) (.con 0)], .app (.con 1) (.lt (.named 0)), false, false, []⟩

example : check ex2 = some [0] ∧ (elide [0] ex2).resolve =
    some ([.ref (.fresh 0) (.con 0)], .app (.con 1) (.lt (.fresh 0))) := by decide +kernel

/-- `fn f<'a>(x: &'a u8, y: &u8) -> &'a u8` is left alone. -/
example : check ⟨[0], [], [.ref (.named 0) (.con 0), .ref .anon (.con 0)], .ref (.named 0) (.con 0),
    false, false, []⟩ = none := by decide +kernel

/-- Found: `fn f<'a>(x: &'a u8, g: fn(Box<dyn Foo + 'a>))`.  The visitor of the function pointer
forgets that it has seen a trait object with a lifetime, and the lifetime itself is not one of those
that are kept: `'a` is taken for one that is used once, its declaration is removed, and the function
pointer still mentions it. -/
theorem dyn_hidden : ∃ s : Sig, check s = some [0] ∧ s.Self ∧ s.Bound ∧ s.resolve.isSome = true ∧
    0 ∉ (elide [0] s).params ∧ 0 ∈ (elide [0] s).names := by
  refine ⟨⟨[0], [], [.ref (.named 0) (.con 0), .site (.app (.con 1) (.dyn (some (.named 0)) (.con 2)))], .con 3,
    false, false, []⟩, by decide +kernel, (fun h => nomatch h), ?_, by decide +kernel, by decide +kernel,
    by decide +kernel⟩
  intro t bs b c h
  cases h

/-- Found: the same behind a type parameter, `fn f<'a, F: Fn(Box<dyn Foo + 'a>)>(x: &'a u8, g: F)`,
where the result of the visitor is not asked for such trait objects at all. -/
theorem dyn_bound : ∃ s : Sig, check s = some [0] ∧ s.Self ∧ s.Bound ∧ s.resolve.isSome = true ∧
    0 ∉ (elide [0] s).params ∧ 0 ∈ (elide [0] s).names := by
  refine ⟨⟨[0], [.bound (.con 4) [] (.site (.app (.con 1) (.dyn (some (.named 0)) (.con 2)))) false],
    [.ref (.named 0) (.con 0), .con 4], .con 3, false, false, []⟩, by decide +kernel, (fun h => nomatch h), ?_,
    by decide +kernel, by decide +kernel, by decide +kernel⟩
  intro t bs b c h a _
  simp at h
  simp [h]

end Verif.Elide
