import Verif.Local.Props

/-!
# Examples, and what goes wrong
-/

namespace Verif.Local.Witness

/-- Operator 0 is `+`; path 0 is `u8::MAX`; function 0 is `i8::max_value`. -/
def lib : Lib where
  known := fun p => p == 0
  std := fun p => if p = 0 then some (.int 255) else none
  call := fun f => if f = 0 then some (.int 127) else none
  not := fun _ _ => none
  neg := fun _ _ => none
  bin := fun o _ l r => match o, l, r with
    | 0, .int a, .int b => some (.int (a + b))
    | _, _, _ => none
  hasField := fun _ _ => true
  field := fun a f => some (.int (a + f))
  nan := fun _ _ => false

/-- Path 1 is `N`, with some value. -/
def world (n : Nat) : World where
  isConst := fun p => p == 1
  value := fun p => if p = 1 then some (.int n) else none
  len := fun _ => some n

def num (n : Nat) : Ex := .mk 0 (.lit 0 (.int n))

/-- `{ 1 + u8::MAX }` -/
def sum : Ex := .mk 0 (.block 0 (some [.openBrace, .whitespace]) false
  (.mk 0 (.bin (.other 0) 0 (num 1) (.mk 0 (.path [0, 0] 0)))))

example : (evalLocal lib (world 3) 0 sum).isSome = true := by rfl

/-- It has the same value with other constants. -/
example {v : Const} (h : eval lib (world 5) 0 sum = some v) : v = .int 256 :=
  local_same_partial (lib := lib) (w := world 3) (w' := world 5)
    (.same _ (.block _ _ _ (.same _ (.bin _ _ (.same _ (.lit _ _)) (.same _ (.path _ _))))))
    (by decide +kernel) (by decide +kernel) rfl h

/-- `false && m!()` has no local value. -/
example : evalLocal lib (world 3) 0 (.mk 0 (.bin .and 0 (.mk 0 (.lit 0 (.bool false))) (.mk 7 (.lit 7 (.bool true))))) =
    none := by rfl

/-- `{ #[cfg(x)] f(); 1 }` neither. -/
example : evalLocal lib (world 3) 0
    (.mk 0 (.block 0 (some [.openBrace, .whitespace, .other 5, .semi]) false (num 1))) = none := by rfl

example : Own 0 lib.known sum :=
  .mk (.block ⟨[], [.whitespace], rfl, (fun t h => by cases h), (fun t h => by
    rcases List.mem_singleton.1 h with rfl; exact .whitespace)⟩
    (.mk (.bin _ _ (.mk (.lit _)) (.mk (.path (fun s h => by simpa using h) rfl)))))

/-- `[1.0, 2.0][1]` -/
example {x : Const} (h : ([Const.float 64 1, .float 64 2] : List Const)[1]? = some x) : Const.float 64 2 = x :=
  index_right_partial (lib := lib) (i := some (.int 1)) rfl (fun m h => by injection h with h; injection h with h; exact h.symm)
    (by decide) h

/-- `[0; N]` is taken for a constant that does not depend on others. -/
theorem named_length : evalLocal lib (world 3) 0 (.mk 0 (.rep (num 0) (.named 1))) = some (.rep (.int 0) 3) ∧
    evalLocal lib (world 5) 0 (.mk 0 (.rep (num 0) (.named 1))) = some (.rep (.int 0) 5) := ⟨rfl, rfl⟩

/-- `[1, #[cfg(x)] 2]` too, with and without the second element. -/
theorem cfg_element : ∃ e e', Agree 0 e e' ∧ evalLocal lib (world 3) 0 e = some (.vec [.int 1, .int 2]) ∧
    evalLocal lib (world 3) 0 e' = some (.vec [.int 1]) :=
  ⟨.mk 0 (.arr (.cons false (num 1) (.cons true (num 2) .nil))), .mk 0 (.arr (.cons false (num 1) .nil)),
    .same _ (.arr (.cons _ (.same _ (.lit _ _)) (.left .nil))), rfl, rfl⟩

/-- `m!()()`, where the macro gives the name of a function. -/
theorem macro_callee : ∃ e e', Agree 0 e e' ∧ (evalLocal lib (world 3) 0 e).isSome = true ∧
    evalLocal { lib with call := fun f => some (.int f) } (world 3) 0 e ≠
      evalLocal { lib with call := fun f => some (.int f) } (world 3) 0 e' :=
  ⟨.mk 0 (.call 7 0), .mk 0 (.call 7 1), .same _ (.callMacro (by decide) (by decide)), rfl, by
    simp [evalLocal, expr, kind, mark]⟩

def hidden : List Tok := [.openBrace, .whitespace, .other 5, .other 6, .semi]

/-- In a macro hidden code is not looked for: `{ #[cfg(x)] f(); 1 }` against another block. -/
theorem hidden_in_macro : ∃ e e', Agree 7 e e' ∧ evalLocal lib (world 3) 7 e = some (.int 1) ∧
    evalLocal lib (world 3) 7 e' = some (.int 2) := by
  refine ⟨.mk 7 (.block 7 (some hidden) false (.mk 7 (.lit 7 (.int 1)))),
    .mk 7 (.block 7 (some hidden) false (.mk 7 (.lit 7 (.int 2)))), .same _ (.blockHidden ?_ ?_), rfl, rfl⟩ <;>
  · intro h
    have := hides_nothing (c := 0) h
    revert this
    decide

/-- `[1.0, 1.0][0..1]` is an array, but counts as the number `1.0`. -/
theorem range_index : eval lib (world 3) 0 (.mk 0 (.idx
    (.mk 0 (.arr (.cons false (.mk 0 (.lit 0 (.float 64 1))) (.cons false (.mk 0 (.lit 0 (.float 64 1))) .nil))))
    (.mk 0 .other))) = some (.float 64 1) := rfl

end Verif.Local.Witness
