import Verif.Never.Props

/-!
# Examples, and what goes wrong
-/

namespace Verif.Never.Witness

/-- Operation 0 is `true`, 1 is `panic!()`, 2 asks for something unknown, others are `false`. -/
def sem (ask : Bool) : Sem where
  V := Bool
  W := Unit
  unit := false
  truth := id
  op := fun k _ w => if k = 0 then some (true, w) else if k = 1 then none else if k = 2 then some (ask, w)
    else some (false, w)
  pat := fun _ _ w => some w

def fa : Facts := ⟨fun k => k == 1, fun _ => false⟩

def ask : Ex := .op 2 .nil
def panic : Ex := .op 1 .nil

theorem op_ok (b : Bool) : ∀ k vs w, fa.opNever k = true → (sem b).op k vs w = none := by
  intro k vs w h
  have : k = 1 := by simpa [fa] using h
  subst this
  rfl

/-- `{ if ask { return } else { f(panic!()) } }` has no value. -/
def both : Ex := .block none (.last (.ifElse ask (.block none (.expr .ret .nil)) (.op 5 (.cons panic .nil))))

example (b : Bool) : NoValue (sem b) both :=
  never_no_value_partial (fa := fa) (by decide +kernel) (fun h => by cases h) (op_ok b) (by decide +kernel)
    (fun r h => by cases h)

/-- `loop { if ask { return } }` has no value, and one way to end. -/
def noBreak : Ex := .loop 0 (.last (.ifThen ask (.block none (.expr .ret .nil))))

example (b : Bool) : NoValue (sem b) noBreak :=
  never_no_value_partial (fa := fa) (by decide +kernel) (fun h => by cases h) (op_ok b) (by decide +kernel)
    (fun r h => by cases h)

example : run (sem true) 9 noBreak () = some (.jump (.ret false), ()) := rfl

/-- With `break` it has one: the answer is no. -/
def withBreak : Ex := .loop 0 (.last (.ifThen ask (.brk 0)))

example : isNever fa withBreak = false := by decide +kernel
example : run (sem true) 9 withBreak () = some (.val false, ()) := rfl

/-- `'a: { if ask { break 'a } return }` -/
def labelled : Ex := .block (some 0) (.expr (.ifThen ask (.brk 0)) (.expr .ret .nil))

example : isNever fa labelled = false := by decide +kernel
example : run (sem true) 9 labelled () = some (.val false, ()) := rfl

/-- Lazy operands without jumps: `(ask && ask) == return` -/
example (b : Bool) : NoValue (sem b) (.op 3 (.cons (.lazy true ask ask) (.cons .ret .nil))) :=
  never_no_value_partial (fa := fa) (by decide +kernel) (fun h => by cases h) (op_ok b) (by decide +kernel)
    (fun r h => by
      simp only [lazies, laziesAll, ask, List.nil_append, List.append_nil, List.mem_singleton] at h
      subst h
      exact .op 2 rfl (fun e he => by cases he))

/-- `{ ask || return }` can have a value, but the answer is that it has none. -/
theorem lazy_return : isNever fa (.block none (.last (.lazy false ask .ret))) = true ∧
    run (sem true) 9 (.block none (.last (.lazy false ask .ret))) () = some (.val true, ()) :=
  ⟨by decide +kernel, rfl⟩

/-- Everything after `ask && return;` counts as code that does not run: `loop { ask && return; break; }` is taken
for a loop that does not end. -/
theorem lazy_break : isNever fa (.loop 0 (.expr (.lazy true ask .ret) (.expr (.brk 0) .nil))) = true ∧
    run (sem false) 9 (.loop 0 (.expr (.lazy true ask .ret) (.expr (.brk 0) .nil))) () = some (.val false, ()) :=
  ⟨by decide +kernel, rfl⟩

end Verif.Never.Witness
