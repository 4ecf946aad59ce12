import Verif.InfLoop.Props

/-!
# Examples, and what goes wrong
-/

namespace Verif.InfLoop.Witness

/-- Operation 0 is `true`, 1 is `panic!()`, others are `false`. -/
def sem : Sem where
  V := Bool
  W := Unit
  unit := false
  truth := id
  op := fun k _ w => if k = 0 then some (true, w) else if k = 1 then none else some (false, w)
  pat := fun _ _ w => some w

def fa : Facts := ⟨fun k => k == 1, true⟩

def yes : Ex := .op 0 .nil

/-- `'a: loop { loop { if yes { continue 'a } break; } }` runs forever. -/
def twice : Stmts :=
  .last (.loop none (.expr (.ifThen yes (.cont (some 7))) (.expr (.brk none) .nil)))

example : Forever sem (some 7) twice :=
  infinite_forever_partial (fa := fa) (by decide +kernel) (by decide +kernel) (fun x h => by cases h)

/-- `loop { 'b: { loop { break 'b } } }` too. -/
def viaBlock : Stmts := .last (.block (some 8) (.last (.loop none (.expr (.brk (some 8)) .nil))))

example : Forever sem none viaBlock :=
  infinite_forever_partial (fa := fa) (by decide +kernel) (by decide +kernel) (fun x h => by cases h)

/-- `loop { let x = loop { break yes }; }` -/
example : Forever sem none (.let_ 0 (.loop none (.last (.brkVal none yes))) .nil) :=
  infinite_forever_partial (fa := fa) (by decide +kernel) (by decide +kernel) (fun x h => by
    simp only [hiddenBlock, hidden, yes, hiddenAll, List.append_nil, List.mem_singleton] at h
    subst h
    intro n w j w' hr
    match n with
    | 0 => simp [run] at hr
    | 1 => simp [run, runAll, andThen] at hr
    | n + 2 => simp [run, runAll, andThen, sem] at hr; cases hr)

/-- Not reported: `loop { if yes { return } }`. -/
example : check fa none (.last (.ifThen yes .ret)) = false := by decide +kernel

/-- `'a: loop { loop { loop { break 'a; } } }`: the middle loop is reported, but is left. -/
theorem outer_label : check fa none (.last (.loop none (.expr (.brk (some 7)) .nil))) = true ∧
    run sem 9 (.loop none (.last (.loop none (.expr (.brk (some 7)) .nil)))) () =
      some (.jump (.brk (some 7) false), ()) :=
  ⟨by decide +kernel, rfl⟩

/-- `loop { let x = loop { break if yes { return } else { yes } }; }`: the value of `break` is not looked at. -/
theorem break_value :
    check fa none (.let_ 0 (.loop none (.last (.brkVal none (.ifElse yes .ret yes)))) .nil) = true ∧
    run sem 9 (.loop none (.let_ 0 (.loop none (.last (.brkVal none (.ifElse yes .ret yes)))) .nil)) () =
      some (.jump (.ret false), ()) :=
  ⟨by decide +kernel, rfl⟩

/-- `loop { become f(); }` -/
theorem become_leaves : check fa none (.expr (.become (.op 5 .nil)) .nil) = true ∧
    run sem 9 (.loop none (.expr (.become (.op 5 .nil)) .nil)) () = some (.jump (.ret false), ()) :=
  ⟨by decide +kernel, rfl⟩

end Verif.InfLoop.Witness
