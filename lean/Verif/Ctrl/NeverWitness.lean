import Verif.Ctrl.NeverProps
import Verif.Ctrl.Demo

/-!
# Loops that never loop: examples, and what the lint gets wrong
-/

namespace Verif.Ctrl.Never
open Verif.Ctrl

/-- Types as in the examples: only jumps are of type `!`. -/
def jumpTy : Expr → Bool
  | .cont _ _ => true
  | .brk _ _ _ => true
  | .ret _ => true
  | _ => false

/-- No `todo!()`. -/
def noTodo : Expr → Bool := fun _ => false

theorem jumpTy_sound (S : Sem) : NeverSound S jumpTy := by
  intro e he k ρ
  unfold jumpTy at he
  split at he
  · simp only [eval]; exact NoValue.throw _
  · simp only [eval]; exact NoValue.bind_right _ fun _ => NoValue.throw _
  · simp only [eval]; exact NoValue.bind_right _ fun _ => NoValue.throw _
  · cases he

/-- `loop { if read() { say(1); return; } else { 'a: { if read() { break 'a } break; } break } }` -/
def ok : Expr := .lp none 1 (.tail (.ite (.test readE)
  (.block none (.semi (sayE 1) (.semi (.ret .nil) .done)))
  (.block none (.semi
    (.block (some (7, 2)) (.expr (.ifn (.test readE) (.block none (.tail (.brk (some 7) 2 .nil))))
      (.semi (.brk none 1 .nil) .done)))
    (.tail (.brk none 1 .nil))))))

example : fires jumpTy noTodo ok = true ∧ hiddenE ok = [] := by decide +kernel
example (k : Nat) (ρ : Env demo) : Once 1 (turn (S := demo) k ok ρ demo.unit) :=
  never_loops_partial (todo := noTodo) (jumpTy_sound _) ok (by decide +kernel) (by decide +kernel) k ρ _
example : output 5 ok [1] = [1] ∧ output 5 ok [0, 1] = [] := by decide +kernel
example (k : Nat) (ρ : Env demo) :
    eval (k + 1) ok ρ = M.catchBrk 1 (turn (k + 1) ok ρ demo.unit) :=
  single_turn_partial (todo := noTodo) (jumpTy_sound _) ok (by decide +kernel) (by decide +kernel)
    (by intros; simp [ok]) k ρ

/-- Without the `break` at the end, the labelled block makes the lint quiet. -/
example : fires jumpTy noTodo (.lp none 1 (.semi
    (.block (some (7, 2)) (.expr (.ifn (.test readE) (.block none (.tail (.brk (some 7) 2 .nil))))
      (.semi (.brk none 1 .nil) .done))) .done)) = false := by decide +kernel

/-- `for x in it { show(x); return; }` -/
def okFor : Expr := .forE none 1 0 [4] (.var 0)
  (.semi (showE 4) (.semi (.ret .nil) .done))

/-- `if let Some(x) = it.next() { show(x); return; }` -/
def okIf : Expr := .ifn (.nextP 0 [4] (.var 0))
  (.block none (.semi (showE 4) (.semi (.ret .nil) .done)))

example : rewrite jumpTy noTodo okFor = some okIf := by
  have h : fires jumpTy noTodo okFor = true ∧ jumpsS (.semi (showE 4) (.semi (.ret .nil) .done)) = false := by
    decide +kernel
  simp only [rewrite, okFor, okIf] at *
  simp [h.1, h.2]
example (k : Nat) (ρ : Env demo) : eval (S := demo) (k + 1) okFor ρ = eval (k + 1) okIf ρ := by
  refine rewrite_same_partial (jumpTy_sound _) [] okFor okIf (todo := noTodo) ?_ ?_
    (by decide +kernel) k ρ
  · have h : fires jumpTy noTodo okFor = true ∧
        jumpsS (.semi (showE 4) (.semi (.ret .nil) .done)) = false := by decide +kernel
    simp only [rewrite, okFor, okIf] at *
    simp [h.1, h.2]
  · simp [okFor, scopedE, scopedS, scopedL, showE, Fresh]
example (k : Nat) (ρ : Env demo) : True := by
  have _h := single_element_partial (jumpTy_sound demo) none 1 0 [4] (.var 0)
    (.semi (showE 4) (.semi (.ret .nil) .done)) (todo := noTodo)
    (by decide +kernel) (by decide +kernel) k ρ
  trivial
example : output 5 okFor [6, 7] = [6] ∧ output 5 okIf [6, 7] = [6] := by decide +kernel

/-! ## Loops that are reported although they loop -/

/-- `loop { say(1); read() && { continue }; break; }` -/
def lazyLoop : Expr := .lp none 1 (.semi (sayE 1) (.semi
  (.lzy true readE (.block none (.tail (.cont none 1))))
  (.semi (.brk none 1 .nil) .done)))

/-- The right side of `&&` is not looked at: a loop that runs three times is reported. -/
theorem lazy_loops : fires jumpTy noTodo lazyLoop = true ∧
    output 5 lazyLoop [1, 1, 0] = [1, 1, 1] ∧ outcome 5 lazyLoop [1, 1, 0] = .ok 0 := by
  decide +kernel

theorem lazy_not_once : ¬ Once 1 (turn (S := demo) 5 lazyLoop demoEnv demo.unit) := fun h =>
  (h ([], [1])).2 ([1], []) rfl

/-- `loop { say(1); match read() { 1 if { continue } => (), _ => () } break; }` -/
def guardLoop : Expr := .lp none 1 (.semi (sayE 1) (.semi
  (.mtch readE (.armIf 1 [] (.test (.block none (.tail (.cont none 1)))) .unit (.arm 0 [] .unit .nil)))
  (.semi (.brk none 1 .nil) .done)))

/-- Guards are not looked at. -/
theorem guard_loops : fires jumpTy noTodo guardLoop = true ∧
    output 5 guardLoop [1, 1, 0] = [1, 1, 1] ∧ outcome 5 guardLoop [1, 1, 0] = .ok 0 := by
  decide +kernel

/-- `loop { say(1); if let 1.. = read() && let x = { continue } {} break; }` -/
def chainLoop : Expr := .lp none 1 (.semi (sayE 1) (.expr
  (.ifn (.and (.letP 1 [] readE) (.letP 0 [4] (.block none (.tail (.cont none 1))))) .unit)
  (.semi (.brk none 1 .nil) .done)))

/-- Of a chain of conditions only the first is looked at. -/
theorem chain_loops : fires jumpTy noTodo chainLoop = true ∧
    output 5 chainLoop [1, 1, 0] = [1, 1, 1] ∧ outcome 5 chainLoop [1, 1, 0] = .ok 0 := by
  decide +kernel

/-- `loop { say(1); *f({ break }) = if read() { continue } else { 1 }; }` -/
def assignLoop : Expr := .lp none 1 (.semi (sayE 1) (.semi
  (.assign 1 (.prim 1 [] (.cons (.block none (.tail (.brk none 1 .nil))) .nil))
    (.ite (.test readE) (.block none (.tail (.cont none 1))) (.block none (.tail (.var 0)))))
  .done))

/-- The right side of an assignment runs before the left one. -/
theorem assign_loops : fires jumpTy noTodo assignLoop = true ∧
    output 5 assignLoop [1, 1, 0] = [1, 1, 1] ∧ outcome 5 assignLoop [1, 1, 0] = .ok 0 := by
  decide +kernel

end Verif.Ctrl.Never
