import Verif.Ctrl.ElseProps
import Verif.Ctrl.Demo

/-!
# Redundant `else`: examples, and what the lint gets wrong
-/

namespace Verif.Ctrl.Else
open Verif.Ctrl

/-- Types as in the examples: nothing but what the form shows is of type `!`. -/
def noTy : Expr → Bool := fun _ => false

theorem noTy_sound (S : Sem) : NeverSound S noTy := fun _ h => by cases h

/-- No macros. -/
def allHere : Expr → Bool := fun _ => true

/-- `if read() { say(1); return } else if read() { match read() { 1.. => return, _ => break } }
else { let y = read(); show(y) }`, where the `break` leaves the loop number 1. -/
def okChain : Expr := .ite (.test readE) (.block none (.semi (sayE 1) (.tail (.ret .nil))))
  (.ite (.test readE) (.block none (.tail (.mtch readE (.arm 1 [] (.ret .nil) (.arm 0 [] (.brk none 1 .nil) .nil)))))
    (.block none (.letS 0 [5] readE (.tail (showE 5)))))

/-- `say(2); if … {} else if … {} else …` -/
def okBlock : Stmts := .semi (sayE 2) (.tail okChain)

/-- `say(2); if read() { say(1); return } else if read() { … } let y = read(); show(y)` -/
def okLifted : Stmts := .semi (sayE 2) (.expr
  (.ite (.test readE) (.block none (.semi (sayE 1) (.tail (.ret .nil))))
    (.ifn (.test readE) (.block none (.tail (.mtch readE (.arm 1 [] (.ret .nil) (.arm 0 [] (.brk none 1 .nil) .nil)))))))
  (.letS 0 [5] readE (.tail (showE 5))))

theorem okBlock_lifted : liftAt (isNever noTy allHere true) allHere okBlock 1 = some okLifted := rfl
example (k : Nat) (ρ : Env demo) : evalB k okLifted ρ = evalB k okBlock ρ :=
  last_same_partial (noTy_sound _) true okBlock_lifted rfl
    (by intro e B h h'; cases h; cases h'; rfl) k ρ
example : output 5 (.block none okBlock) [0, 0, 9] = [2, 9] ∧
    output 5 (.block none okLifted) [0, 0, 9] = [2, 9] := by decide +kernel
example : NoValue (eval (S := demo) 5 (.block none (.tail (.mtch readE (.arm 1 [] (.ret .nil) .nil)))) demoEnv) :=
  fun w v w' => isNever_sound (here := allHere) (noTy_sound demo) true _ rfl 5 demoEnv w v w'

/-- `if read() { return } else { say(3) }  say(4);` -/
def okStmt : Stmts := .expr (.ite (.test readE) (.block none (.tail (.ret .nil))) (.block none (.tail (sayE 3))))
  (.semi (sayE 4) .done)

/-- `if read() { return } say(3); say(4);` -/
def okStmtLifted : Stmts := .expr (.ifn (.test readE) (.block none (.tail (.ret .nil))))
  (.semi (sayE 3) (.semi (sayE 4) .done))

theorem okStmt_lifted : liftAt (isNever noTy allHere true) allHere okStmt 0 = some okStmtLifted := rfl
example (k : Nat) (ρ : Env demo) : evalB k okStmtLifted ρ = evalB k okStmt ρ :=
  machine_same_partial (noTy_sound _) true okStmt_lifted
    (by intro e B h h'; cases h; cases h'; exact ⟨rfl, rfl⟩) k ρ

/-- An item in the `else` that nothing else mentions. -/
def okItem : Stmts := .semi (showE 6) (.expr (.ite (.test readE) (.block none (.tail (.ret .nil)))
  (.block none (.item 7 8 (.semi (showE 7) .done)))) (.semi (sayE 4) .done))

/-- The same, moved out. -/
def okItemLifted : Stmts := .semi (showE 6) (.expr (.ifn (.test readE) (.block none (.tail (.ret .nil))))
  (.item 7 8 (.semi (showE 7) (.semi (sayE 4) .done))))

theorem okItem_lifted : liftAt (isNever noTy allHere true) allHere okItem 1 = some okItemLifted := rfl
example (k : Nat) (ρ : Env demo) : evalB k okItemLifted ρ = evalB k okItem ρ :=
  lift_same_partial (noTy_sound _) true okItem_lifted
    (by intro e B h h'; cases h; cases h'; decide +kernel) k ρ

/-- A block that ends in `'a: { …; return }` with a label is not looked into. -/
example : isNever noTy allHere true (.block (some (1, 2)) (.tail (.ret .nil))) = false := rfl
/-- In a macro a `return;` counts, without asking for types. -/
example : isNever noTy allHere false (.block none (.semi (.ret .nil) .done)) = true ∧
    isNever noTy allHere true (.block none (.semi (.ret .nil) .done)) = false := by decide +kernel

/-! ## Programs that change -/

/-- `show(f); if read() { return } else { fn f() … show(f); }` -/
def itemBlock : Stmts := .semi (showE 6) (.tail (.ite (.test readE) (.block none (.tail (.ret .nil)))
  (.block none (.item 6 8 (.semi (showE 6) .done)))))

/-- `show(f); if read() { return } fn f() … show(f);` -/
def itemLifted : Stmts := .semi (showE 6) (.expr (.ifn (.test readE) (.block none (.tail (.ret .nil))))
  (.item 6 8 (.semi (showE 6) .done)))

/-- A function declared in the `else` block is taken for the one outside by the statements
before, although the change is offered as applicable by machine. -/
theorem item_captured :
    liftAt (isNever noTy allHere true) allHere itemBlock 1 = some itemLifted ∧
    machine true (.item 6 8 (.semi (showE 6) .done)) = true ∧
    output 5 (.block none itemBlock) [0] = [0, 8] ∧ output 5 (.block none itemLifted) [0] = [8, 8] := by
  refine ⟨rfl, ?_⟩
  decide +kernel

/-- `let f = read(); if read() { return } else { fn f() … show(f); }` -/
def letBlock : Stmts := .letS 0 [6] readE (.tail (.ite (.test readE) (.block none (.tail (.ret .nil)))
  (.block none (.item 6 8 (.semi (showE 6) .done)))))

/-- `let f = read(); if read() { return } fn f() … show(f);` -/
def letLifted : Stmts := .letS 0 [6] readE (.expr (.ifn (.test readE) (.block none (.tail (.ret .nil))))
  (.item 6 8 (.semi (showE 6) .done)))

/-- The variable of the block around hides the function once it is moved out. -/
theorem item_hidden :
    liftAt (isNever noTy allHere true) allHere letBlock 1 = some letLifted ∧
    output 5 (.block none letBlock) [9, 0] = [8] ∧ output 5 (.block none letLifted) [9, 0] = [9] := by
  refine ⟨rfl, ?_⟩
  decide +kernel

/-- Without the condition on items the claim is false. -/
theorem machine_not_same : ¬ ∀ (S : Sem) (never here : Expr → Bool), NeverSound S never →
    ∀ (b b' : Stmts) (i : Nat), liftAt (isNever never here true) here b i = some b' →
    (∀ e B, stmtAt b i = some e → lastElse e = some B → machine true B = true) →
    ∀ k (ρ : Env S), evalB k b' ρ = evalB k b ρ := by
  intro h
  have h1 := h demo noTy allHere (noTy_sound _) itemBlock itemLifted 1 rfl
    (by intro e B h h'; cases h; cases h'; rfl) 5 demoEnv
  have h2 := item_captured.2.2
  simp only [output, eval] at h2
  have h3 : evalS (S := demo) 5 itemLifted (hoist itemLifted demoEnv) =
      evalS 5 itemBlock (hoist itemBlock demoEnv) := h1
  rw [h3] at h2
  exact absurd (h2.1.symm.trans h2.2) (by decide +kernel)

/-- `if read() { return } else { let y = read(); } show(y);` -/
def varBlock : Stmts := .expr (.ite (.test readE) (.block none (.tail (.ret .nil)))
  (.block none (.letS 0 [6] readE .done))) (.semi (showE 6) .done)

/-- `if read() { return } let y = read(); show(y);` -/
def varLifted : Stmts := .expr (.ifn (.test readE) (.block none (.tail (.ret .nil))))
  (.letS 0 [6] readE (.semi (showE 6) .done))

/-- A variable of the `else` block is taken for one outside; this is why a block with `let` is not
offered as applicable by machine. -/
theorem let_captured :
    liftAt (isNever noTy allHere true) allHere varBlock 0 = some varLifted ∧
    machine true (.letS 0 [6] readE .done) = false ∧
    output 5 (.block none varBlock) [0, 9] = [0] ∧ output 5 (.block none varLifted) [0, 9] = [9] := by
  refine ⟨rfl, ?_⟩
  decide +kernel

end Verif.Ctrl.Else
