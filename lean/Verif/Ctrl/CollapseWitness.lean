import Verif.Ctrl.CollapseProps
import Verif.Ctrl.Demo
import Verif.Common.Text

/-!
# Collapsing nested `if`s: examples, and what the lint gets wrong
-/

namespace Verif.Ctrl.Collapse
open Verif.Ctrl

/-- Nothing but the `if` in the block. -/
def allClear : Stmts → Bool := fun _ => true

/-- `if let 1.. = read() { if read() { say(1) } }`, the variable being `y`. -/
def okIf : Expr := .ifn (.letP 1 [5] readE)
  (.block none (.tail (.ifn (.test readE) (.block none (.semi (showE 5) .done)))))

/-- `if let 1.. = read() && read() { say(1) }` -/
def okIfCollapsed : Expr := .ifn (.and (.letP 1 [5] readE) (.test readE))
  (.block none (.semi (showE 5) .done))

theorem okIf_collapses : collapse true allClear okIf = some okIfCollapsed := rfl
example (k : Nat) (ρ : Env demo) : eval k okIfCollapsed ρ = eval k okIf ρ := if_if_same okIf_collapses k ρ
example : output 5 okIf [7, 1] = [7] ∧ output 5 okIfCollapsed [7, 1] = [7] := by decide +kernel
/-- Without chains of `let` the lint is quiet. -/
example : collapse false allClear okIf = none := rfl

/-- `if read() { say(1) } else { if read() { say(2) } else { say(3) } }` -/
def okElse : Expr := .ite (.test readE) (.block none (.tail (sayE 1)))
  (.block none (.tail (.ite (.test readE) (.block none (.tail (sayE 2))) (.block none (.tail (sayE 3))))))

/-- `if read() { say(1) } else if read() { say(2) } else { say(3) }` -/
def okElseCollapsed : Expr := .ite (.test readE) (.block none (.tail (sayE 1)))
  (.ite (.test readE) (.block none (.tail (sayE 2))) (.block none (.tail (sayE 3))))

theorem okElse_collapses : collapse true allClear okElse = some okElseCollapsed := rfl
example (k : Nat) (ρ : Env demo) : eval k okElseCollapsed ρ = eval k okElse ρ :=
  else_if_same_partial okElse_collapses (.inl ⟨_, rfl⟩) k ρ
example : ∃ f, okElseCollapsed = .ite (.test readE) (.block none (.tail (sayE 1))) f ∧ IfExpr f :=
  else_if_shape okElse_collapses
example : output 5 okElse [0, 1] = [2] ∧ output 5 okElseCollapsed [0, 1] = [2] := by decide +kernel

/-- `a || b` and `c || (d && e)` joined: `(a || b) && (c || (d && e))`. -/
example : joined (.or (.atom 1) (.atom 2)) (.or (.atom 3) (.and (.atom 4) (.atom 5)))
    [.atom 1, .or, .atom 2] [.atom 3, .or, .lp, .atom 4, .and, .atom 5, .rp] =
    [.lp, .atom 1, .or, .atom 2, .rp, .and, .lp, .atom 3, .or, .lp, .atom 4, .and, .atom 5, .rp, .rp] := rfl
example : Disj [.atom 1, .or, .atom 2] (.or (.atom 1) (.atom 2)) :=
  .or (s := [.atom 1]) (.one (.one (.atom 1))) (.one (.atom 2))
example : ∃ t, Reads [.lp, .atom 1, .or, .atom 2, .rp, .and, .atom 3] t :=
  (joined_same (.or (s := [.atom 1]) (.one (.one (.atom 1))) (.one (.atom 2)))
    (.one (.one (.atom 3)))).imp fun _ h => h.1
/-- Without parentheses the text is read as `a || (b && c)`. -/
example : readDisj 9 [.atom 1, .or, .atom 2, .and, .atom 3] =
    some (.or (.atom 1) (.and (.atom 2) (.atom 3)), []) := by decide +kernel

example : withAnd Char.isWhitespace (str!"((if b { x(); }))") = str!"&& b { x(); }" :=
  with_and_partial Char.isWhitespace (by decide +kernel) (by decide +kernel) (by decide +kernel) 2
    (str!" b { x(); }")
example : peel Char.isWhitespace 9 (str!" ( (if b {}) )") = some (4, str!"if b {}", 3) := by decide +kernel

/-! ## What goes wrong -/

/-- `if read() { return } else { if read() { 5 } else { 6 }; }` -/
def semiElse : Expr := .ite (.test readE) (.block none (.tail (.ret .nil)))
  (.block none (.semi (.ite (.test readE) (.block none (.tail (.prim 8 [] .nil)))
    (.block none (.tail (.prim 9 [] .nil)))) .done))

/-- `if read() { return } else if read() { 5 } else { 6 }` -/
def semiElseCollapsed : Expr := .ite (.test readE) (.block none (.tail (.ret .nil)))
  (.ite (.test readE) (.block none (.tail (.prim 8 [] .nil))) (.block none (.tail (.prim 9 [] .nil))))

/-- The semicolon after the inner `if` is lost, and with it the value `()`. -/
theorem semi_value : collapse true allClear semiElse = some semiElseCollapsed ∧
    outcome 5 semiElse [0, 1] = .ok 0 ∧ outcome 5 semiElseCollapsed [0, 1] = .ok 5 := by
  refine ⟨rfl, ?_⟩
  decide +kernel

theorem else_if_not_same : ¬ ∀ (S : Sem) (chains : Bool) (clear : Stmts → Bool) (c : Cond) (t e e' : Expr),
    collapse chains clear (.ite c t e) = some e' → ∀ k (ρ : Env S), eval k e' ρ = eval k (.ite c t e) ρ := by
  intro h
  have h1 := h demo true allClear _ _ _ semiElseCollapsed (semi_value.1 : collapse true allClear semiElse = _)
    5 demoEnv
  have h2 := semi_value.2
  have h3 : outcome 5 semiElse [0, 1] = outcome 5 semiElseCollapsed [0, 1] := by
    unfold outcome; rw [h1]; rfl
  rw [h2.1, h2.2] at h3
  exact absurd h3 (by decide +kernel)

/-- `( if b { x(); } )`: the first two characters of what is left are a space and an `i`; the text
becomes `&&f b { x(); } `. -/
theorem space_breaks : withAnd Char.isWhitespace (str!"( if b { x(); } )") = str!"&&f b { x(); } " := by
  decide +kernel

end Verif.Ctrl.Collapse
