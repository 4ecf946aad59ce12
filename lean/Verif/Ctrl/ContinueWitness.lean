import Verif.Ctrl.ContinueProps
import Verif.Ctrl.Demo
import Verif.Common.Text

/-!
# Needless `continue`: examples, and what the lint gets wrong
-/

namespace Verif.Ctrl.Continue
open Verif.Ctrl

/-- `'a: while read() { say(1); if read() { continue 'a; } else { match read() { 1.. => say(2),
_ => continue } } }` -/
def okDrop : Expr := .whl (some 9) 1 (.test readE) (.semi (sayE 1) (.tail (.ite
  (.and (.test readE) (.letP 1 [] readE))
  (.block none (.semi (.cont (some 9) 1) .done))
  (.block none (.tail (.mtch readE (.arm 1 [] (sayE 2) (.arm 0 [] (.cont none 1) .nil))))))))

/-- The same without the two `continue`s. -/
def okDropped : Expr := .whl (some 9) 1 (.test readE) (.semi (sayE 1) (.tail (.ite
  (.and (.test readE) (.letP 1 [] readE))
  (.block none (.semi .unit .done))
  (.block none (.tail (.mtch readE (.arm 1 [] (sayE 2) (.arm 0 [] .unit .nil))))))))

example : dropContinues (fun _ => true) (fun _ => true) okDrop = okDropped := rfl
example (k : Nat) (ρ : Env demo) : eval k okDropped ρ = eval k okDrop ρ :=
  drop_same (fun _ => true) (fun _ => true) (c := []) (e := okDrop)
    (by simp [okDrop, scopedE, scopedS, scopedC, scopedA, scopedL, readE, sayE, Fresh, resolveC]) k ρ
example : output 9 okDrop [1, 1, 1, 1, 0, 1, 1, 0, 0, 0] = [1, 1, 2, 1] ∧
    outcome 9 okDrop [1, 1, 1, 1, 0, 1, 1, 0, 0, 0] = .ok 0 := by decide +kernel

/-- A `continue` of an outer loop stays. -/
example : dropContinues (fun _ => true) (fun _ => true) (.lp none 2 (.semi (.cont (some 9) 1) .done)) =
    .lp none 2 (.semi (.cont (some 9) 1) .done) := rfl

/-- `loop { let y = read(); if y { let z = read(); show(z); } else { continue; } show(y); break; }` -/
def okMerge : Expr := .lp none 1 (.letS 0 [5] readE (.expr (.ite (.test (.var 5))
    (.block none (.letS 0 [6] readE (.semi (showE 6) .done)))
    (.block none (.semi (.cont none 1) .done)))
  (.semi (showE 5) (.semi (.brk none 1 .nil) .done))))

/-- `loop { let y = read(); if y { let z = read(); show(z); show(y); break; } }` -/
def okMerged : Expr := .lp none 1 (.letS 0 [5] readE (.tail (.ifn (.test (.var 5))
  (.block none (.letS 0 [6] readE (.semi (showE 6) (.semi (showE 5) (.semi (.brk none 1 .nil) .done))))))))

theorem okMerge_rearranged : rearranged okMerge 1 = some (some okMerged) := rfl
example (k : Nat) (ρ : Env demo) : eval k okMerged ρ = eval k okMerge ρ := by
  refine rearrange_same_partial (c := []) ?_ okMerge_rearranged ?_ k ρ
  · simp [okMerge, scopedE, scopedS, scopedC, scopedL, readE, showE, Fresh, resolveC, resolve]
  · intro q l B els h _
    simp only [okMerge, Expr.body, stmtAt, Option.some.injEq, Expr.ite.injEq, Expr.block.injEq] at h
    obtain ⟨-, ⟨-, rfl⟩, -⟩ := h
    decide +kernel
example : output 9 okMerge [0, 7, 8] = [8, 7] ∧ output 9 okMerged [0, 7, 8] = [8, 7] := by
  decide +kernel

/-- `loop { if read() { continue; } else { say(1); } break; }` -/
def okElse : Expr := .lp none 1 (.expr (.ite (.test readE)
    (.block none (.semi (.cont none 1) .done)) (.block none (.semi (sayE 1) .done)))
  (.semi (.brk none 1 .nil) .done))

/-- `loop { if read() { continue; } { say(1); } break; }` -/
def okNoElse : Expr := .lp none 1 (.expr (.ifn (.test readE)
    (.block none (.semi (.cont none 1) .done))) (.expr (.block none (.semi (sayE 1) .done))
  (.semi (.brk none 1 .nil) .done)))

theorem okElse_rearranged : rearranged okElse 0 = some (some okNoElse) := rfl
example (k : Nat) (ρ : Env demo) : eval k okNoElse ρ = eval k okElse ρ := by
  refine rearrange_same_partial (c := []) ?_ okElse_rearranged ?_ k ρ
  · simp [okElse, scopedE, scopedS, scopedC, scopedL, readE, sayE, Fresh, resolveC, resolve]
  · intro q l B els h h'
    simp only [okElse, Expr.body, stmtAt, Option.some.injEq, Expr.ite.injEq, Expr.block.injEq] at h
    obtain ⟨-, -, rfl⟩ := h
    simp [StartsContinue, sayE] at h'

example : erode Char.isWhitespace (str!"{\n    a();\n} ") = str!"{\n    a();" :=
  erode_block _ (str!"{\n    a()") (str!"\n") (str!" ") ';' (by decide +kernel) (by decide +kernel)
    (by decide +kernel)
example : erode Char.isWhitespace (str!"continue") = str!"continue" :=
  erode_no_brace _ _ (by decide +kernel)

/-! ## Code that does something else -/

/-- `let y = 3; for _ in it { if read() { let y = read(); } else { continue; } show(y); }` -/
def capture : Expr := .forE none 1 0 [] (.var 0) (.expr (.ite (.test readE)
    (.block none (.letS 0 [5] readE .done)) (.block none (.semi (.cont none 1) .done)))
  (.semi (showE 5) .done))

/-- The code shown for it. -/
def captured : Expr := .forE none 1 0 [] (.var 0) (.tail (.ifn (.test readE)
    (.block none (.letS 0 [5] readE (.semi (showE 5) .done)))))

/-- A variable declared in the branch is taken for the one outside. -/
theorem merge_captures : rearranged capture 0 = some (some captured) ∧
    output 5 capture [9, 1, 8, 0] = [0] ∧ output 5 captured [9, 1, 8, 0] = [8] := by
  refine ⟨rfl, ?_⟩
  decide +kernel

theorem merge_not_same : ¬ ∀ (S : Sem) (c : List Around) (e e' : Expr) (i : Nat), scopedE c e →
    rearranged e i = some (some e') → ∀ k (ρ : Env S), eval k e' ρ = eval k e ρ := by
  intro h
  have h1 := h demo [] capture captured 0
    (by simp [capture, scopedE, scopedS, scopedC, scopedL, readE, showE, Fresh, resolveC]) rfl 5 demoEnv
  have h2 := merge_captures.2
  unfold output at h2
  rw [h1] at h2
  exact absurd (h2.1.symm.trans h2.2) (by decide +kernel)

/-- `loop { if read() { say(1) } else { continue; } say(2); }` -/
def noSemi : Expr := .lp none 1 (.expr (.ite (.test readE)
    (.block none (.tail (sayE 1))) (.block none (.semi (.cont none 1) .done)))
  (.semi (sayE 2) .done))

/-- A branch that ends in an expression without semicolon: the code shown, `say(1) say(2);`, is no
program. -/
theorem merge_no_program : rearranged noSemi 0 = some none := rfl

end Verif.Ctrl.Continue
