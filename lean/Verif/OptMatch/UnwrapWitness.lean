import Verif.OptMatch.UnwrapProps
import Verif.OptMatch.Witness

/-!
# Examples for `manual_unwrap_or` and `manual_ok_err`
-/

namespace Verif.OptMatch.Witness
open Ctrl (Name Expr Exprs Cond Stmts)

/-- Operation 4 is the constant 0. -/
def zero : Body := .other (.prim 4 [] .nil)

def isZero : Body → Bool
  | .other (.prim 4 [] .nil) => true
  | .block false b => isZero b
  | _ => false

def ufacts (dflt : Bool) : UFacts := ⟨true, true, dflt, isZero, isZero, true, true⟩

def resOn (addrs : List Bool) (n : Name) : Scrut := ⟨addrs, v n, true, .res .atom .atom⟩

/-- The world where variable 0 is `Ok(4)` and variable 1 is `Err(6)`. -/
def demoRes : Sem := { demo with mem := fun _ n => if n = 0 then some (.ok (.atom 4)) else some (.err (.atom 6)) }

def codeV (r : Except (Ctrl.Exit Val) Val × Nat) : Nat :=
  match r with
  | (.ok (.atom n), _) => n
  | _ => 1000

/-- `match opt { Some(x) => x, None => 0 }` becomes `opt.unwrap_or(0)`. -/
def orZero : Form := .mtch [⟨.some x, none, .other (v 20)⟩, ⟨.none, none, .block false zero⟩]

theorem always_zero (k : Nat) (b : Body) (h : isZero b = true) : Always demo k b (.atom 0) := by
  intro ρ w
  induction b with
  | other e =>
    unfold isZero at h
    split at h
    · next he => cases he; rfl
    · next he => cases he
    · cases h
  | block u b ih =>
    cases u with
    | false => exact ih h
    | true => simp [isZero] at h
  | _ => simp [isZero] at h

/-- The hypotheses of `unwrap_same_partial` can be met. -/
example (k : Nat) (d : Bool) : ∃ c, checkUnwrap (ufacts d) (on [] 0) orZero = some c ∧
    evalCall (S := demo) k ρ (.atom 0) (on [] 0) c = evalForm k ρ (on [] 0) orZero := by
  have hcov : Exhaustive demo k ρ (on [] 0) orZero := by
    intro w p w' h
    have h0 := place_var (k := k) (n := 0) (by decide) w
    rw [show evalPlace (S := demo) k ρ (on [] 0).base (on [] 0).isPlace w = _ from h0] at h
    cases h
    rfl
  have hsub : ∀ a ∈ orZero.arms, subPat a.pat = false := by
    intro a ha
    simp only [orZero, Form.arms, List.mem_cons, List.not_mem_nil, or_false] at ha
    rcases ha with rfl | rfl <;> rfl
  cases d with
  | true => exact ⟨_, rfl, unwrap_same_partial k ρ _ (ufacts true) _ orZero _ rfl hcov hsub
      (fun b h => always_zero k b h) (fun b h => ⟨_, always_zero k b h⟩)⟩
  | false => exact ⟨_, rfl, unwrap_same_partial k ρ _ (ufacts false) _ orZero _ rfl hcov hsub
      (fun b h => always_zero k b h) (fun b h => ⟨_, always_zero k b h⟩)⟩

example : (checkUnwrap (ufacts false) (on [] 0) orZero).map
    (fun c => codeV (evalCall (S := demo) 9 ρ .unit (on [] 0) c (0 : Nat))) = some 4 ∧
    (checkUnwrap (ufacts true) (on [] 1) orZero).map
    (fun c => codeV (evalCall (S := demo) 9 ρ (.atom 0) (on [] 1) c (0 : Nat))) = some 0 := by
  decide +kernel

/-- `match opt { Some(x @ 3) => x, _ => 0 }` becomes `opt.unwrap_or(0)`. -/
theorem sub_pattern_changes : ∃ f c, checkUnwrap (ufacts false) (on [] 0) f = some c ∧
    Exhaustive demo 9 ρ (on [] 0) f ∧
    evalCall (S := demo) 9 ρ .unit (on [] 0) c ≠ evalForm 9 ρ (on [] 0) f := by
  refine ⟨.ifLet (.some (.bindAt .plain 20 (.lit 3))) (.block false (.other (v 20))) (.block false zero), _, rfl, ?_, ?_⟩
  · intro w p w' h
    have h0 := place_var (k := 9) (n := 0) (by decide) w
    rw [show evalPlace (S := demo) 9 ρ (on [] 0).base (on [] 0).isPlace w = _ from h0] at h
    cases h
    rfl
  · intro h
    have := congrArg (fun m => codeV (m (0 : Nat))) h
    revert this
    decide +kernel

/-! ## `ok` and `err` -/

/-- `match r { Ok(x) => Some(x), Err(_) => None }` -/
def okForm : Form := .mtch [⟨.ok x, none, someX⟩, ⟨.err .wild, none, noneB⟩]

/-- `match r { Ok(_) => None, Err(x) => Some(x) }` -/
def errForm : Form := .mtch [⟨.ok .wild, none, noneB⟩, ⟨.err x, none, someX⟩]

example : (checkOkErr (ufacts false) (resOn [] 0) okForm).map
    (fun c => code (evalCall (S := demoRes) 9 ρ .unit (resOn [] 0) c (0 : Nat))) = some (5, 0) ∧
    (checkOkErr (ufacts false) (resOn [] 1) okForm).map
    (fun c => code (evalCall (S := demoRes) 9 ρ .unit (resOn [] 1) c (0 : Nat))) = some (0, 0) ∧
    (checkOkErr (ufacts false) (resOn [] 1) errForm).map
    (fun c => code (evalCall (S := demoRes) 9 ρ .unit (resOn [] 1) c (0 : Nat))) = some (7, 0) ∧
    (checkOkErr (ufacts false) (resOn [false] 1) errForm).map
    (fun c => code (evalCall (S := demoRes) 9 ρ .unit (resOn [false] 1) c (0 : Nat))) = some (900, 0) := by
  decide +kernel

/-- The hypotheses of `okErr_same` can be met. -/
example (k : Nat) : ∃ c, checkOkErr (ufacts false) (resOn [false] 1) errForm = some c ∧
    evalCall (S := demoRes) k ρ .unit (resOn [false] 1) c = evalForm k ρ (resOn [false] 1) errForm := by
  refine ⟨_, rfl, okErr_same k ρ _ (ufacts false) _ errForm _ rfl ?_⟩
  intro w p w' h
  have h0 : evalPlace (S := demoRes) k ρ (v 1) true w = (.ok (.mem 1 []), w) := by
    simp [evalPlace, Ctrl.eval, Ctrl.M.bind, Ctrl.M.pure, v, ρ]
    rfl
  rw [show evalPlace (S := demoRes) k ρ (resOn [false] 1).base (resOn [false] 1).isPlace w = _ from h0] at h
  cases h
  rfl

/-- `match r { _ => None, Ok(x) => Some(x) }` is left alone. -/
example : (checkOkErr (ufacts false) (resOn [] 0) (.mtch [⟨.wild, none, noneB⟩, ⟨.ok x, none, someX⟩])).isNone =
    true := rfl

end Verif.OptMatch.Witness
