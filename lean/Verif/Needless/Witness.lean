import Verif.Needless.Props

/-!
# Matches that are reported, and code that changes
-/

namespace Verif.Needless.Witness

/-- `scrut 0`: a variable with this value; `scrut 1`: an iterator's `next()`, which is first `None` and
then `Some(7)`; constant 0: `None`; 1: `0.0`.  Type 0: `Option<i32>`; 1: `Option<&i32>`. -/
def demo (v : Val) : Sem where
  W := Nat
  scrut n w := if n = 0 then (v, w) else (if w = 0 then .ctor 0 [] else .ctor 1 [.int 7], w + 1)
  const k := if k = 0 then .ctor 0 [] else .float false 0
  other _ _ := true
  item _ _ := .int 5
  block _ w := (.unit, w)
  guard _ _ w := (false, w)
  fields n c := if c = 0 then some [] else some [if n = 0 then .int else .ref .int]

instance (v : Val) (k : Nat) : OfNat (demo v).W k := inferInstanceAs (OfNat Nat k)

def facts (t : Ty) : Facts where
  parents := [.letStmt t]
  scrutTy _ := t
  effects n := n != 0
  guardEffects _ := false
  isOption _ := t == .adt 0

def ρ : Env := fun _ => .unit

/-- `Some(x)` -/
def someP (p : Pat) : Pat := .ctor 1 (.cons p .nil)
def someE (e : Ex) : Ex := .call 1 (.cons e .nil)

theorem pure_demo (v : Val) (t : Ty) (n : Nat) (h : (facts t).effects n = false) :
    Stable (demo v) n := by
  simp [facts] at h
  subst h
  intro w
  simp [demo]

theorem some_ty (v : Val) (n : Int) : HasTy (demo v).fields (.ctor 1 [.int n]) (.adt 0) :=
  .ctor (ts := [.int]) (by simp [demo]) (.cons (.int n) .nil)

theorem none_ty (v : Val) : HasTy (demo v).fields (.ctor 0 []) (.adt 0) :=
  .ctor (ts := []) (by simp [demo]) .nil

/-- `match x { Some(a) if … => Some(a), Some(a) => Some(a), None => None }` -/
def arms : List Arm :=
  [⟨someP (.bind false 0), some 0, someE (.var 0)⟩, ⟨someP (.bind false 0), none, .blk (someE (.var 0))⟩,
   ⟨.path 0, none, .path 0⟩]

/-- The hypotheses of `match_same_partial` are met. -/
example : runMatch (demo (.ctor 1 [.int 3])) 0 ρ arms 4 = some (.ctor 1 [.int 3], 4) ∧
    (demo (.ctor 1 [.int 3])).scrut 0 4 = (.ctor 1 [.int 3], 4) := by
  have hrun : runMatch (demo (.ctor 1 [.int 3])) 0 ρ arms 4 = some (.ctor 1 [.int 3], 4) := by
    simp [runMatch, runArms, arms, demo, matchPat, matchPats, someP, someE, strip, eval, evals, upd, bound]
  refine ⟨hrun, ?_⟩
  refine (match_same_partial (fa := facts (.adt 0)) (T := .adt 0) (by decide +kernel)
    (fun n h => pure_demo _ _ n h) (fun _ _ _ _ => rfl) (some_ty _ 3) rfl (some_ty _ 3) ?_ hrun).symm
  intro a ha
  simp only [arms, List.mem_cons, List.not_mem_nil, or_false] at ha
  rcases ha with rfl | rfl | rfl <;>
    simp [someP, someE, Pat.noZeros, Pats.noZeros, Ex.plain, Exs.plain, vars, varsL, noZero, noZeroL, demo]

/-- `if let Some(a) = x { Some(a) } else { None }` -/
def simple : IfLet := .elseBlock (someP (.bind false 0)) 0 (.blk (someE (.var 0))) (.blk (.path 0))

/-- The hypotheses of `if_let_same_partial` are met. -/
example : runIf (demo (.ctor 1 [.int 3])) ρ simple 4 = (.ctor 1 [.int 3], 4) := by
  have hrun : runIf (demo (.ctor 1 [.int 3])) ρ simple 4 = (.ctor 1 [.int 3], 4) := by
    simp [runIf, simple, demo, matchPat, matchPats, someP, someE, strip, eval, evals, upd, bound]
  refine (if_let_same_partial (fa := facts (.adt 0)) (els := false) (T := .adt 0) (by decide +kernel)
    (fun n h => pure_demo _ _ n h) rfl (some_ty _ 3) rfl (by rw [hrun]; exact some_ty _ 3)
    (fun _ => .inr ⟨_, rfl⟩) ?_ ?_ ?_ ?_).trans rfl
  · simp [simple, IfLet.pats, someP, Pat.noZeros, Pats.noZeros, vars, varsL]
  · simp [simple, IfLet.bodies, someE, Ex.plain, Exs.plain]
  · simp [simple, IfLet.pats]
  · intro _ _
    exact ⟨_, by simp [simple, IfLet.pats]; rfl, .mk false 0⟩

/-- `if let Some(1) = x { Some(1) } else { None }` is reported, but is `None` for `Some(2)`. -/
theorem else_none_changes :
    checkIfLet (facts (.adt 0)) false
      (.elseBlock (someP (.lit (.int 1))) 0 (.blk (someE (.lit (.int 1)))) (.blk (.path 0))) = true ∧
    (runIf (demo (.ctor 1 [.int 2])) ρ
      (.elseBlock (someP (.lit (.int 1))) 0 (.blk (someE (.lit (.int 1)))) (.blk (.path 0))) 0) =
        (.ctor 0 [], 0) ∧
    (demo (.ctor 1 [.int 2])).scrut 0 0 = (.ctor 1 [.int 2], 0) := by
  refine ⟨by decide +kernel, ?_, rfl⟩
  simp [runIf, demo, matchPat, matchPats, someP, strip, eval, eqv, Lit.val]

/-- `if let Some(a) = it.next() { Some(a) } else if let Some(b) = it.next() { Some(b) } else { None }`
takes two elements; `it.next()` takes one. -/
theorem chain_changes :
    checkIfLet (facts (.adt 0)) false
      (.elseIf (someP (.bind false 0)) 1 (.blk (someE (.var 0)))
        (.elseBlock (someP (.bind false 1)) 1 (.blk (someE (.var 1))) (.blk (.path 0)))) = true ∧
    (runIf (demo .unit) ρ
      (.elseIf (someP (.bind false 0)) 1 (.blk (someE (.var 0)))
        (.elseBlock (someP (.bind false 1)) 1 (.blk (someE (.var 1))) (.blk (.path 0)))) 0) =
        (.ctor 1 [.int 7], 2) ∧
    (demo .unit).scrut 1 0 = (.ctor 0 [], 1) := by
  exact ⟨by decide +kernel, rfl, rfl⟩

/-- `match x { 0.0 => 0.0, y => y }` makes `0.0` of `-0.0`. -/
theorem zero_changes :
    checkMatch (facts .float) 0 [⟨.lit (.float 0), none, .lit (.float 0)⟩, ⟨.bind false 0, none, .var 0⟩]
      = true ∧
    runMatch (demo (.float true 0)) 0 ρ
      [⟨.lit (.float 0), none, .lit (.float 0)⟩, ⟨.bind false 0, none, .var 0⟩] 0 =
        some (.float false 0, 0) ∧
    (demo (.float true 0)).scrut 0 0 = (.float true 0, 0) := by
  refine ⟨by decide +kernel, ?_, rfl⟩
  simp [runMatch, runArms, demo, matchPat, strip, eval, eqv, Lit.val]

/-- `match x { 1 => 1, m => m::K }`: only the first name of the path is compared. -/
theorem path_changes :
    checkMatch (facts .int) 0 [⟨.lit (.int 1), none, .lit (.int 1)⟩, ⟨.bind false 0, none, .varPath 0 0⟩]
      = true ∧
    runMatch (demo (.int 3)) 0 ρ
      [⟨.lit (.int 1), none, .lit (.int 1)⟩, ⟨.bind false 0, none, .varPath 0 0⟩] 0 =
        some (.int 5, 0) ∧
    (demo (.int 3)).scrut 0 0 = (.int 3, 0) := by
  refine ⟨by decide +kernel, ?_, rfl⟩
  simp [runMatch, runArms, demo, matchPat, strip, eval, eqv, Lit.val]

/-- `let y: &Option<i32> = f(match x { Some(a) => Some(a), None => None })` with `x: &Option<i32>`: the
value is an `Option<&i32>`, that of `x` is not. -/
theorem operand_changes :
    checkMatch { facts (.ref (.adt 0)) with parents := [.expr true, .letStmt (.ref (.adt 0))] } 0
      [⟨someP (.bind false 0), none, someE (.var 0)⟩, ⟨.path 0, none, .path 0⟩] = true ∧
    runMatch (demo (.ref (.ctor 1 [.int 3]))) 0 ρ
      [⟨someP (.bind false 0), none, someE (.var 0)⟩, ⟨.path 0, none, .path 0⟩] 0 =
        some (.ctor 1 [.ref (.int 3)], 0) ∧
    (demo (.ref (.ctor 1 [.int 3]))).scrut 0 0 = (.ref (.ctor 1 [.int 3]), 0) := by
  refine ⟨by decide +kernel, ?_, rfl⟩
  simp [runMatch, runArms, demo, matchPat, matchPats, someP, someE, strip, eval, evals, upd, bound]

end Verif.Needless.Witness
