import Verif.Guard.Props

/-!
# Guards: examples and counterexamples
-/

namespace Verif.Guard.Witness

/-- All variables have the same type. -/
def facts : Facts := ⟨fun _ _ => true, fun _ => .slice⟩

/-- Derived equality, the methods of slices; a condition is true if its first variable is `1`, and a body returns its
number, or one more if its first variable is `1`. -/
def prog : Prog where
  eq v u := same v u
  meth m v args :=
    match v, args with
    | .lit n, _ => n == emptyStr
    | .slice vs, [] => vs.len == 0
    | .slice vs, .slice us :: _ =>
      if m = startsWith then decide (us.len ≤ vs.len) && sameAll (vs.take us.len) us
      else if m = endsWith then decide (us.len ≤ vs.len) && sameAll (vs.drop (vs.len - us.len)) us
      else sameAll vs us
    | _, _ => false
  other _ _ := .lit 0
  cond _ vs := match vs with
    | some (.lit 1) :: _ => true
    | _ => false
  body k vs := match vs with
    | some (.lit 1) :: _ => k + 1
    | _ => k

/-- `Some(p)` -/
abbrev some_ (p : Pat) : Pat := .con 0 (.cons p .nil)

/-- `_ => 50` -/
def rest : Arm := ⟨.wild, none, ⟨[], 50⟩⟩

section Fine

/-- `(Some(x), y) if x == 1 => f(y)` -/
def eqArm : Arm := ⟨.con 9 (.cons (some_ (.bind false 0)) (.cons (.bind false 1) .nil)),
  some (.eq (.loc 0) (.lit 1)), ⟨[1], 10⟩⟩

example : check facts eqArm = .sugg (some
    ⟨.con 9 (.cons (some_ (.lit 1)) (.cons (.bind false 1) .nil)), none, ⟨[1], 10⟩⟩) := rfl

example (env : Env) (v : Val) : Fine prog facts.recvTy env v eqArm where
  wf := .con (.cons (.con (.cons .bind .nil)) (.cons .bind .nil))
  noAt := fun _ _ _ _ => .con (.cons (.con (.cons .bind .nil)) (.cons .bind .nil))
  guard := by
    intro g hg
    cases hg
    refine .eq (fun _ _ _ w => ⟨rfl, ?_⟩) (fun _ _ h => nomatch h)
    cases w <;> simp [prog, same, ev, Bool.beq_comm]

/-- `Some(x) if matches!(x, Some(y) if y) => 10` -/
def matchesArm : Arm := ⟨some_ (.bind false 0), some (.matches (.loc 0) (some_ (.bind false 1)) (some ⟨[1], 0⟩)), ⟨[], 10⟩⟩

example : check facts matchesArm = .sugg (some ⟨some_ (some_ (.bind false 1)), some (.other ⟨[1], 0⟩), ⟨[], 10⟩⟩) := rfl

example (env : Env) (v : Val) : Fine prog facts.recvTy env v matchesArm where
  wf := .con (.cons .bind .nil)
  noAt := fun _ _ _ _ => .con (.cons .bind .nil)
  guard := by
    intro g hg
    cases hg
    refine .matches (by simp [matchesArm]) (by simp [vars, varsAll, matchesArm, some_]) ?_
    intro x c hx hc
    cases hx
    cases hc
    simp

/-- `x if x.ends_with(&[1]) => 10` -/
def endsArm : Arm := ⟨.bind false 0, some (.method (.loc 0) endsWith [.addr (.arr (.cons (.lit 1) .nil))]), ⟨[], 10⟩⟩

example : check facts endsArm = .sugg (some ⟨.back (.cons (.lit 1) .nil), none, ⟨[], 10⟩⟩) := rfl

example (env : Env) (vs : Vals) : Fine prog facts.recvTy env (.slice vs) endsArm where
  wf := .bind
  noAt := fun _ _ _ _ => .bind
  guard := by
    intro g hg
    cases hg
    refine .method ⟨fun _ => rfl, fun _ => rfl, fun _ _ => rfl, fun _ _ => rfl⟩ ?_ (fun h => nomatch h) (Nat.le_refl _)
      (fun _ _ => .inr rfl)
    intro bs hb
    cases hb
    exact .slice

example : run prog [] (.slice (.cons (.lit 5) (.cons (.lit 1) .nil))) [endsArm, rest] = some 10 := by decide +kernel

end Fine

section Wrong

/-- `x @ (5 | 7) if x == 1`: the subpattern is dropped. -/
def atArm : Arm := ⟨.bindAt false 0 (.or (.cons (.lit 5) (.cons (.lit 7) .nil))), some (.eq (.loc 0) (.lit 1)), ⟨[], 10⟩⟩

theorem subpattern : ∃ a', check facts atArm = .sugg (some a') ∧
    run prog [] (.lit 1) [atArm, rest] = some 50 ∧ run prog [] (.lit 1) [a', rest] = some 10 :=
  ⟨_, rfl, by decide +kernel, by decide +kernel⟩

/-- A program in which everything is equal. -/
def loose : Prog := { prog with eq := fun _ _ => true }

/-- `x if x == A` with an equality written by hand. -/
def userArm : Arm := ⟨.bind false 0, some (.eq (.loc 0) (.con 1 .nil)), ⟨[], 10⟩⟩

theorem user_equality : ∃ a', check facts userArm = .sugg (some a') ∧
    run loose [] (.con 2 .nil) [userArm, rest] = some 10 ∧ run loose [] (.con 2 .nil) [a', rest] = some 50 :=
  ⟨_, rfl, by decide +kernel, by decide +kernel⟩

/-- `x if x.eq(&[])`: any method that is called with an empty array gives `[..]`. -/
def methodArm : Arm := ⟨.bind false 0, some (.method (.loc 0) 3 [.addr (.arr .nil)]), ⟨[], 10⟩⟩

theorem other_method : ∃ a', check facts methodArm = .sugg (some a') ∧
    run prog [] (.slice (.cons (.lit 1) .nil)) [methodArm, rest] = some 50 ∧
    run prog [] (.slice (.cons (.lit 1) .nil)) [a', rest] = some 10 :=
  ⟨_, rfl, by decide +kernel, by decide +kernel⟩

/-- `x if matches!(x, Some(y)) => f(y)` where the body means another `y`. -/
def captureArm : Arm := ⟨.bind false 0, some (.matches (.loc 0) (some_ (.bind false 1)) none), ⟨[1], 10⟩⟩

theorem captured : ∃ a', check facts captureArm = .sugg (some a') ∧
    run prog [(1, .lit 1)] (.con 0 (.cons (.lit 0) .nil)) [captureArm, rest] = some 11 ∧
    run prog [(1, .lit 1)] (.con 0 (.cons (.lit 0) .nil)) [a', rest] = some 10 :=
  ⟨_, rfl, by decide +kernel, by decide +kernel⟩

/-- `(x, _) if matches!(x, 0 | 1 if x == 1)`: the inner guard uses the variable that is removed; here it means another
one. -/
def innerArm : Arm := ⟨.con 9 (.cons (.bind false 0) .nil),
  some (.matches (.loc 0) (.or (.cons (.lit 0) (.cons (.lit 1) .nil))) (some ⟨[0], 0⟩)), ⟨[], 10⟩⟩

theorem inner_guard : ∃ a', check facts innerArm = .sugg (some a') ∧
    run prog [(0, .lit 7)] (.con 9 (.cons (.lit 1) .nil)) [innerArm, rest] = some 10 ∧
    run prog [(0, .lit 7)] (.con 9 (.cons (.lit 1) .nil)) [a', rest] = some 50 :=
  ⟨_, rfl, by decide +kernel, by decide +kernel⟩

/-- `Foo { f: x } if x == 1` becomes `Foo { f: x: 1 }`, which is no pattern. -/
def fieldArm : Arm := ⟨.strct 0 (.named 5 (.bind false 0) .nil), some (.eq (.loc 0) (.lit 1)), ⟨[], 10⟩⟩

theorem field : check facts fieldArm = .sugg none := rfl

/-- `(y, x) if let Some(y) = x => f(y)` becomes `(y, Some(y))`, which binds a variable twice; the body saw the inner
one. -/
def twiceArm : Arm := ⟨.con 9 (.cons (.bind false 1) (.cons (.bind false 0) .nil)),
  some (.let_ (some_ (.bind false 1)) (.loc 0)), ⟨[1], 10⟩⟩

theorem bound_twice : ∃ a', check facts twiceArm = .sugg (some a') ∧ ¬ (vars a'.pat).Nodup :=
  ⟨_, rfl, by decide +kernel⟩

/-- The property without its hypotheses is false. -/
theorem not_same : ¬ ∀ (fa : Facts) (S : Prog) (env : Env) (v : Val) (a a' : Arm), check fa a = .sugg (some a') →
    run S env v [a, rest] = run S env v [a', rest] := by
  intro h
  obtain ⟨a', h1, h2, h3⟩ := subpattern
  have := h facts prog [] (.lit 1) atArm a' h1
  rw [h2, h3] at this
  cases this

end Wrong

end Verif.Guard.Witness
