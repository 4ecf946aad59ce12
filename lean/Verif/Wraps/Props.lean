import Verif.Wraps.Lemmas

/-!
# C105: values that are wrapped without need
-/

namespace Verif.Wraps

theorem allReturns_cases {t : Tag} {unit : Bool} {body body' : Expr} (h : allReturns t unit body = some body') :
    containsTry body = false ∧ find t unit false body = some body' := by
  unfold allReturns at h
  split at h
  · cases h
  · next c =>
    split at h
    · cases h
    · exact ⟨by simpa using c, h⟩

/-- What is returned, from related outcomes. -/
theorem result_of_sim {w : World} {n : Nat} {t : Tag} {body body' : Expr} {σ τ : St} {v : Val}
    (h : Sim t false (eval w n body σ) (eval w n body' σ)) (r : result w n body σ = some (v, τ)) :
    ∃ u, v = .wrap t u ∧ result w n body' σ = some (u, τ) := by
  unfold result at r
  split at r
  · next e =>
    cases r
    obtain ⟨o, h1, u, h2, rfl⟩ := h e
    exact ⟨u, h2, by unfold result; rw [h1]⟩
  · next e =>
    cases r
    obtain ⟨o, h1, u, h2, rfl⟩ := h e
    exact ⟨u, h2, by unfold result; rw [h1]⟩
  · cases r

/-- If `unnecessary_wraps` reports a function, then whatever it returns is wrapped in the variant, and the
function with the suggested edits makes the same calls, leaves the same state and returns what was wrapped.

Missing: bodies where what is returned comes from a labelled block or where a guard of a match at the end
returns (see `label_none` and `guard_none`), and functions that wrap `()` but not always as a literal (see
`unit_effect`). -/
theorem wraps_same_partial {w : World} {n : Nat} {t : Tag} {unit : Bool} {body body' : Expr} {σ τ : St} {v : Val}
    (h : wraps t unit body = some body') (hs : simple true body = true)
    (hu : unit = true → unitsOnly t body = true) (r : result w n body σ = some (v, τ)) :
    ∃ u, v = .wrap t u ∧ result w n body' σ = some (u, τ) := by
  unfold wraps at h
  split at h
  · cases h
  · obtain ⟨c, f⟩ := allReturns_cases h
    exact result_of_sim (sim body f hs hu c σ) r

theorem peel_eval {w : World} {n : Nat} : (e : Expr) → simple true e = true → (σ : St) →
    eval w n (peelBlocks e) σ = eval w n e σ ∧ simple true (peelBlocks e) = true
  | .block e, h, σ => peel_eval e h σ
  | .labelled _, h, _ => by simp [simple] at h
  | .unit, h, _ | .num _, h, _ | .var _, h, _ | .none, h, _ | .ctor _ _, h, _ | .call _, h, _ | .ite _ _ _, h, _
  | .mtch _ _ _ _, h, _ | .seq _ _, h, _ | .stop _, h, _ | .letIn _ _ _, h, _ | .brk _ _, h, _ | .loop _, h, _
  | .ret _, h, _ | .tri _, h, _ | .mac _, h, _ => ⟨rfl, h⟩

/-- If `bind_instead_of_map` reports a closure, `map` (`map_err`) with the suggested closure does what `and_then`
(`or_else`) did.

Missing: as above. -/
theorem binds_same_partial {w : World} {n : Nat} {t : Tag} {body body' : Expr} {x : Name} {v : Val} {σ : St}
    {r : Val × St} (h : binds t body = some body') (hs : simple true body = true)
    (e : bind w n t v x body σ = some r) : mapped w n t v x body' σ = some r := by
  have s : ∀ σ, Sim t false (eval w n body σ) (eval w n body' σ) := by
    intro σ
    unfold binds at h
    split at h
    · next f =>
      cases h
      rw [← (peel_eval (w := w) (n := n) body hs σ).1]
      exact Sim.replace f (fun i => nomatch i) σ
    · obtain ⟨c, f⟩ := allReturns_cases h
      exact sim body f hs (fun i => nomatch i) c σ
  unfold bind at e
  unfold mapped
  split at e
  · next t' u =>
    split at e
    · next g =>
      subst g
      obtain ⟨⟨q, τ⟩, h1, h2⟩ := opt_map e
      obtain ⟨q', rfl, h3⟩ := result_of_sim (s _) h1
      simp only [if_true]
      rw [h3]
      simp only [Option.map_some, Option.some.injEq]
      exact h2
    · next g => simp only [if_neg g]; exact e
  · exact e

theorem fewer {t : Tag} {unit : Bool} : (s : Bool) → (e : Expr) → {e' : Expr} → find t unit s e = some e' →
    ctors e' + edits t s e ≤ ctors e
  | true, .unit, _, h | true, .num _, _, h | true, .var _, _, h | true, .none, _, h => by
    simp only [find, if_true, Option.some.injEq] at h
    subst h
    simp [ctors, edits]
  | false, .unit, _, h | false, .num _, _, h | false, .var _, _, h | false, .none, _, h
  | false, .call _, _, h | false, .brk _ _, _, h | false, .loop _, _, h | false, .tri _, _, h
  | false, .mac _, _, h => by simp [find] at h
  | false, .ctor t' e, _, h => by
    simp only [find, Bool.false_eq_true, if_false, replace] at h
    split at h
    · next c =>
      cases h
      simp only [edits, Bool.false_eq_true, if_false, if_pos c]
      split <;> simp [ctors]
    · cases h
  | true, .ctor _ e, _, h | true, .call e, _, h | true, .brk _ e, _, h | true, .loop e, _, h
  | true, .tri e, _, h | true, .mac e, _, h => by
    simp only [find, if_true] at h
    obtain ⟨a, h1, rfl⟩ := opt_map h
    have := fewer true e h1
    simp only [ctors, edits, if_true]
    omega
  | s, .ret e, _, h => by
    simp only [find] at h
    obtain ⟨a, h1, rfl⟩ := opt_map h
    have := fewer false e h1
    exact this
  | s, .block e, _, h | s, .labelled e, _, h => by
    simp only [find] at h
    obtain ⟨a, h1, rfl⟩ := opt_map h
    have := fewer s e h1
    exact this
  | s, .stop e, _, h => by
    simp only [find] at h
    obtain ⟨a, h1, rfl⟩ := opt_map h
    have := fewer true e h1
    exact this
  | s, .seq a b, _, h | s, .letIn _ a b, _, h => by
    simp only [find] at h
    obtain ⟨a', h1, h⟩ := Option.bind_eq_some_iff.mp h
    obtain ⟨b', h2, rfl⟩ := opt_map h
    have := fewer true a h1
    have := fewer s b h2
    simp only [ctors, edits]
    omega
  | s, .ite c a b, _, h => by
    simp only [find] at h
    obtain ⟨c', h0, h⟩ := Option.bind_eq_some_iff.mp h
    obtain ⟨a', h1, h⟩ := Option.bind_eq_some_iff.mp h
    obtain ⟨b', h2, rfl⟩ := opt_map h
    have := fewer true c h0
    have := fewer s a h1
    have := fewer s b h2
    simp only [ctors, edits]
    omega
  | s, .mtch e g a b, _, h => by
    simp only [find] at h
    obtain ⟨e', h0, h⟩ := Option.bind_eq_some_iff.mp h
    obtain ⟨g', h3, h⟩ := Option.bind_eq_some_iff.mp h
    obtain ⟨a', h1, h⟩ := Option.bind_eq_some_iff.mp h
    obtain ⟨b', h2, rfl⟩ := opt_map h
    have := fewer true e h0
    have := fewer s a h1
    have := fewer s b h2
    have : ctors g' + (if s then edits t true g else 0) ≤ ctors g := by
      cases s
      · simp only [Bool.false_eq_true, if_false, Option.some.injEq] at h3 ⊢
        subst h3
        exact Nat.le_refl _
      · exact fewer true g h3
    simp only [ctors, edits]
    omega

/-- A reported function has fewer constructors after the edits. -/
theorem wraps_fewer {t : Tag} {unit : Bool} {body body' : Expr} (h : wraps t unit body = some body') :
    ctors body' < ctors body := by
  unfold wraps at h
  split at h
  · cases h
  · unfold allReturns at h
    split at h
    · cases h
    · split at h
      · cases h
      · next c =>
        have := fewer false body h
        simp only [beq_iff_eq] at c
        omega

/-- `and_then(Some)`, `and_then(Ok)` and `or_else(Err)` do nothing
(clippy_lints/src/methods/bind_instead_of_map.rs:177-190). -/
theorem noop {w : World} {n : Nat} {t : Tag} {v : Val} {x : Name} {σ : St} :
    ∃ τ, bind w n t v x (.ctor t (.var x)) σ = some (v, τ) ∧ τ.log = σ.log ∧ ∀ y, τ.env y = σ.env y := by
  unfold bind
  split
  · next t' u =>
    split
    · next g =>
      subst g
      refine ⟨(σ.set x u).set x (σ.env x), by simp [result, eval, andThen, St.set], rfl, fun y => ?_⟩
      simp only [St.set]
      split
      · next e => rw [e]
      · rfl
    · exact ⟨σ, rfl, rfl, fun _ => rfl⟩
  · exact ⟨σ, rfl, rfl, fun _ => rfl⟩

/-! ### Examples -/

/-- Calls return 1. -/
def one : World := fun _ _ => .num 1

/-- All variables are 1. -/
def start : St := { env := fun _ => .num 1, log := [] }

/-- The value and the calls. -/
def outcome (r : Option (Val × St)) : Option (Val × List Val) := r.map fun (v, τ) => (v, τ.log)

/-- `{ if a { return Some(f(b)); } else {} match c { _ if d => Some(2), _ => { Some(3) } } }` -/
def sample : Expr :=
  .seq (.ite (.var 0) (.stop (.ret (.ctor .some (.call (.var 1))))) .unit)
    (.mtch (.var 2) (.var 3) (.ctor .some (.num 2)) (.block (.ctor .some (.num 3))))

/-- With the edits. -/
def sampleNew : Expr :=
  .seq (.ite (.var 0) (.stop (.ret (.call (.var 1)))) .unit) (.mtch (.var 2) (.var 3) (.num 2) (.block (.num 3)))

example : wraps .some false sample = some sampleNew ∧ simple true sample = true ∧
    outcome (result one 1 sample start) = some (.wrap .some (.num 1), [.num 1]) ∧
    outcome (result one 1 sampleNew start) = some (.num 1, [.num 1]) := by
  decide +kernel

/-- The hypotheses hold. -/
example {v : Val} {τ : St} (r : result one 1 sample start = some (v, τ)) :
    ∃ u, v = .wrap .some u ∧ result one 1 sampleNew start = some (u, τ) :=
  wraps_same_partial (unit := false) (by decide +kernel) (by decide +kernel) (fun h => nomatch h) r

example {r : Val × St} (h : bind one 1 .some (.wrap .some (.num 4)) 0 sample start = some r) :
    mapped one 1 .some (.wrap .some (.num 4)) 0 sampleNew start = some r :=
  binds_same_partial (by decide +kernel) (by decide +kernel) h

/-- `{ if a { return Ok(()); } else {} Ok(()) }` -/
def sampleUnit : Expr := .seq (.ite (.var 0) (.stop (.ret (.ctor .ok .unit))) .unit) (.ctor .ok .unit)

example : wraps .ok true sampleUnit = some (.seq (.ite (.var 0) (.stop (.ret .unit)) .unit) .unit) ∧
    simple true sampleUnit = true ∧ unitsOnly .ok sampleUnit = true := by
  decide +kernel

/-- Silent: `{ if a { return None; } else {} Some(1) }`, `Some(f()?)`, and `loop { }`. -/
example : wraps .some false (.seq (.ite (.var 0) (.stop (.ret .none)) .unit) (.ctor .some (.num 1))) = none ∧
    wraps .some false (.ctor .some (.tri (.call .unit))) = none ∧
    wraps .some false (.stop (.loop (.call .unit))) = none ∧
    binds .err (.ctor .ok (.num 1)) = none := by
  decide +kernel

/-! ### Code that changes -/

/-- `'a: { if x { break 'a None; } else {} Some(1) }` -/
def sampleLabel : Expr := .labelled (.seq (.ite (.var 0) (.brk 0 .none) .unit) (.ctor .some (.num 1)))

/-- The function is reported for always returning `Some`, but it returns `None`. -/
theorem label_none : (wraps .some false sampleLabel).isSome ∧ (binds .some sampleLabel).isSome ∧
    outcome (result one 1 sampleLabel start) = some (.none, []) := by
  decide +kernel

/-- `match x { _ if { if y { return None } else { 1 } } => Some(1), _ => Some(2) }` -/
def sampleGuard : Expr :=
  .mtch (.var 0) (.block (.ite (.var 1) (.ret .none) (.num 1))) (.ctor .some (.num 1)) (.ctor .some (.num 2))

/-- The guard is not visited. -/
theorem guard_none : (wraps .some false sampleGuard).isSome ∧ (binds .some sampleGuard).isSome ∧
    outcome (result one 1 sampleGuard start) = some (.none, []) := by
  decide +kernel

/-- `fn f() -> Result<(), E> { Ok(g(5)) }` -/
theorem unit_effect : wraps .ok true (.ctor .ok (.call (.num 5))) = some .unit ∧
    outcome (result one 1 (.ctor .ok (.call (.num 5))) start) = some (.wrap .ok (.num 1), [.num 5]) ∧
    outcome (result one 1 .unit start) = some (.unit, []) := by
  decide +kernel

end Verif.Wraps
