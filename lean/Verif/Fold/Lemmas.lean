import Verif.Fold.Spec

/-!
# Names that do not matter
-/

namespace Verif.Fold

theorem set_comm (σ : St) {x y : Name} (h : x ≠ y) (v u : Val) : (σ.set x v).set y u = (σ.set y u).set x v := by
  simp only [St.set, St.mk.injEq, and_true]
  funext z
  by_cases h1 : z = x
  · subst h1
    simp [h]
  · simp [h1]

theorem set_set (σ : St) (x : Name) (v u : Val) : (σ.set x v).set x u = σ.set x u := by
  simp only [St.set, St.mk.injEq, and_true]
  funext z
  by_cases h1 : z = x <;> simp [h1]

theorem set_same (σ : St) (x : Name) : σ.set x (σ.env x) = σ := by
  obtain ⟨e, l⟩ := σ
  simp only [St.set, St.mk.injEq, and_true]
  funext z
  by_cases h1 : z = x <;> simp [h1]

theorem set_other (σ : St) {x y : Name} (h : y ≠ x) (v : Val) : (σ.set x v).env y = σ.env y := by
  simp [St.set, h]

theorem set_here (σ : St) (x : Name) (v : Val) : (σ.set x v).env x = v := by
  simp [St.set]

theorem say_set (σ : St) (x : Name) (v : Val) (l : List Nat) : (σ.set x v).say l = (σ.say l).set x v := rfl

def onSnd (f : St → St) (r : Val × St) : Val × St := (r.1, f r.2)

/-- A name that is not mentioned can have any value. -/
theorem eval_set (w : World) (a : Name) (v : Val) : ∀ (e : Expr) (σ : St), a ∉ names e →
    eval w e (σ.set a v) = (eval w e σ).map (onSnd (·.set a v))
  | .bool _, σ, _ => rfl
  | .num _, σ, _ => rfl
  | .broken, σ, _ => rfl
  | .var x, σ, h => by
    have h' : x ≠ a := fun e => h (by simp [names, e])
    simp [eval, onSnd, set_other _ h']
  | .short x, σ, h => by
    have h' : x ≠ a := fun e => h (by simp [names, e])
    simp [eval, onSnd, set_other _ h']
  | .deref e, σ, h => by
    simp only [eval, eval_set w a v e σ h]
    cases eval w e σ with
    | none => rfl
    | some r =>
      simp only [Option.map_some, Option.bind_some, onSnd]
      split <;> rfl
  | .call e, σ, h => by
    simp only [eval, eval_set w a v e σ h]
    cases eval w e σ with
    | none => rfl
    | some r => rfl
  | .block e, σ, h => eval_set w a v e σ h
  | .set x e, σ, h => by
    simp only [names, List.mem_cons, not_or] at h
    simp only [eval, eval_set w a v e σ h.2]
    cases eval w e σ with
    | none => rfl
    | some r => simp [onSnd, set_comm _ h.1]
  | .bin o l r, σ, h => by
    simp only [names, List.mem_append, not_or] at h
    simp only [eval, eval_set w a v l σ h.1]
    cases eval w l σ with
    | none => rfl
    | some q =>
      simp only [Option.map_some, Option.bind_some, onSnd]
      split
      · rfl
      · rw [eval_set w a v r _ h.2]
        cases eval w r q.2 with
        | none => rfl
        | some q' =>
          simp only [Option.map_some, Option.bind_some, onSnd]
          cases w.strict o q.1 q'.1 <;> rfl
  | .letIn x l r, σ, h => by
    simp only [names, List.mem_cons, List.mem_append, not_or] at h
    simp only [eval, eval_set w a v l σ h.2.1]
    cases eval w l σ with
    | none => rfl
    | some q =>
      simp only [Option.map_some, Option.bind_some, onSnd]
      rw [set_comm _ h.1, eval_set w a v r _ h.2.2]
      cases eval w r (q.2.set x q.1) with
      | none => rfl
      | some q' =>
        simp only [Option.map_some, onSnd]
        rw [set_comm _ h.1, set_other _ (fun e => h.1 e.symm)]

/-- A name that is not assigned to keeps its value. -/
theorem eval_keeps (w : World) (y : Name) : ∀ (e : Expr) (σ : St) (v : Val) (τ : St), y ∉ sets e →
    eval w e σ = some (v, τ) → τ.env y = σ.env y
  | .bool _, σ, v, τ, _, h => by cases h; rfl
  | .num _, σ, v, τ, _, h => by cases h; rfl
  | .var x, σ, v, τ, _, h => by cases h; rfl
  | .short x, σ, v, τ, _, h => by cases h; rfl
  | .deref e, σ, v, τ, hs, h => by
    obtain ⟨⟨u, υ⟩, h1, h2⟩ := Option.bind_eq_some_iff.1 h
    simp only at h2
    split at h2
    · exact nomatch h2
    · cases h2
      exact eval_keeps w y e _ _ _ hs h1
  | .call e, σ, v, τ, hs, h => by
    obtain ⟨⟨u, υ⟩, h1, h2⟩ := Option.bind_eq_some_iff.1 h
    cases h2
    have := eval_keeps w y e _ _ _ hs h1
    exact this
  | .block e, σ, v, τ, hs, h => eval_keeps w y e _ _ _ hs h
  | .set x e, σ, v, τ, hs, h => by
    simp only [sets, List.mem_cons, not_or] at hs
    obtain ⟨⟨u, υ⟩, h1, h2⟩ := Option.bind_eq_some_iff.1 h
    cases h2
    rw [set_other _ hs.1]
    exact eval_keeps w y e _ _ _ hs.2 h1
  | .bin o l r, σ, v, τ, hs, h => by
    simp only [sets, List.mem_append, not_or] at hs
    obtain ⟨⟨u, υ⟩, h1, h2⟩ := Option.bind_eq_some_iff.1 h
    have e1 := eval_keeps w y l _ _ _ hs.1 h1
    simp only at h2
    split at h2
    · cases h2; exact e1
    · obtain ⟨⟨u', υ'⟩, h3, h4⟩ := Option.bind_eq_some_iff.1 h2
      obtain ⟨q, _, h6⟩ := Option.map_eq_some_iff.1 h4
      cases h6
      rw [eval_keeps w y r _ _ _ hs.2 h3, e1]
  | .letIn x l r, σ, v, τ, hs, h => by
    simp only [sets, List.mem_append, not_or] at hs
    obtain ⟨⟨u, υ⟩, h1, h2⟩ := Option.bind_eq_some_iff.1 h
    have e1 := eval_keeps w y l _ _ _ hs.1 h1
    obtain ⟨⟨u', υ'⟩, h3, h4⟩ := Option.map_eq_some_iff.1 h2
    cases h4
    by_cases hx : y = x
    · subst hx
      rw [set_here]; exact e1
    · rw [set_other _ hx, eval_keeps w y r _ _ _ hs.2 h3, set_other _ hx, e1]

/-- Without calls and assignments nothing happens. -/
theorem eval_quiet (w : World) : ∀ (e : Expr) (σ : St) (v : Val) (τ : St), quiet e = true →
    eval w e σ = some (v, τ) → τ = σ
  | .bool _, σ, v, τ, _, h => by cases h; rfl
  | .num _, σ, v, τ, _, h => by cases h; rfl
  | .var x, σ, v, τ, _, h => by cases h; rfl
  | .short x, σ, v, τ, _, h => by cases h; rfl
  | .deref e, σ, v, τ, hq, h => by
    obtain ⟨⟨u, υ⟩, h1, h2⟩ := Option.bind_eq_some_iff.1 h
    simp only at h2
    split at h2
    · exact nomatch h2
    · cases h2
      exact eval_quiet w e _ _ _ hq h1
  | .block e, σ, v, τ, hq, h => eval_quiet w e _ _ _ hq h
  | .bin o l r, σ, v, τ, hq, h => by
    simp only [quiet, Bool.and_eq_true] at hq
    obtain ⟨⟨u, υ⟩, h1, h2⟩ := Option.bind_eq_some_iff.1 h
    have e1 := eval_quiet w l _ _ _ hq.1 h1
    simp only at h2
    split at h2
    · cases h2; exact e1
    · obtain ⟨⟨u', υ'⟩, h3, h4⟩ := Option.bind_eq_some_iff.1 h2
      obtain ⟨q, _, h6⟩ := Option.map_eq_some_iff.1 h4
      cases h6
      rw [eval_quiet w r _ _ _ hq.2 h3, e1]
  | .letIn x l r, σ, v, τ, hq, h => by
    simp only [quiet, Bool.and_eq_true] at hq
    obtain ⟨⟨u, υ⟩, h1, h2⟩ := Option.bind_eq_some_iff.1 h
    have e1 := eval_quiet w l _ _ _ hq.1 h1
    subst e1
    obtain ⟨⟨u', υ'⟩, h3, h4⟩ := Option.map_eq_some_iff.1 h2
    cases h4
    rw [eval_quiet w r _ _ _ hq.2 h3, set_set, set_same]

end Verif.Fold
