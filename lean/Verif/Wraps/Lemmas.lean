import Verif.Wraps.Spec
import Verif.Wraps.Model

namespace Verif.Wraps

theorem andThen_cases {r : Res} {k : Val → St → Res} {o : Out} {τ : St} (h : andThen r k = some (o, τ)) :
    (∃ v υ, r = some (.val v, υ) ∧ k v υ = some (o, τ)) ∨ (r = some (o, τ) ∧ ∀ v, o ≠ .val v) := by
  unfold andThen at h
  split at h
  · exact .inl ⟨_, _, rfl, h⟩
  · next n =>
    refine .inr ⟨h, ?_⟩
    rintro v rfl
    exact n _ _ h

theorem andThen_val {r : Res} {k : Val → St → Res} {v : Val} {υ : St} (h : r = some (.val v, υ)) :
    andThen r k = k v υ := by rw [h]; rfl

theorem andThen_other {r : Res} {k : Val → St → Res} {o : Out} {υ : St} (h : r = some (o, υ))
    (n : ∀ v, o ≠ .val v) : andThen r k = some (o, υ) := by
  rw [h]
  unfold andThen
  split
  · next e =>
    cases e
    exact absurd rfl (n _)
  · rfl

theorem opt_map {α β : Type} {o : Option α} {f : α → β} {r : β} (h : o.map f = some r) :
    ∃ a, o = some a ∧ f a = r := by
  cases o with
  | none => cases h
  | some a => exact ⟨a, rfl, by simpa using h⟩

theorem opt_bind {α β : Type} {o : Option α} {f : α → Option β} {r : β} (h : o.bind f = some r) :
    ∃ a, o = some a ∧ f a = some r := by
  cases o with
  | none => cases h
  | some a => exact ⟨a, rfl, h⟩

/-! ### Without `return` -/

/-- Not a `return`. -/
def Stays : Out → Prop
  | .ret _ => False
  | _ => True

theorem stays_then {r : Res} {k : Val → St → Res} {o : Out} {τ : St} (h : andThen r k = some (o, τ))
    (hr : ∀ {o τ}, r = some (o, τ) → Stays o) (hk : ∀ {v υ}, k v υ = some (o, τ) → Stays o) : Stays o := by
  rcases andThen_cases h with ⟨v, υ, _, h2⟩ | ⟨h1, _⟩
  · exact hk h2
  · exact hr h1

theorem stays_choose {v : Val} {a b : Res} {o : Out} {τ : St} (h : choose v a b = some (o, τ))
    (ha : a = some (o, τ) → Stays o) (hb : b = some (o, τ) → Stays o) : Stays o := by
  unfold choose at h
  split at h
  · exact hb h
  · exact ha h
  · cases h

theorem stays_iter {f : St → Res} (hf : ∀ {σ o τ}, f σ = some (o, τ) → Stays o) :
    (n : Nat) → {σ : St} → {o : Out} → {τ : St} → iter f n σ = some (o, τ) → Stays o
  | 0, _, _, _, h => nomatch h
  | n + 1, σ, o, τ, h => by
    unfold iter at h
    split at h
    · exact stays_iter hf n h
    · cases h; trivial
    · cases h; trivial
    · next e => exact (hf e).elim
    · cases h

theorem stays {w : World} {n : Nat} : (e : Expr) → {σ : St} → {o : Out} → {τ : St} → noRet e = true →
    eval w n e σ = some (o, τ) → Stays o
  | .unit, _, _, _, _, h => by cases h; trivial
  | .num _, _, _, _, _, h => by cases h; trivial
  | .var _, _, _, _, _, h => by cases h; trivial
  | .none, _, _, _, _, h => by cases h; trivial
  | .ret _, _, _, _, r, _ => nomatch r
  | .tri _, _, _, _, r, _ => nomatch r
  | .ctor _ e, _, _, _, r, h => stays_then h (stays e r) fun g => by cases g; trivial
  | .call e, _, _, _, r, h => stays_then h (stays e r) fun g => by cases g; trivial
  | .stop e, _, _, _, r, h => stays_then h (stays e r) fun g => by cases g
  | .brk _ e, _, _, _, r, h => stays_then h (stays e r) fun g => by cases g; trivial
  | .block e, _, _, _, r, h => stays e r h
  | .mac e, _, _, _, r, h => stays e r h
  | .labelled e, σ, _, _, r, h => by
    simp only [eval] at h
    cases g : eval w n e σ with
    | none => rw [g] at h; cases h
    | some q =>
      obtain ⟨o, υ⟩ := q
      rw [g] at h
      have := stays e r g
      cases o with
      | val v => cases h; trivial
      | ret v => exact this.elim
      | brk k v => cases k <;> cases h <;> trivial
  | .loop e, _, _, _, r, h => stays_iter (stays e r) n h
  | .seq a b, _, _, _, r, h => by
    simp only [noRet, Bool.and_eq_true] at r
    exact stays_then h (stays a r.1) fun g => stays b r.2 g
  | .letIn x a b, _, _, _, r, h => by
    simp only [noRet, Bool.and_eq_true] at r
    refine stays_then h (stays a r.1) fun g => ?_
    obtain ⟨⟨o, φ⟩, h1, h2⟩ := opt_map g
    cases h2
    exact stays b r.2 h1
  | .ite c a b, _, _, _, r, h => by
    simp only [noRet, Bool.and_eq_true] at r
    exact stays_then h (stays c r.1.1) fun g => stays_choose g (stays a r.1.2) (stays b r.2)
  | .mtch s g a b, _, _, _, r, h => by
    simp only [noRet, Bool.and_eq_true] at r
    exact stays_then h (stays s r.1.1.1) fun h => stays_then h (stays g r.1.1.2) fun h =>
      stays_choose h (stays a r.1.2) (stays b r.2)

theorem noRet_iff (e : Expr) : containsReturn e = !noRet e := by
  induction e <;> simp_all [containsReturn, noRet, Bool.and_assoc, Bool.or_assoc]

/-! ### The relation -/

/-- How the outcomes of the old and the new code are related: values are the same in statements, and without the
variant at the end. -/
def Rel (t : Tag) (s : Bool) (o o' : Out) : Prop :=
  match o with
  | .val v => if s then o' = .val v else ∃ u, v = .wrap t u ∧ o' = .val u
  | .brk k v => o' = .brk k v
  | .ret v => ∃ u, v = .wrap t u ∧ o' = .ret u

/-- The new code does the same. -/
def Sim (t : Tag) (s : Bool) (r r' : Res) : Prop :=
  ∀ ⦃o τ⦄, r = some (o, τ) → ∃ o', r' = some (o', τ) ∧ Rel t s o o'

theorem Rel.other {t : Tag} {s s' : Bool} {o o' : Out} (h : Rel t s o o') (n : ∀ v, o ≠ .val v) :
    Rel t s' o o' ∧ ∀ v, o' ≠ .val v := by
  cases o with
  | val v => exact absurd rfl (n v)
  | brk k v => refine ⟨h, fun u e => ?_⟩; rw [h] at e; cases e
  | ret v =>
    obtain ⟨u, h1, h2⟩ := h
    exact ⟨⟨u, h1, h2⟩, fun u e => by rw [h2] at e; cases e⟩

theorem Sim.andThen {t : Tag} {s : Bool} {r r' : Res} {k k' : Val → St → Res} (h : Sim t true r r')
    (hk : ∀ v τ, Sim t s (k v τ) (k' v τ)) : Sim t s (andThen r k) (andThen r' k') := by
  intro o τ e
  rcases andThen_cases e with ⟨v, υ, h1, h2⟩ | ⟨h1, n⟩
  · obtain ⟨o', g1, g2⟩ := h h1
    simp only [Rel, if_true] at g2
    subst g2
    rw [andThen_val g1]
    exact hk v υ h2
  · obtain ⟨o', g1, g2⟩ := h h1
    obtain ⟨g3, g4⟩ := g2.other (s' := s) n
    exact ⟨o', andThen_other g1 g4, g3⟩

theorem Sim.choose {t : Tag} {s : Bool} {v : Val} {a b a' b' : Res} (ha : Sim t s a a') (hb : Sim t s b b') :
    Sim t s (choose v a b) (choose v a' b') := by
  intro o τ e
  unfold Wraps.choose at e ⊢
  split at e
  · exact hb e
  · exact ha e
  · cases e

theorem Sim.same {t : Tag} {r : Res} (h : ∀ {o τ}, r = some (o, τ) → Stays o) : Sim t true r r := by
  intro o τ e
  refine ⟨o, e, ?_⟩
  have := h e
  cases o with
  | val v => simp [Rel]
  | brk k v => rfl
  | ret v => exact this.elim

theorem Sim.val {t : Tag} {v : Val} {σ : St} : Sim t true (some (.val v, σ)) (some (.val v, σ)) :=
  Sim.same fun e => by cases e; trivial

theorem Sim.iter {t : Tag} {f g : St → Res} (h : ∀ σ, Sim t true (f σ) (g σ)) :
    (n : Nat) → (σ : St) → Sim t true (iter f n σ) (iter g n σ)
  | 0, _ => fun _ _ e => nomatch e
  | n + 1, σ => by
    intro o τ e
    unfold Wraps.iter at e ⊢
    cases hf : f σ with
    | none => rw [hf] at e; cases e
    | some q =>
      obtain ⟨q, υ⟩ := q
      obtain ⟨o', g1, g2⟩ := h σ hf
      rw [hf] at e
      rw [g1]
      cases q with
      | val v =>
        simp only [Rel, if_true] at g2
        subst g2
        exact Sim.iter h n υ e
      | brk k v =>
        simp only [Rel] at g2
        subst g2
        cases k <;> cases e
        · exact ⟨_, rfl, by simp [Rel]⟩
        · exact ⟨_, rfl, rfl⟩
      | ret v =>
        obtain ⟨u, h1, rfl⟩ := g2
        cases e
        exact ⟨_, rfl, u, h1, rfl⟩

theorem Sim.catchBreak {t : Tag} {r r' : Res} (h : Sim t true r r') : Sim t true (catchBreak r) (catchBreak r') := by
  intro o τ e
  cases r with
  | none => cases e
  | some q =>
    obtain ⟨q, υ⟩ := q
    obtain ⟨o', g1, g2⟩ := h rfl
    rw [g1]
    cases q with
    | val v =>
      simp only [Rel, if_true] at g2
      subst g2
      cases e
      exact ⟨_, rfl, by simp [Rel]⟩
    | brk k v =>
      simp only [Rel] at g2
      subst g2
      cases k <;> cases e
      · exact ⟨_, rfl, by simp [Rel]⟩
      · exact ⟨_, rfl, rfl⟩
    | ret v =>
      obtain ⟨u, h1, rfl⟩ := g2
      cases e
      exact ⟨_, rfl, u, h1, rfl⟩

theorem Sim.restore {t : Tag} {s : Bool} {x : Name} {v : Val} {r r' : Res} (h : Sim t s r r') :
    Sim t s (restore x v r) (restore x v r') := by
  intro o τ e
  obtain ⟨⟨q, υ⟩, h1, h2⟩ := opt_map e
  cases h2
  obtain ⟨o', g1, g2⟩ := h h1
  exact ⟨o', by rw [g1]; rfl, g2⟩

theorem Sim.ret {t : Tag} {r r' : Res} (h : Sim t false r r') :
    ∀ s, Sim t s (Wraps.andThen r fun v τ => some (.ret v, τ)) (Wraps.andThen r' fun v τ => some (.ret v, τ)) := by
  intro s o τ e
  rcases andThen_cases e with ⟨v, υ, h1, h2⟩ | ⟨h1, n⟩
  · obtain ⟨o', g1, u, g2, rfl⟩ := h h1
    cases h2
    exact ⟨.ret u, by rw [andThen_val g1], u, g2, rfl⟩
  · obtain ⟨o', g1, g2⟩ := h h1
    obtain ⟨g3, g4⟩ := g2.other (s' := s) n
    exact ⟨o', andThen_other g1 g4, g3⟩

theorem Sim.stop {t : Tag} {s : Bool} {r r' : Res} (h : Sim t true r r') :
    Sim t s (Wraps.andThen r fun _ _ => none) (Wraps.andThen r' fun _ _ => none) :=
  h.andThen fun _ _ _ _ e => nomatch e

/-- What is wrapped has no effects, if it is dropped. -/
theorem Sim.replace {w : World} {n : Nat} {t : Tag} {unit : Bool} {e e' : Expr} (h : replace t unit e = some e')
    (u : unit = true → unitsOnly t e = true) (σ : St) : Sim t false (eval w n e σ) (eval w n e' σ) := by
  cases e with
  | ctor t' a =>
    simp only [Wraps.replace] at h
    split at h
    · next g =>
      simp only [Bool.and_eq_true, beq_iff_eq, noRet_iff, Bool.not_not] at g
      obtain ⟨rfl, g⟩ := g
      have step : Sim t' false (eval w n (.ctor t' a) σ) (eval w n a σ) := by
        intro o τ e
        rcases andThen_cases e with ⟨v, υ, h1, h2⟩ | ⟨h1, m⟩
        · cases h2
          exact ⟨.val v, h1, v, rfl, rfl⟩
        · refine ⟨o, h1, ?_⟩
          have := stays a g h1
          cases o with
          | val v => exact absurd rfl (m v)
          | brk k v => rfl
          | ret v => exact this.elim
      cases unit with
      | false =>
        simp only [Bool.false_eq_true, if_false, Option.some.injEq] at h
        subst h
        exact step
      | true =>
        have := u rfl
        simp only [unitsOnly, bne_self_eq_false, Bool.false_or, Bool.and_eq_true, beq_iff_eq] at this
        simp only [if_true, Option.some.injEq] at h
        subst h
        rw [this.1] at step
        rw [this.1]
        exact step
    · cases h
  | _ => cases h

/-! ### The traversal -/

theorem sim {w : World} {n : Nat} {t : Tag} {unit : Bool} : (e : Expr) → {s : Bool} → {e' : Expr} →
    find t unit s e = some e' → simple (!s) e = true → (unit = true → unitsOnly t e = true) →
    containsTry e = false → (σ : St) → Sim t s (eval w n e σ) (eval w n e' σ)
  | .unit, s, _, h, _, _, _, σ => by cases s <;> cases h; exact Sim.val
  | .num _, s, _, h, _, _, _, σ => by cases s <;> cases h; exact Sim.val
  | .var _, s, _, h, _, _, _, σ => by cases s <;> cases h; exact Sim.val
  | .none, s, _, h, _, _, _, σ => by cases s <;> cases h; exact Sim.val
  | .tri _, _, _, _, _, _, c, _ => nomatch c
  | .ctor t' a, s, e', h, p, u, c, σ => by
    cases s with
    | true =>
      obtain ⟨a', h1, rfl⟩ := opt_map (show (find t unit true a).map (.ctor t') = some e' from h)
      exact (sim a h1 p (fun i => by have := u i; simp only [unitsOnly, Bool.and_eq_true] at this; exact this.2) c
        σ).andThen fun _ _ => Sim.val
    | false => exact Sim.replace (show replace t unit (.ctor t' a) = some e' from h) u σ
  | .call a, s, e', h, p, u, c, σ => by
    cases s with
    | true =>
      obtain ⟨a', h1, rfl⟩ := opt_map (show (find t unit true a).map .call = some e' from h)
      exact (sim a h1 p u c σ).andThen fun _ _ => Sim.val
    | false => cases h
  | .brk k a, s, e', h, p, u, c, σ => by
    cases s with
    | true =>
      obtain ⟨a', h1, rfl⟩ := opt_map (show (find t unit true a).map (.brk k) = some e' from h)
      exact (sim a h1 p u c σ).andThen fun _ _ => Sim.same fun e => by cases e; trivial
    | false => cases h
  | .loop a, s, e', h, p, u, c, σ => by
    cases s with
    | true =>
      obtain ⟨a', h1, rfl⟩ := opt_map (show (find t unit true a).map .loop = some e' from h)
      exact Sim.iter (sim a h1 p u c) n σ
    | false => cases h
  | .mac a, s, e', h, p, u, c, σ => by
    cases s with
    | true =>
      obtain ⟨a', h1, rfl⟩ := opt_map (show (find t unit true a).map .mac = some e' from h)
      exact sim a h1 p u c σ
    | false => cases h
  | .ret a, s, _, h, p, u, c, σ => by
    obtain ⟨a', h1, rfl⟩ := opt_map h
    exact (sim a h1 p u c σ).ret s
  | .block a, s, _, h, p, u, c, σ => by
    obtain ⟨a', h1, rfl⟩ := opt_map h
    exact sim a h1 p u c σ
  | .labelled a, s, _, h, p, u, c, σ => by
    obtain ⟨a', h1, rfl⟩ := opt_map h
    simp only [simple, Bool.and_eq_true, Bool.not_not] at p
    obtain ⟨rfl, p⟩ := p
    exact (sim a h1 p u c σ).catchBreak
  | .stop a, s, _, h, p, u, c, σ => by
    obtain ⟨a', h1, rfl⟩ := opt_map h
    exact (sim a h1 p u c σ).stop
  | .seq a b, s, _, h, p, u, c, σ => by
    obtain ⟨a', h1, h2⟩ := opt_bind h
    obtain ⟨b', h3, rfl⟩ := opt_map h2
    simp only [simple, Bool.and_eq_true] at p
    simp only [containsTry, Bool.or_eq_false_iff] at c
    simp only [unitsOnly, Bool.and_eq_true] at u
    exact (sim a h1 p.1 (fun i => (u i).1) c.1 σ).andThen fun _ τ => sim b h3 p.2 (fun i => (u i).2) c.2 τ
  | .letIn x a b, s, _, h, p, u, c, σ => by
    obtain ⟨a', h1, h2⟩ := opt_bind h
    obtain ⟨b', h3, rfl⟩ := opt_map h2
    simp only [simple, Bool.and_eq_true] at p
    simp only [containsTry, Bool.or_eq_false_iff] at c
    simp only [unitsOnly, Bool.and_eq_true] at u
    exact (sim a h1 p.1 (fun i => (u i).1) c.1 σ).andThen fun v τ =>
      (sim b h3 p.2 (fun i => (u i).2) c.2 (τ.set x v)).restore
  | .ite d a b, s, _, h, p, u, c, σ => by
    obtain ⟨d', h1, h2⟩ := opt_bind h
    obtain ⟨a', h3, h4⟩ := opt_bind h2
    obtain ⟨b', h5, rfl⟩ := opt_map h4
    simp only [simple, Bool.and_eq_true] at p
    simp only [containsTry, Bool.or_eq_false_iff] at c
    simp only [unitsOnly, Bool.and_eq_true] at u
    exact (sim d h1 p.1.1 (fun i => (u i).1.1) c.1.1 σ).andThen fun v τ =>
      (sim a h3 p.1.2 (fun i => (u i).1.2) c.1.2 τ).choose (sim b h5 p.2 (fun i => (u i).2) c.2 τ)
  | .mtch d g a b, s, _, h, p, u, c, σ => by
    obtain ⟨d', h1, h2⟩ := opt_bind h
    obtain ⟨g', h3, h4⟩ := opt_bind h2
    obtain ⟨a', h5, h6⟩ := opt_bind h4
    obtain ⟨b', h7, rfl⟩ := opt_map h6
    simp only [simple, Bool.and_eq_true, Bool.not_not] at p
    simp only [containsTry, Bool.or_eq_false_iff] at c
    simp only [unitsOnly, Bool.and_eq_true] at u
    obtain ⟨⟨⟨⟨p1, p2⟩, p3⟩, p4⟩, p5⟩ := p
    have hg : ∀ τ, Sim t true (eval w n g τ) (eval w n g' τ) := by
      intro τ
      cases s with
      | true => exact sim g h3 p2 (fun i => (u i).1.1.2) c.1.1.2 τ
      | false =>
        simp only [Bool.false_eq_true, if_false, Option.some.injEq] at h3
        subst h3
        exact Sim.same fun e => stays g (by simpa using p3) e
    exact (sim d h1 p1 (fun i => (u i).1.1.1) c.1.1.1 σ).andThen fun _ τ => (hg τ).andThen fun v υ =>
      (sim a h5 p4 (fun i => (u i).1.2) c.1.2 υ).choose (sim b h7 p5 (fun i => (u i).2) c.2 υ)

end Verif.Wraps
