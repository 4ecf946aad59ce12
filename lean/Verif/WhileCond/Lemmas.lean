import Verif.WhileCond.Spec
import Verif.WhileCond.Model

namespace Verif.WhileCond

theorem St.ext {σ τ : St} (h : ∀ x, σ.env x = τ.env x) (hs : σ.stat = τ.stat) (hh : σ.heap = τ.heap)
    (g : σ.log = τ.log) : σ = τ := by
  cases σ; cases τ
  cases g; cases hs; cases hh
  congr
  funext x
  exact h x

theorem set_self (σ : St) (x : Name) (v : Val) : (σ.set x v).env x = v := by simp [St.set]

theorem set_other {σ : St} {x y : Name} (v : Val) (h : y ≠ x) : (σ.set x v).env y = σ.env y := by
  simp [St.set, h]

theorem set_back (σ : St) (x : Name) (u : Val) : (σ.set x u).set x (σ.env x) = σ := by
  apply St.ext
  · intro y
    by_cases h : y = x
    · subst h; simp [St.set]
    · simp [St.set, h]
  all_goals rfl

/-- What follows a value, or the other outcome. -/
theorem andThen_cases {r : Res} {k : Val → St → Res} {o : Out} {τ : St} (h : andThen r k = some (o, τ)) :
    (∃ v υ, r = some (.val v, υ) ∧ k v υ = some (o, τ)) ∨ (r = some (o, τ) ∧ ∀ v, o ≠ .val v) := by
  unfold andThen at h
  split at h
  · exact .inl ⟨_, _, rfl, h⟩
  · next n =>
    refine .inr ⟨h, ?_⟩
    rintro v rfl
    exact n _ _ h

theorem andThen_val {r : Res} {k : Val → St → Res} {v : Val} {υ : St} (h : r = some (.val v, υ)) :
    andThen r k = k v υ := by rw [h]; rfl

theorem andThen_other {r : Res} {k : Val → St → Res} {o : Out} {υ : St} (h : r = some (o, υ))
    (n : ∀ v, o ≠ .val v) : andThen r k = some (o, υ) := by
  rw [h]
  unfold andThen
  split
  · next e =>
    cases e
    exact absurd rfl (n _)
  · rfl

theorem opt_map {α β : Type} {o : Option α} {f : α → β} {r : β} (h : o.map f = some r) :
    ∃ a, o = some a ∧ f a = r := by
  cases o with
  | none => cases h
  | some a => exact ⟨a, rfl, by simpa using h⟩

/-! ### What the body keeps -/

/-- The two states agree on a variable and on the static variables without `mut`. -/
def Keep (w : World) (x : Name) (σ τ : St) : Prop :=
  τ.env x = σ.env x ∧ ∀ s, w.isMut s = false → τ.stat s = σ.stat s

theorem Keep.refl {w : World} {x : Name} (σ : St) : Keep w x σ σ := ⟨rfl, fun _ _ => rfl⟩

theorem Keep.trans {w : World} {x : Name} {σ τ υ : St} (h : Keep w x σ τ) (g : Keep w x τ υ) : Keep w x σ υ :=
  ⟨g.1.trans h.1, fun s m => (g.2 s m).trans (h.2 s m)⟩

theorem keep_then {w : World} {x : Name} {σ : St} {r : Res} {k : Val → St → Res} {o : Out} {τ : St}
    (h : andThen r k = some (o, τ)) (hr : ∀ {o τ}, r = some (o, τ) → Keep w x σ τ)
    (hk : ∀ {v υ}, r = some (.val v, υ) → k v υ = some (o, τ) → Keep w x υ τ) : Keep w x σ τ := by
  rcases andThen_cases h with ⟨v, υ, h1, h2⟩ | ⟨h1, _⟩
  · exact (hr h1).trans (hk h1 h2)
  · exact hr h1

theorem keep_iter {w : World} {x : Name} {f : St → Res} (hf : ∀ {σ o τ}, f σ = some (o, τ) → Keep w x σ τ) :
    (n : Nat) → {σ : St} → {o : Out} → {τ : St} → iter f n σ = some (o, τ) → Keep w x σ τ
  | 0, _, _, _, h => nomatch h
  | n + 1, σ, o, τ, h => by
    unfold iter at h
    split at h
    · next e => exact (hf e).trans (keep_iter hf n h)
    · next e => exact (hf e).trans (keep_iter hf n h)
    · next e => cases h; exact hf e
    · next e => cases h; exact hf e
    · next e => cases h; exact hf e
    · next e => cases h; exact hf e
    · cases h

theorem keeps {w : World} {n : Nat} {x : Name} : (e : Expr) → {σ : St} → {o : Out} → {τ : St} →
    staticsOk w e = true → x ∉ mutated e → eval w n e σ = some (o, τ) → Keep w x σ τ
  | .lit _, _, _, _, _, _, h => by cases h; exact Keep.refl _
  | .var _, _, _, _, _, _, h => by cases h; exact Keep.refl _
  | .stat _ _, _, _, _, _, _, h => by cases h; exact Keep.refl _
  | .brk _, _, _, _, _, _, h => by cases h; exact Keep.refl _
  | .cont _, _, _, _, _, _, h => by cases h; exact Keep.refl _
  | .deref e, _, _, _, s, m, h => keep_then h (keeps e s m) fun {v υ} _ g => by
      cases v <;> cases g
      exact Keep.refl _
  | .ret e, _, _, _, s, m, h => keep_then h (keeps e s m) fun _ g => by cases g; exact Keep.refl _
  | .call f e, _, _, _, s, m, h => keep_then h (keeps e s m) fun _ g => by
      obtain ⟨⟨r, φ⟩, g1, g2⟩ := opt_map g
      cases g2
      exact ⟨congrFun (w.call_env g1) x, fun _ => w.call_stat g1⟩
  | .callMut f y, σ, _, _, _, m, h => by
      obtain ⟨⟨r, v, φ⟩, g1, g2⟩ := opt_map h
      cases g2
      simp only [mutated, List.mem_singleton] at m
      refine ⟨?_, fun s i => (w.callMut_stat g1 i : φ.stat s = _)⟩
      rw [set_other _ m]
      exact congrFun (w.callMut_env g1) x
  | .set y e, _, _, _, s, m, h => by
      simp only [mutated, List.mem_cons, not_or] at m
      exact keep_then h (keeps e s m.2) fun _ g => by
        cases g
        exact ⟨set_other _ m.1, fun _ _ => rfl⟩
  | .setStat mu y e, _, _, _, s, m, h => by
      simp only [staticsOk, Bool.and_eq_true] at s
      refine keep_then h (keeps e s.2 m) fun {v υ} _ g => ?_
      cases g
      refine ⟨rfl, fun z i => ?_⟩
      have : z ≠ y := fun e => by rw [e, s.1.2] at i; cases i
      simp [this]
  | .setDeref p e, _, _, _, s, m, h => by
      simp only [staticsOk, Bool.and_eq_true] at s
      simp only [mutated, List.mem_append, not_or] at m
      refine keep_then h (keeps e s.2 m.2.2) fun _ g => ?_
      refine keep_then g (keeps p s.1 m.2.1) fun {v υ} _ g => ?_
      cases v <;> cases g
      exact ⟨rfl, fun _ _ => rfl⟩
  | .op f a b, _, _, _, s, m, h => by
      simp only [staticsOk, Bool.and_eq_true] at s
      simp only [mutated, List.mem_append, not_or] at m
      refine keep_then h (keeps a s.1 m.1) fun _ g => ?_
      refine keep_then g (keeps b s.2 m.2) fun _ g => ?_
      obtain ⟨r, _, g2⟩ := opt_map g
      cases g2
      exact Keep.refl _
  | .overOp f a b, _, _, _, s, m, h => by
      simp only [staticsOk, Bool.and_eq_true] at s
      simp only [mutated, List.mem_append, not_or] at m
      refine keep_then h (keeps a s.1 m.1) fun _ g => ?_
      refine keep_then g (keeps b s.2 m.2) fun _ g => ?_
      obtain ⟨⟨r, φ⟩, g1, g2⟩ := opt_map g
      cases g2
      exact ⟨congrFun (w.call_env g1) x, fun _ => w.call_stat g1⟩
  | .seq a b, _, _, _, s, m, h => by
      simp only [staticsOk, Bool.and_eq_true] at s
      simp only [mutated, List.mem_append, not_or] at m
      exact keep_then h (keeps a s.1 m.1) fun _ g => keeps b s.2 m.2 g
  | .letIn y a b, _, _, _, s, m, h => by
      simp only [staticsOk, Bool.and_eq_true] at s
      simp only [mutated, List.mem_append, not_or] at m
      refine keep_then h (keeps a s.1 m.1) fun _ g => ?_
      obtain ⟨⟨r, φ⟩, g1, g2⟩ := opt_map g
      cases g2
      have k := keeps b s.2 m.2 g1
      refine ⟨?_, k.2⟩
      by_cases e : x = y
      · subst e; rw [set_self]
      · rw [set_other _ e, k.1, set_other _ e]
  | .ite c a b, _, _, _, s, m, h => by
      simp only [staticsOk, Bool.and_eq_true] at s
      simp only [mutated, List.mem_append, not_or] at m
      refine keep_then h (keeps c s.1.1 m.1) fun {v υ} _ g => ?_
      unfold choose at g
      split at g
      · exact keeps a s.1.2 m.2.1 g
      · exact keeps b s.2 m.2.2 g
      · cases g
  | .loop e, _, _, _, s, m, h => keep_iter (keeps e s m) n h

/-! ### The condition -/

/-- Agreement on some variables, and on the static variables without `mut`. -/
def Agree (w : World) (I : List Name) (σ τ : St) : Prop :=
  (∀ x ∈ I, τ.env x = σ.env x) ∧ ∀ s, w.isMut s = false → τ.stat s = σ.stat s

theorem Agree.set {w : World} {I : List Name} {σ τ : St} (h : Agree w I σ τ) (x : Name) (v : Val) :
    Agree w I (σ.set x v) (τ.set x v) := by
  refine ⟨fun y m => ?_, h.2⟩
  by_cases e : y = x
  · subst e; rw [set_self, set_self]
  · rw [set_other _ e, set_other _ e]
    exact h.1 y m

/-- No effects, and the same outcome in all states that agree. -/
def Pure (w : World) (I : List Name) (f : St → Res) : Prop :=
  ∀ ⦃σ σ' o τ⦄, Agree w I σ σ' → f σ = some (o, τ) → τ = σ ∧ f σ' = some (o, σ')

theorem Pure.andThen {w : World} {I : List Name} {f : St → Res} {k : Val → St → Res} (hf : Pure w I f)
    (hk : ∀ v, Pure w I (k v)) : Pure w I fun σ => andThen (f σ) k := by
  intro σ σ' o τ a h
  rcases andThen_cases h with ⟨v, υ, h1, h2⟩ | ⟨h1, n⟩
  · obtain ⟨rfl, g1⟩ := hf a h1
    obtain ⟨rfl, g2⟩ := hk v a h2
    exact ⟨rfl, (andThen_val g1).trans g2⟩
  · obtain ⟨rfl, g1⟩ := hf a h1
    exact ⟨rfl, andThen_other g1 n⟩

theorem Pure.iter {w : World} {I : List Name} {f : St → Res} (hf : Pure w I f) : (n : Nat) → Pure w I (iter f n)
  | 0 => fun _ _ _ _ _ h => nomatch h
  | n + 1 => by
    intro σ σ' o τ a h
    unfold WhileCond.iter at h ⊢
    cases e : f σ with
    | none => rw [e] at h; cases h
    | some r =>
      obtain ⟨r, υ⟩ := r
      obtain ⟨rfl, g⟩ := hf a e
      rw [e] at h
      rw [g]
      cases r with
      | val v => exact Pure.iter hf n a h
      | ret v => cases h; exact ⟨rfl, rfl⟩
      | brk k => cases k <;> cases h <;> exact ⟨rfl, rfl⟩
      | cont k => cases k with
        | zero => exact Pure.iter hf n a h
        | succ k => cases h; exact ⟨rfl, rfl⟩

theorem join_some {a b : Option Found} {f : Found} (h : join a b = some f) :
    ∃ g k, a = some g ∧ b = some k ∧ f.ids = g.ids ++ k.ids ∧ f.statics = g.statics ++ k.statics := by
  cases a with
  | none => cases h
  | some g =>
    cases b with
    | none => cases h
    | some k => cases h; exact ⟨g, k, rfl, rfl, rfl, rfl⟩

/-- Conditions on what was found. -/
structure Fits (I : List Name) (f : Found) (m : List Name) : Prop where
  sub : ∀ x ∈ f.ids, x ∈ I
  stat : ∀ b ∈ f.statics, b = false
  noMut : ∀ x ∈ I, x ∉ m

theorem Fits.left {I : List Name} {f g : Found} {m m' : List Name} (h : Fits I f m) (a : ∀ x ∈ g.ids, x ∈ f.ids)
    (b : ∀ x ∈ g.statics, x ∈ f.statics) (c : ∀ x ∈ m', x ∈ m) : Fits I g m' :=
  ⟨fun x i => h.sub x (a x i), fun x i => h.stat x (b x i), fun x i k => h.noMut x i (c x k)⟩

theorem fits_join {I : List Name} {a b : Option Found} {f : Found} {m ma mb : List Name} (h : join a b = some f)
    (t : Fits I f m) (ha : ∀ x ∈ ma, x ∈ m) (hb : ∀ x ∈ mb, x ∈ m) :
    ∃ g k, a = some g ∧ b = some k ∧ Fits I g ma ∧ Fits I k mb := by
  obtain ⟨g, k, rfl, rfl, h1, h2⟩ := join_some h
  exact ⟨g, k, rfl, rfl, t.left (fun x i => by simp [h1, i]) (fun x i => by simp [h2, i]) ha,
    t.left (fun x i => by simp [h1, i]) (fun x i => by simp [h2, i]) hb⟩

theorem pure_cond {w : World} {n : Nat} {I : List Name} : (e : Expr) → {f : Found} → collect e = some f →
    Fits I f (mutated e) → direct e = true → staticsOk w e = true → Pure w I (eval w n e)
  | .lit _, _, _, _, _, _ => fun _ _ _ _ _ h => by cases h; exact ⟨rfl, rfl⟩
  | .brk _, _, _, _, _, _ => fun _ _ _ _ _ h => by cases h; exact ⟨rfl, rfl⟩
  | .cont _, _, _, _, _, _ => fun _ _ _ _ _ h => by cases h; exact ⟨rfl, rfl⟩
  | .var x, _, c, t, _, _ => fun _ _ _ _ a h => by
      cases h; cases c
      refine ⟨rfl, ?_⟩
      simp only [eval]
      rw [a.1 x (t.sub x (List.mem_singleton.mpr rfl))]
  | .stat m s, _, c, t, _, so => fun _ _ _ _ a h => by
      cases h; cases c
      refine ⟨rfl, ?_⟩
      simp only [eval]
      have : w.isMut s = false := by
        have := t.stat m (List.mem_singleton.mpr rfl)
        simp only [staticsOk, beq_iff_eq] at so
        rw [← so]; exact this
      rw [a.2 s this]
  | .call _ _, _, c, _, _, _ => nomatch c
  | .callMut _ _, _, c, _, _, _ => nomatch c
  | .deref _, _, _, _, d, _ => nomatch d
  | .overOp _ _ _, _, _, _, d, _ => nomatch d
  | .setDeref _ _, _, _, _, d, _ => nomatch d
  | .set x e, f, c, t, _, _ => by
      obtain ⟨g, k, h1, _, h2, _⟩ := join_some c
      cases h1
      have : x ∈ I := t.sub x (by simp [h2])
      exact absurd (List.mem_cons_self ..) (t.noMut x this)
  | .setStat m s e, f, c, t, _, so => by
      obtain ⟨g, k, h1, _, _, h2⟩ := join_some c
      cases h1
      have : m = false := t.stat m (by simp [h2])
      subst this
      simp [staticsOk] at so
  | .ret e, _, c, t, d, so => Pure.andThen (pure_cond e c t d so) fun _ _ _ _ _ _ h => by
      cases h; exact ⟨rfl, rfl⟩
  | .loop e, _, c, t, d, so => Pure.iter (pure_cond e c t d so) n
  | .op f a b, _, c, t, d, so => by
      simp only [direct, staticsOk, Bool.and_eq_true] at d so
      obtain ⟨g, k, ca, cb, ta, tb⟩ := fits_join (ma := mutated a) (mb := mutated b) c t
        (fun x i => by simp [mutated, i]) (fun x i => by simp [mutated, i])
      refine Pure.andThen (pure_cond a ca ta d.1 so.1) fun u => ?_
      refine Pure.andThen (pure_cond b cb tb d.2 so.2) fun v => ?_
      intro σ σ' o τ _ h
      obtain ⟨r, h1, h2⟩ := opt_map h
      cases h2
      exact ⟨rfl, by rw [h1]; rfl⟩
  | .seq a b, _, c, t, d, so => by
      simp only [direct, staticsOk, Bool.and_eq_true] at d so
      obtain ⟨g, k, ca, cb, ta, tb⟩ := fits_join (ma := mutated a) (mb := mutated b) c t
        (fun x i => by simp [mutated, i]) (fun x i => by simp [mutated, i])
      exact Pure.andThen (pure_cond a ca ta d.1 so.1) fun u => pure_cond b cb tb d.2 so.2
  | .letIn x a b, _, c, t, d, so => by
      simp only [direct, staticsOk, Bool.and_eq_true] at d so
      obtain ⟨g, k, ca, cb, ta, tb⟩ := fits_join (ma := mutated a) (mb := mutated b) c t
        (fun x i => by simp [mutated, i]) (fun x i => by simp [mutated, i])
      refine Pure.andThen (pure_cond a ca ta d.1 so.1) fun u => ?_
      intro σ σ' o τ ag h
      obtain ⟨⟨r, φ⟩, h1, h2⟩ := opt_map h
      cases h2
      obtain ⟨rfl, h3⟩ := pure_cond b cb tb d.2 so.2 (ag.set x u) h1
      refine ⟨set_back _ _ _, ?_⟩
      simp only [restore]
      rw [h3]
      simp only [Option.map_some]
      rw [set_back]
  | .ite e a b, _, c, t, d, so => by
      simp only [direct, staticsOk, Bool.and_eq_true] at d so
      obtain ⟨g, k, ce, cab, te, tab⟩ := fits_join (ma := mutated e) (mb := mutated a ++ mutated b) c t
        (fun x i => by simp [mutated, i]) (fun x i => by simpa [mutated] using .inr (by simpa using i))
      obtain ⟨g, k, ca, cb, ta, tb⟩ := fits_join (ma := mutated a) (mb := mutated b) cab tab
        (fun x i => by simp [i]) (fun x i => by simp [i])
      refine Pure.andThen (pure_cond e ce te d.1.1 so.1.1) fun u => ?_
      intro σ σ' o τ ag h
      unfold choose at h ⊢
      split at h
      · exact pure_cond a ca ta d.1.2 so.1.2 ag h
      · exact pure_cond b cb tb d.2 so.2 ag h
      · cases h

/-! ### Bodies that are not left -/

/-- A value, or another round of one of the loops. -/
def Inside (d : Nat) : Out → Prop
  | .val _ => True
  | .cont k => k ≤ d
  | _ => False

theorem inside_then {d : Nat} {r : Res} {k : Val → St → Res} {o : Out} {τ : St} (h : andThen r k = some (o, τ))
    (hr : ∀ {o τ}, r = some (o, τ) → Inside d o) (hk : ∀ {v υ}, k v υ = some (o, τ) → Inside d o) :
    Inside d o := by
  rcases andThen_cases h with ⟨v, υ, _, h2⟩ | ⟨h1, _⟩
  · exact hk h2
  · exact hr h1

theorem inside_iter {d : Nat} {f : St → Res} (hf : ∀ {σ o τ}, f σ = some (o, τ) → Inside (d + 1) o) :
    (n : Nat) → {σ : St} → {o : Out} → {τ : St} → iter f n σ = some (o, τ) → Inside d o
  | 0, _, _, _, h => nomatch h
  | n + 1, σ, o, τ, h => by
    unfold iter at h
    split at h
    · exact inside_iter hf n h
    · exact inside_iter hf n h
    · next e => cases h; exact Nat.le_of_succ_le_succ (hf e)
    · next e => cases h; trivial
    · next e => exact (hf e).elim
    · next e => exact (hf e).elim
    · cases h

theorem map_inside {α : Type} {d : Nat} {m : Option α} {f : α → Out × St} {o : Out} {τ : St}
    (h : m.map f = some (o, τ)) (g : ∀ a, ∃ v, (f a).1 = .val v) : Inside d o := by
  obtain ⟨a, _, h2⟩ := opt_map h
  obtain ⟨v, g⟩ := g a
  rw [h2] at g
  simp only at g
  rw [g]
  trivial

theorem inside {w : World} {n : Nat} : (e : Expr) → {d : Nat} → {σ : St} → {o : Out} → {τ : St} →
    leaves e = false → staysIn d e = true → eval w n e σ = some (o, τ) → Inside d o
  | .lit _, _, _, _, _, _, _, h => by cases h; trivial
  | .var _, _, _, _, _, _, _, h => by cases h; trivial
  | .stat _ _, _, _, _, _, _, _, h => by cases h; trivial
  | .brk _, _, _, _, _, l, _, _ => nomatch l
  | .ret _, _, _, _, _, l, _, _ => nomatch l
  | .cont k, d, _, _, _, _, s, h => by
      cases h
      have : k ≤ d := of_decide_eq_true s
      exact this
  | .deref e, _, _, _, _, l, s, h => inside_then h (inside e l s) fun {v υ} g => by
      cases v <;> cases g
      trivial
  | .call f e, _, _, _, _, l, s, h => inside_then h (inside e l s) fun g => map_inside g fun a => ⟨a.1, rfl⟩
  | .callMut f x, _, _, _, _, _, _, h => map_inside h fun a => ⟨a.1, rfl⟩
  | .set _ e, _, _, _, _, l, s, h => inside_then h (inside e l s) fun g => by cases g; trivial
  | .setStat _ _ e, _, _, _, _, l, s, h => inside_then h (inside e l s) fun g => by cases g; trivial
  | .setDeref p e, _, _, _, _, l, s, h => by
      simp only [leaves, staysIn, Bool.or_eq_false_iff, Bool.and_eq_true] at l s
      exact inside_then h (inside e l.2 s.2) fun g => inside_then g (inside p l.1 s.1) fun {v υ} g => by
        cases v <;> cases g
        trivial
  | .op _ a b, _, _, _, _, l, s, h => by
      simp only [leaves, staysIn, Bool.or_eq_false_iff, Bool.and_eq_true] at l s
      exact inside_then h (inside a l.1 s.1) fun g => inside_then g (inside b l.2 s.2) fun g =>
        map_inside g fun a => ⟨a, rfl⟩
  | .overOp _ a b, _, _, _, _, l, s, h => by
      simp only [leaves, staysIn, Bool.or_eq_false_iff, Bool.and_eq_true] at l s
      exact inside_then h (inside a l.1 s.1) fun g => inside_then g (inside b l.2 s.2) fun g =>
        map_inside g fun a => ⟨a.1, rfl⟩
  | .seq a b, _, _, _, _, l, s, h => by
      simp only [leaves, staysIn, Bool.or_eq_false_iff, Bool.and_eq_true] at l s
      exact inside_then h (inside a l.1 s.1) fun g => inside b l.2 s.2 g
  | .letIn x a b, _, _, _, _, l, s, h => by
      simp only [leaves, staysIn, Bool.or_eq_false_iff, Bool.and_eq_true] at l s
      refine inside_then h (inside a l.1 s.1) fun g => ?_
      obtain ⟨⟨r, φ⟩, h1, h2⟩ := opt_map g
      cases h2
      exact inside b l.2 s.2 h1
  | .ite c a b, _, _, _, _, l, s, h => by
      simp only [leaves, staysIn, Bool.or_eq_false_iff, Bool.and_eq_true] at l s
      refine inside_then h (inside c l.1.1 s.1.1) fun g => ?_
      unfold choose at g
      split at g
      · exact inside a l.1.2 s.1.2 g
      · exact inside b l.2 s.2 g
      · cases g
  | .loop e, d, _, _, _, l, s, h => inside_iter (inside e l s) n h

end Verif.WhileCond
