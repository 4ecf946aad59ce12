import Verif.Strip.Spec
import Verif.Strip.Model

namespace Verif.Strip

/-! ### States -/

theorem St.ext {σ τ : St} (h : ∀ x, σ.env x = τ.env x) (g : σ.log = τ.log) : σ = τ := by
  cases σ; cases τ
  cases g
  congr
  funext x
  exact h x

theorem set_self (σ : St) (x : Name) (v : Val) : (σ.set x v).env x = v := by simp [St.set]

theorem set_other {σ : St} {x y : Name} (v : Val) (h : y ≠ x) : (σ.set x v).env y = σ.env y := by
  simp [St.set, h]

theorem set_log (σ : St) (x : Name) (v : Val) : (σ.set x v).log = σ.log := rfl

theorem set_set (σ : St) (x : Name) (u v : Val) : (σ.set x u).set x v = σ.set x v := by
  apply St.ext
  · intro y
    by_cases h : y = x <;> simp [St.set, h]
  · rfl

theorem set_comm (σ : St) {x y : Name} (u v : Val) (h : x ≠ y) :
    (σ.set x u).set y v = (σ.set y v).set x u := by
  apply St.ext
  · intro z
    by_cases hx : z = x
    · subst hx; simp [St.set, h]
    · by_cases hy : z = y
      · subst hy; simp [St.set, hx]
      · simp [St.set, hx, hy]
  · rfl

theorem set_id {σ : St} {x : Name} {v : Val} (h : σ.env x = v) : σ.set x v = σ := by
  apply St.ext
  · intro y
    by_cases g : y = x
    · subst g; simp [St.set, h]
    · simp [St.set, g]
  · rfl

/-! ### Variables that are kept -/

theorem mutated_eq (e : Expr) : mutated e = freeSets e := by
  induction e <;> simp_all [mutated, freeSets]

theorem bind_some {α β : Type} {o : Option α} {f : α → Option β} {r : β} (h : o.bind f = some r) :
    ∃ a, o = some a ∧ f a = some r := by
  cases o with
  | none => cases h
  | some a => exact ⟨a, rfl, h⟩

theorem map_some {α β : Type} {o : Option α} {f : α → β} {r : β} (h : o.map f = some r) :
    ∃ a, o = some a ∧ f a = r := by
  cases o with
  | none => cases h
  | some a => exact ⟨a, rfl, by simpa using h⟩

theorem keeps {w : World} {t : Name} : (e : Expr) → {σ : St} → {v : Val} → {τ : St} →
    t ∉ freeSets e → eval w e σ = some (v, τ) → τ.env t = σ.env t
  | .num _, _, _, _, _, h => by cases h; rfl
  | .str _, _, _, _, _, h => by cases h; rfl
  | .chr _, _, _, _, _, h => by cases h; rfl
  | .var _, _, _, _, _, h => by cases h; rfl
  | .len e, _, _, _, n, h => by
    obtain ⟨⟨a, τ1⟩, h1, h2⟩ := bind_some h
    obtain ⟨b, _, h3⟩ := map_some h2
    cases h3
    exact keeps e n h1
  | .addr e, _, _, _, n, h => keeps e n h
  | .call e, _, _, _, n, h => by
    obtain ⟨⟨a, τ1⟩, h1, h2⟩ := bind_some h
    cases h2
    have := keeps e n h1
    exact this
  | .sub a b, _, _, _, n, h => by
    obtain ⟨⟨x, τ1⟩, h1, h2⟩ := bind_some h
    obtain ⟨⟨y, τ2⟩, h3, h4⟩ := bind_some h2
    obtain ⟨z, _, h5⟩ := map_some h4
    cases h5
    simp only [freeSets, List.mem_append, not_or] at n
    exact (keeps b n.2 h3).trans (keeps a n.1 h1)
  | .sliceFrom a b, _, _, _, n, h => by
    obtain ⟨⟨x, τ1⟩, h1, h2⟩ := bind_some h
    obtain ⟨⟨y, τ2⟩, h3, h4⟩ := bind_some h2
    obtain ⟨z, _, h5⟩ := map_some h4
    cases h5
    simp only [freeSets, List.mem_append, not_or] at n
    exact (keeps b n.2 h3).trans (keeps a n.1 h1)
  | .sliceTo _ a b, _, _, _, n, h => by
    obtain ⟨⟨x, τ1⟩, h1, h2⟩ := bind_some h
    obtain ⟨⟨y, τ2⟩, h3, h4⟩ := bind_some h2
    obtain ⟨z, _, h5⟩ := map_some h4
    cases h5
    simp only [freeSets, List.mem_append, not_or] at n
    exact (keeps b n.2 h3).trans (keeps a n.1 h1)
  | .seq a b, _, _, _, n, h => by
    obtain ⟨⟨x, τ1⟩, h1, h2⟩ := bind_some h
    simp only [freeSets, List.mem_append, not_or] at n
    exact (keeps b n.2 h2).trans (keeps a n.1 h1)
  | .letIn _ x a b, σ, _, _, n, h => by
    obtain ⟨⟨u, τ1⟩, h1, h2⟩ := bind_some h
    obtain ⟨⟨y, τ2⟩, h3, h4⟩ := map_some h2
    cases h4
    simp only [freeSets, List.mem_append, not_or, List.mem_filter, bne_iff_ne, not_and] at n
    by_cases g : t = x
    · subst g
      rw [set_self]
      exact keeps a n.1 h1
    · rw [set_other _ g, keeps b (fun m => n.2 m g) h3, set_other _ g]
      exact keeps a n.1 h1
  | .set x e, _, _, _, n, h => by
    obtain ⟨⟨a, τ1⟩, h1, h2⟩ := bind_some h
    cases h2
    simp only [freeSets, List.mem_cons, not_or] at n
    rw [set_other _ n.1]
    exact keeps e n.2 h1

theorem freeSets_sets (x : Name) : (e : Expr) → x ∉ sets e → x ∉ freeSets e := by
  intro e
  induction e <;> simp_all [sets, freeSets]

/-! ### Slices -/

/-- The value of a pattern. -/
def patVal (σ : St) : Expr → Option (List Nat)
  | .str bs | .chr bs => some bs
  | .var x => match σ.env x with
    | .str bs => some bs
    | .num _ => none
  | _ => none

theorem patVal_eval {w : World} {p : Expr} (h : plain p = true) {σ τ : St} {bs : List Nat}
    (e : eval w p σ = some (.str bs, τ)) : τ = σ ∧ patVal σ p = some bs := by
  cases p with
  | var x =>
    simp only [eval, Option.some.injEq, Prod.mk.injEq] at e
    obtain ⟨h1, rfl⟩ := e
    exact ⟨rfl, by simp only [patVal, h1]⟩
  | _ => simp_all [plain, eval, patVal]

theorem eval_patVal {w : World} {p : Expr} {σ : St} {bs : List Nat} (h : patVal σ p = some bs) :
    eval w p σ = some (.str bs, σ) := by
  cases p <;> simp_all [eval, patVal]
  split at h
  · next g => rw [g]; simpa using h
  · cases h

theorem eqLen_eval {w : World} {p : Expr} {sh : List Name} {a : Expr} {σ : St} {bs : List Nat}
    (h : eqLen p sh a = true) (g : (mentioned p).all (!sh.contains ·) = true → patVal σ p = some bs)
    (l : ∀ n, constLen p = some n → n = bs.length) : eval w a σ = some (.num bs.length, σ) := by
  cases a <;> simp only [eqLen, Bool.false_eq_true] at h
  · have := l _ (by simpa using h)
    simp [eval, this]
  · simp only [Bool.and_eq_true, beq_iff_eq] at h
    obtain ⟨⟨_, rfl⟩, h⟩ := h
    simp [eval, eval_patVal (g h), length]

/-- What is left. -/
def rest (k : Kind) (s p : List Nat) : List Nat :=
  match k with
  | .pre => s.drop p.length
  | .suf => s.take (s.length - p.length)

theorem isTarget_iff {t : Name} {sh : List Name} {e : Expr} (h : isTarget t sh e = true) :
    e = .var t ∧ t ∉ sh := by
  simpa [isTarget] using h

theorem slice_eval {w : World} {k : Kind} {t : Name} {p : Expr} {sh : List Name} {e : Expr} {σ : St}
    {s bs : List Nat} (h : isSlice k t p sh e = true) (ho : halfOpen e = true)
    (ht : t ∉ sh → σ.env t = .str s)
    (g : (mentioned p).all (!sh.contains ·) = true → patVal σ p = some bs)
    (l : ∀ n, constLen p = some n → n = bs.length) (hb : bs.length ≤ s.length) :
    eval w e σ = some (.str (rest k s bs), σ) := by
  cases k <;> cases e <;> simp only [isSlice, Bool.false_eq_true, Bool.and_eq_true] at h
  · obtain ⟨h1, h2⟩ := h
    obtain ⟨rfl, n⟩ := isTarget_iff h1
    simp [eval, eqLen_eval h2 g l, ht n, dropTo, hb, rest]
  · next c b a =>
    obtain ⟨h1, h2⟩ := h
    obtain ⟨rfl, n⟩ := isTarget_iff h1
    cases a with
    | sub x r =>
      cases x with
      | len y =>
        simp only [suffixEnd, Bool.and_eq_true] at h2
        obtain ⟨h3, h4⟩ := h2
        obtain ⟨rfl, _⟩ := isTarget_iff h3
        simp only [halfOpen, Bool.and_eq_true, Bool.not_eq_true'] at ho
        simp [eval, eqLen_eval h4 g l, ht n, takeTo, hb, rest, length, minus, ho.1.1]
      | _ => simp [suffixEnd] at h2
    | _ => simp [suffixEnd] at h2

theorem strip_eval {w : World} {k : Kind} {t : Name} {p : Expr} {sh : List Name} {e : Expr} {σ : St}
    {s bs : List Nat} (h : isStrip k t p sh e = true) (ho : halfOpen e = true)
    (ht : t ∉ sh → σ.env t = .str s)
    (g : (mentioned p).all (!sh.contains ·) = true → patVal σ p = some bs)
    (l : ∀ n, constLen p = some n → n = bs.length) (hb : bs.length ≤ s.length) :
    eval w e σ = some (.str (rest k s bs), σ) := by
  cases e with
  | addr e => exact slice_eval (e := e) h ho ht g l hb
  | _ => exact slice_eval h ho ht g l hb

theorem has_le {k : Kind} {s p : List Nat} (h : has k s p = true) : p.length ≤ s.length := by
  cases k
  · exact (List.isPrefixOf_iff_prefix.mp h).length_le
  · exact (List.isSuffixOf_iff_suffix.mp h).length_le

theorem strip_rest {k : Kind} {s p : List Nat} (h : has k s p = true) : strip k s p = some (rest k s p) := by
  cases k <;> simp_all [has, strip, rest]

theorem strip_none {k : Kind} {s p : List Nat} (h : ¬ has k s p = true) : strip k s p = none := by
  cases k <;> simp_all [has, strip]

/-! ### Declarations of the name -/

/-- Every declaration of the name is by a slice. -/
def onlyLet (k : Kind) (t : Name) (p : Expr) (x : Name) (sh : List Name) : Expr → Prop
  | .num _ | .str _ | .chr _ | .var _ => True
  | .len e | .addr e | .call e | .set _ e => onlyLet k t p x sh e
  | .sub a b | .sliceFrom a b | .sliceTo _ a b | .seq a b => onlyLet k t p x sh a ∧ onlyLet k t p x sh b
  | .letIn _ y a b => (y = x → isStrip k t p sh a = true) ∧ onlyLet k t p x sh a ∧ onlyLet k t p x (y :: sh) b

theorem onlyLet_zero {k : Kind} {t : Name} {p : Expr} {x : Name} : (e : Expr) → {sh : List Name} →
    bindings x e = 0 → onlyLet k t p x sh e
  | .num _, _, _ | .str _, _, _ | .chr _, _, _ | .var _, _, _ => trivial
  | .len e, _, h | .addr e, _, h | .call e, _, h | .set _ e, _, h => onlyLet_zero e h
  | .sub a b, _, h | .sliceFrom a b, _, h | .sliceTo _ a b, _, h | .seq a b, _, h =>
    ⟨onlyLet_zero a (Nat.eq_zero_of_add_eq_zero_right h), onlyLet_zero b (Nat.eq_zero_of_add_eq_zero_left h)⟩
  | .letIn _ y a b, _, h => by
    simp only [bindings] at h
    refine ⟨fun g => ?_, onlyLet_zero a (by omega), onlyLet_zero b (by omega)⟩
    subst g
    simp only [beq_self_eq_true, if_true] at h
    omega

theorem first_bound {k : Kind} {t : Name} {p : Expr} {x : Name} : (e : Expr) → {sh : List Name} →
    first k t p sh e = some (some x) → 1 ≤ bindings x e ∧ (bindings x e = 1 → onlyLet k t p x sh e)
  | .num _, _, h | .str _, _, h | .chr _, _, h | .var _, _, h => nomatch h
  | .len e, _, h | .call e, _, h | .set _ e, _, h => first_bound e h
  | .addr e, _, h => by
    simp only [first] at h
    split at h
    · cases h
    · exact first_bound e h
  | .sub a b, _, h => two a b h (first_bound a) (first_bound b)
  | .seq a b, _, h => two a b h (first_bound a) (first_bound b)
  | .sliceFrom a b, _, h => by
    simp only [first] at h
    split at h
    · cases h
    · exact two a b h (first_bound a) (first_bound b)
  | .sliceTo _ a b, _, h => by
    simp only [first] at h
    split at h
    · cases h
    · exact two a b h (first_bound a) (first_bound b)
  | .letIn m y a b, sh, h => by
    simp only [first] at h
    split at h
    · next g =>
      cases m
      · simp only [Bool.false_eq_true, if_false, Option.some.injEq] at h
        subst h
        simp only [bindings, beq_self_eq_true, if_true]
        exact ⟨by omega, fun n => ⟨fun _ => g, onlyLet_zero a (by omega), onlyLet_zero b (by omega)⟩⟩
      · simp at h
    · next g =>
      have key : 1 ≤ bindings x a + bindings x b ∧
          (bindings x a + bindings x b = 1 → onlyLet k t p x sh a ∧ onlyLet k t p x (y :: sh) b) := by
        cases fa : first k t p sh a with
        | some r =>
          rw [fa] at h
          simp only [orElse, Option.some.injEq] at h
          subst h
          have ha := first_bound a fa
          exact ⟨by omega, fun n => ⟨ha.2 (by omega), onlyLet_zero b (by omega)⟩⟩
        | none =>
          rw [fa] at h
          have hb := first_bound b (sh := y :: sh) h
          exact ⟨by omega, fun n => ⟨onlyLet_zero a (by omega), hb.2 (by omega)⟩⟩
      simp only [bindings]
      refine ⟨by omega, fun n => ⟨fun e => ?_, key.2 (by omega)⟩⟩
      subst e
      simp only [beq_self_eq_true, if_true] at n
      omega
where
  two {sh : List Name} (a b : Expr)
      (h : orElse (first k t p sh a) (first k t p sh b) = some (some x))
      (ia : first k t p sh a = some (some x) → 1 ≤ bindings x a ∧ (bindings x a = 1 → onlyLet k t p x sh a))
      (ib : first k t p sh b = some (some x) → 1 ≤ bindings x b ∧ (bindings x b = 1 → onlyLet k t p x sh b)) :
      1 ≤ bindings x a + bindings x b ∧
        (bindings x a + bindings x b = 1 → onlyLet k t p x sh a ∧ onlyLet k t p x sh b) := by
    cases fa : first k t p sh a with
    | some r =>
      rw [fa] at h
      simp only [orElse, Option.some.injEq] at h
      subst h
      have ha := ia fa
      exact ⟨by omega, fun n => ⟨ha.2 (by omega), onlyLet_zero b (by omega)⟩⟩
    | none =>
      rw [fa] at h
      have hb := ib h
      exact ⟨by omega, fun n => ⟨onlyLet_zero a (by omega), hb.2 (by omega)⟩⟩

end Verif.Strip
