import Verif.IntLints.Model

/-! C31: `min_max`. -/

namespace Verif.IntLints

/-! ### Specification -/

/-- A value that is not even equal to itself (NaN). -/
def NaN {α} (P : POrd α) (a : α) : Prop := P.cmp a a = none

/-- Any two values other than NaN are comparable: true of `Ord` types and of the float types. -/
def NearlyTotal {α} (P : POrd α) : Prop := ∀ a b, ¬ NaN P a → ¬ NaN P b → ∃ o, P.cmp a b = some o

/-- `r` is a possible result of `a.max(b)`: a NaN is ignored if the other value is not one, and otherwise the
result is one of the operands and smaller than neither (which of two equal operands is left open). -/
def IsMax {α} (P : POrd α) (a b r : α) : Prop :=
  (NaN P a ∧ r = b) ∨ (NaN P b ∧ r = a) ∨
  (¬ NaN P a ∧ ¬ NaN P b ∧ (r = a ∨ r = b) ∧ P.cmp r a ≠ some .lt ∧ P.cmp r b ≠ some .lt)

/-- `r` is a possible result of `a.min(b)`. -/
def IsMin {α} (P : POrd α) (a b r : α) : Prop :=
  (NaN P a ∧ r = b) ∨ (NaN P b ∧ r = a) ∨
  (¬ NaN P a ∧ ¬ NaN P b ∧ (r = a ∨ r = b) ∧ P.cmp r a ≠ some .gt ∧ P.cmp r b ≠ some .gt)

/-- `v` is a possible value of the expression. -/
inductive MExpr.Val {α} (P : POrd α) (ρ : Nat → α) : MExpr α → α → Prop
  | const (v) : Val P ρ (.const v) v
  | atom (i) : Val P ρ (.atom i) (ρ i)
  | max {a b va vb r} : Val P ρ a va → Val P ρ b vb → IsMax P va vb r → Val P ρ (.call .max a b) r
  | min {a b va vb r} : Val P ρ a va → Val P ρ b vb → IsMin P va vb r → Val P ρ (.call .min a b) r

/-! ### Proofs -/

theorem IsMax.comm {α} {P : POrd α} {a b r : α} (h : IsMax P a b r) : IsMax P b a r := by
  rcases h with h | h | ⟨h1, h2, h3, h4, h5⟩
  · exact .inr (.inl h)
  · exact .inl h
  · exact .inr (.inr ⟨h2, h1, h3.symm, h5, h4⟩)

theorem IsMin.comm {α} {P : POrd α} {a b r : α} (h : IsMin P a b r) : IsMin P b a r := by
  rcases h with h | h | ⟨h1, h2, h3, h4, h5⟩
  · exact .inr (.inl h)
  · exact .inl h
  · exact .inr (.inr ⟨h2, h1, h3.symm, h5, h4⟩)

theorem const_val {α} {P : POrd α} {ρ : Nat → α} {e : MExpr α} {c v : α} (h : e.const? = some c)
    (hv : e.Val P ρ v) : v = c := by
  cases hv <;> simp [MExpr.const?] at h
  exact h

def MinMax.Is {α} (P : POrd α) : MinMax → α → α → α → Prop
  | .max => IsMax P
  | .min => IsMin P

/-- What `minMax` finds, on values. -/
theorem minMax_val {α} {P : POrd α} {ρ : Nat → α} {e x : MExpr α} {m : MinMax} {c v : α}
    (h : minMax e = some (m, c, x)) (hv : e.Val P ρ v) :
    ∃ w, x.Val P ρ w ∧ m.Is P c w v := by
  unfold minMax at h
  split at h
  · rename_i m' a b
    split at h
    · rename_i c' hc _
      simp only [Option.some.injEq, Prod.mk.injEq] at h
      obtain ⟨rfl, rfl, rfl⟩ := h
      cases hv with
      | max ha hb hm => exact ⟨_, hb, const_val hc ha ▸ hm⟩
      | min ha hb hm => exact ⟨_, hb, const_val hc ha ▸ hm⟩
    · rename_i c' _ hc
      simp only [Option.some.injEq, Prod.mk.injEq] at h
      obtain ⟨rfl, rfl, rfl⟩ := h
      cases hv with
      | max ha hb hm => exact ⟨_, ha, const_val hc hb ▸ hm.comm⟩
      | min ha hb hm => exact ⟨_, ha, const_val hc hb ▸ hm.comm⟩
    · simp at h
  · simp at h

/-- NaN is comparable with nothing. -/
def NaNIncomparable {α} (P : POrd α) : Prop := ∀ a b, NaN P a → P.cmp a b = none

theorem self_eq {α} {P : POrd α} {a : α} (h : ¬ NaN P a) : P.cmp a a = some .eq := by
  cases h' : P.cmp a a with
  | none => exact absurd h' h
  | some o =>
    have := P.dual a a
    rw [h'] at this
    cases o <;> simp [Ordering.swap] at this
    rfl

/-- **C31.** When the lint says that a combination of `min` and `max` has a constant result, there is a
value to which every possible result, for all values of the other operands (including NaN for floats), is
equal. The order of the constants is the order of their values (C19). -/
theorem minMax_constant {α} (P : POrd α) (N : NearlyTotal P) (I : NaNIncomparable P) {e : MExpr α}
    (h : minMaxLint P.cmp e = true) :
    ∃ c, ∀ (ρ : Nat → α) (v : α), e.Val P ρ v → P.cmp v c = some .eq := by
  unfold minMaxLint at h
  split at h
  · rename_i om oc oe ho
    split at h
    · rename_i im ic ie hi
      split at h
      · rename_i hne
        refine ⟨oc, ?_⟩
        intro ρ v hv
        obtain ⟨w, hw, hm⟩ := minMax_val ho hv
        obtain ⟨x, hx, hm'⟩ := minMax_val hi hw
        have hord : (om = .max ∧ (P.cmp oc ic = some .eq ∨ P.cmp oc ic = some .gt)) ∨
            (om = .min ∧ (P.cmp oc ic = some .eq ∨ P.cmp oc ic = some .lt)) := by
          split at h <;> simp_all
        have hoc : ¬ NaN P oc := by
          intro hn
          have := I oc ic hn
          rcases hord with ⟨_, h | h⟩ | ⟨_, h | h⟩ <;> rw [this] at h <;> simp at h
        have hic : ¬ NaN P ic := by
          intro hn
          have := I ic oc hn
          rw [P.dual] at this
          rcases hord with ⟨_, h | h⟩ | ⟨_, h | h⟩ <;> rw [h] at this <;> simp at this
        rcases hord with ⟨rfl, hord⟩ | ⟨rfl, hord⟩
        · -- max(oc, min(ic, x)) with ic ≤ oc
          have : im = .min := by cases im <;> simp_all
          subst this
          simp only [MinMax.Is] at hm hm'
          have hwic : ¬ NaN P w ∧ (P.cmp w ic = some .lt ∨ P.cmp w ic = some .eq) := by
            rcases hm' with ⟨hn, _⟩ | ⟨_, rfl⟩ | ⟨_, hxn, hor, hle, _⟩
            · exact absurd hn hic
            · exact ⟨hic, .inr (self_eq hic)⟩
            · have hwn : ¬ NaN P w := by rcases hor with rfl | rfl <;> assumption
              obtain ⟨o, ho⟩ := N w ic hwn hic
              refine ⟨hwn, ?_⟩
              rw [ho] at hle ⊢
              cases o <;> simp at hle ⊢
          have hwoc : P.cmp w oc = some .lt ∨ P.cmp w oc = some .eq := by
            rcases hord with he | hg
            · rw [P.eq_right he]; exact hwic.2
            · rcases hwic.2 with h | h
              · exact .inl (P.lt_trans h (P.gt_iff.1 hg))
              · rw [P.eq_left h]; exact .inl (P.gt_iff.1 hg)
          rcases hm with ⟨hn, _⟩ | ⟨hn, _⟩ | ⟨_, _, hor, hge, _⟩
          · exact absurd hn hoc
          · exact absurd hn hwic.1
          · rcases hor with rfl | rfl
            · exact self_eq hoc
            · rcases hwoc with h | h
              · exact absurd h hge
              · exact h
        · have : im = .max := by cases im <;> simp_all
          subst this
          simp only [MinMax.Is] at hm hm'
          have hwic : ¬ NaN P w ∧ (P.cmp w ic = some .gt ∨ P.cmp w ic = some .eq) := by
            rcases hm' with ⟨hn, _⟩ | ⟨_, rfl⟩ | ⟨_, hxn, hor, hle, _⟩
            · exact absurd hn hic
            · exact ⟨hic, .inr (self_eq hic)⟩
            · have hwn : ¬ NaN P w := by rcases hor with rfl | rfl <;> assumption
              obtain ⟨o, ho⟩ := N w ic hwn hic
              refine ⟨hwn, ?_⟩
              rw [ho] at hle ⊢
              cases o <;> simp at hle ⊢
          have hwoc : P.cmp w oc = some .gt ∨ P.cmp w oc = some .eq := by
            rcases hord with he | hg
            · rw [P.eq_right he]; exact hwic.2
            · rcases hwic.2 with h | h
              · exact .inl (P.gt_iff.2 (P.lt_trans hg (P.gt_iff.1 h)))
              · rw [P.eq_left h]; exact .inl (P.gt_iff.2 hg)
          rcases hm with ⟨hn, _⟩ | ⟨hn, _⟩ | ⟨_, _, hor, hge, _⟩
          · exact absurd hn hoc
          · exact absurd hn hwic.1
          · rcases hor with rfl | rfl
            · exact self_eq hoc
            · rcases hwoc with h | h
              · exact absurd h hge
              · exact h
      · simp at h
    · simp at h
  · simp at h

/-- `min(1, max(3, x))` is reported; integers meet the hypotheses and the expression has a value. -/
example :
    let e : MExpr Int := .call .min (.const 1) (.call .max (.const 3) (.atom 0))
    minMaxLint intOrd.cmp e = true ∧ NearlyTotal intOrd ∧ NaNIncomparable intOrd ∧
    e.Val intOrd (fun _ => 7) 1 := by
  have nn : ∀ a : Int, ¬ NaN intOrd a := by intro a h; simp [NaN, intOrd] at h
  refine ⟨by decide, fun a b _ _ => ⟨_, rfl⟩, fun a b h => absurd h (nn a), ?_⟩
  refine .min (.const 1) (.max (r := 7) (.const 3) (.atom 0) ?_) ?_
  · exact .inr (.inr ⟨nn _, nn _, .inr rfl, by decide, by decide⟩)
  · exact .inr (.inr ⟨nn _, nn _, .inl rfl, by decide, by decide⟩)

end Verif.IntLints
