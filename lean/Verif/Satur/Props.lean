import Verif.Satur.Model

/-!
# Manual saturating arithmetic (C119)
-/

namespace Verif.Satur

variable {K : Nat → Int}

theorem vals (t : Ty) : (Model.maxval t : Int) = t.max ∧ (Model.minval t : Int) = (if t.signed then 2 ^ (t.width.bits - 1) else 0) := by
  obtain ⟨s, w⟩ := t
  cases s <;> cases w <;> decide +kernel

theorem min_neg (t : Ty) (h : t.signed = true) : t.min = -(2 ^ (t.width.bits - 1)) := by simp [Ty.min, h]

theorem bounds (t : Ty) : t.min ≤ 0 ∧ 0 < t.max := by
  obtain ⟨s, w⟩ := t
  cases s <;> cases w <;> decide +kernel

/-- The literal is the negated largest value. -/
def NegMax (t : Ty) (e : Expr) : Prop := ∃ n : Nat, e = .neg n ∧ (n : Int) = t.max

/-- `max_value()` and `min_value()` are those of the type. -/
def Own : Expr → Prop
  | .maxValue own _ | .minValue own _ => own = true
  | _ => True

theorem minOrMax_right {t : Ty} {e : Expr} {m : Model.MinMax} (h : Model.isMinOrMax t e = some m) (hn : t.signed = true → ¬ NegMax t e)
    (ho : Own e) : e.val K t = match m with | .min => t.min | .max => t.max := by
  obtain ⟨hmax, hmin⟩ := vals t
  cases e with
  | maxValue own k => cases h; simp only [Own] at ho; rw [ho]; rfl
  | minValue own k => cases h; simp only [Own] at ho; rw [ho]; rfl
  | maxConst => cases h; rfl
  | minConst => cases h; rfl
  | other k => cases h
  | lit n =>
    simp only [Model.isMinOrMax, Model.checkLit] at h
    split at h
    · rename_i hv; cases h; simp only [Expr.val]; rw [hv, hmax]
    · split at h
      · rename_i hv
        cases h
        simp only [Bool.and_eq_true, Bool.not_eq_true', beq_iff_eq] at hv
        rw [hv.1] at hmin
        simp only [Expr.val, Ty.min, hv.1]
        rw [hv.2, hmin]
        rfl
      · cases h
  | neg n =>
    simp only [Model.isMinOrMax] at h
    split at h
    · rename_i hs
      simp only [Model.checkLit] at h
      split at h
      · rename_i hv; exact absurd ⟨n, rfl, by rw [hv, hmax]⟩ (hn hs)
      · split at h
        · rename_i hv
          cases h
          simp only [Bool.true_and, beq_iff_eq] at hv
          rw [if_pos hs] at hmin
          simp only [Expr.val, min_neg t hs]
          rw [hv, hmin]
        · cases h
    · cases h

theorem saturates {t : Ty} {o : Op} {a b d : Int} (h : (o.exact a b < t.min → d = t.min) ∧ (t.max < o.exact a b → d = t.max)) :
    checkedOr t o a b d = saturating t o a b := by
  unfold checkedOr saturating
  repeat' split
  all_goals first | omega | (have := bounds t; omega)

theorem allowed_right {t : Ty} {o : Op} {rhs : Expr} {m : Model.MinMax} (h : Model.allowed t o rhs m = true) {a : Int} (ha : t.Has a)
    (hb : t.Has (rhs.val K t)) :
    match m with
    | .min => ¬ t.max < o.exact a (rhs.val K t)
    | .max => ¬ o.exact a (rhs.val K t) < t.min := by
  unfold Ty.Has at ha hb
  unfold Model.allowed at h
  split at h
  · split at h
    · cases h
    · rename_i sign hsg
      have hsign : match sign with | .pos => 0 ≤ rhs.val K t | .neg => rhs.val K t ≤ 0 := by
        cases rhs <;> cases hsg <;> simp [Expr.val] <;> omega
      split at h <;> first | (exact absurd h (by decide)) | (simp only [Op.exact] at *; omega)
  · rename_i hs
    have hm : t.min = 0 := by simp [Ty.min, hs]
    rw [hm] at ha hb ⊢
    split at h
    · simp only [Op.exact]; omega
    · simp only [Op.exact]
      exact Int.not_lt.mpr (Int.mul_nonneg ha.1 hb.1)
    · simp only [Op.exact]; omega
    · cases h

/-- The saturating operation that is suggested has the value of the checked one with its default, unless the default is written as the negated
largest value, or as `max_value()` or `min_value()` of another type; see `neg_max_wrong` and `other_type_wrong`. -/
theorem saturating_partial {t : Ty} {o o' : Op} {rhs arg : Expr} (h : Model.checkUnwrapOr t o rhs arg = some o')
    (hn : t.signed = true → ¬ NegMax t arg) (ho : Own arg) {a : Int} (ha : t.Has a) (hb : t.Has (rhs.val K t)) :
    checkedOr t o a (rhs.val K t) (arg.val K t) = saturating t o' a (rhs.val K t) := by
  unfold Model.checkUnwrapOr at h
  split at h
  · cases h
  · rename_i m hm
    split at h
    · rename_i hal
      cases h
      have h1 := minOrMax_right (K := K) hm hn ho
      have h2 := allowed_right (K := K) hal ha hb
      apply saturates
      rw [h1]
      cases m
      · exact ⟨fun _ => rfl, fun hlt => absurd hlt h2⟩
      · exact ⟨fun hlt => absurd hlt h2, fun _ => rfl⟩
    · cases h

/-- So does the one suggested for `checked_sub` with `unwrap_or_default`. -/
theorem default_same {t : Ty} {o : Op} {rhs : Expr} (h : Model.checkSubDefault t rhs = some o) {a : Int} (ha : t.Has a)
    (hb : t.Has (rhs.val K t)) : checkedOr t .sub a (rhs.val K t) 0 = saturating t o a (rhs.val K t) := by
  unfold Model.checkSubDefault at h
  split at h
  · cases h
  · rename_i hs
    split at h
    · rename_i hal
      cases h
      have h2 := allowed_right (K := K) hal ha hb
      apply saturates
      have hm : t.min = 0 := by simp [Ty.min, hs]
      exact ⟨fun _ => hm.symm, fun hlt => absurd hlt h2⟩
    · cases h

/-- For every signed type, `a.checked_add(1).unwrap_or(-MAX)` with the number written out is replaced by `a.saturating_add(1)`, which is wrong
for the largest value. -/
theorem neg_max_wrong (w : Width) : ∃ arg, Model.checkUnwrapOr ⟨true, w⟩ .add (.lit 1) arg = some .add ∧
    Ty.Has ⟨true, w⟩ (arg.val K ⟨true, w⟩) ∧
    checkedOr ⟨true, w⟩ .add (Ty.max ⟨true, w⟩) 1 (arg.val K ⟨true, w⟩) ≠ saturating ⟨true, w⟩ .add (Ty.max ⟨true, w⟩) 1 := by
  refine ⟨.neg (Model.maxval ⟨true, w⟩), ?_⟩
  unfold Ty.Has
  simp only [Expr.val]
  cases w <;> decide +kernel

/-- `max_value()` of any type is taken for the largest value. -/
theorem other_type_wrong : ∃ arg t o o' rhs, Model.checkUnwrapOr t o rhs arg = some o' ∧
    ∃ (K : Nat → Int) (a : Int), t.Has a ∧ t.Has (rhs.val K t) ∧ t.Has (arg.val K t) ∧
      checkedOr t o a (rhs.val K t) (arg.val K t) ≠ saturating t o' a (rhs.val K t) := by
  refine ⟨.maxValue false 0, ⟨false, .w8⟩, .add, .add, .lit 1, by decide +kernel, fun _ => 7, 255, ?_⟩
  unfold Ty.Has
  decide +kernel

/-- All ways to write the bounds that are looked for are found. -/
theorem found {t : Ty} {o : Op} {rhs arg : Expr} {m : Int} (hm : arg.val K t = m) (hk : ∀ k, arg ≠ .other k) (ho : Own arg)
    (hs : (t.signed = false ∧ ((m = t.max ∧ (o = .add ∨ o = .mul)) ∨ (m = t.min ∧ o = .sub))) ∨
      (t.signed = true ∧ (∃ n, (rhs = .lit n ∧ ((o = .add ∧ m = t.max) ∨ (o = .sub ∧ m = t.min))) ∨
        (rhs = .neg n ∧ ((o = .add ∧ m = t.min) ∨ (o = .sub ∧ m = t.max)))))) (hz : arg ≠ .neg 0) :
    Model.checkUnwrapOr t o rhs arg = some o := by
  obtain ⟨hmax, hmin⟩ := vals t
  have hb := bounds t
  have hmm : (m = t.max → Model.isMinOrMax t arg = some .max) ∧ (m = t.min → Model.isMinOrMax t arg = some .min) := by
    cases arg with
    | other k => exact absurd rfl (hk k)
    | maxValue own k =>
      simp only [Own] at ho; subst ho
      simp only [Expr.val] at hm
      exact ⟨fun _ => rfl, fun h => absurd (hm.trans h) (by omega)⟩
    | minValue own k =>
      simp only [Own] at ho; subst ho
      simp only [Expr.val] at hm
      exact ⟨fun h => absurd (hm.trans h) (by omega), fun _ => rfl⟩
    | maxConst => simp only [Expr.val] at hm; exact ⟨fun _ => rfl, fun h => absurd (hm.trans h) (by omega)⟩
    | minConst => simp only [Expr.val] at hm; exact ⟨fun h => absurd (hm.trans h) (by omega), fun _ => rfl⟩
    | lit n =>
      simp only [Expr.val] at hm
      simp only [Model.isMinOrMax, Model.checkLit]
      constructor
      · intro h
        rw [if_pos (by omega)]
      · intro h
        rw [if_neg (by omega)]
        cases hsg : t.signed with
        | true =>
          have h1 := min_neg t hsg
          rw [hsg] at hmin
          have : t.min < 0 := by
            rw [h1]; exact Int.neg_neg_of_pos (Int.pow_pos (by decide))
          omega
        | false =>
          rw [hsg] at hmin
          have h0 : t.min = 0 := by simp [Ty.min, hsg]
          simp only [Bool.false_eq_true, if_false] at hmin
          rw [if_pos]
          simp
          omega
    | neg n =>
      simp only [Expr.val] at hm
      simp only [Model.isMinOrMax, Model.checkLit]
      constructor
      · intro h; omega
      · intro h
        cases hsg : t.signed with
        | false =>
          have h0 : t.min = 0 := by simp [Ty.min, hsg]
          have : n = 0 := by omega
          exact absurd (by rw [this]) hz
        | true =>
          have h1 := min_neg t hsg
          rw [hsg] at hmin
          simp only [if_true] at hmin ⊢
          have h2 : t.max = 2 ^ (t.width.bits - 1) - 1 := by simp [Ty.max, hsg]
          rw [if_neg (by omega), if_pos]
          simp
          omega
  unfold Model.checkUnwrapOr
  rcases hs with ⟨hsg, ⟨h, hop⟩ | ⟨h, rfl⟩⟩ | ⟨hsg, n, ⟨rfl, ⟨rfl, h⟩ | ⟨rfl, h⟩⟩ | ⟨rfl, ⟨rfl, h⟩ | ⟨rfl, h⟩⟩⟩
  · rw [hmm.1 h]; rcases hop with rfl | rfl <;> simp [Model.allowed, hsg]
  · rw [hmm.2 h]; simp [Model.allowed, hsg]
  · rw [hmm.1 h]; simp [Model.allowed, hsg, Model.litSign]
  · rw [hmm.2 h]; simp [Model.allowed, hsg, Model.litSign]
  · rw [hmm.2 h]; simp [Model.allowed, hsg, Model.litSign]
  · rw [hmm.1 h]; simp [Model.allowed, hsg, Model.litSign]

example : Model.checkUnwrapOr ⟨true, .w8⟩ .sub (.lit 1) (.neg 128) = some .sub ∧ Model.checkUnwrapOr ⟨false, .w32⟩ .mul (.other 0) (.lit 4294967295) = some .mul := by
  decide +kernel

end Verif.Satur
