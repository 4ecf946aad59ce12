import Verif.Modulo.Model

/-!
# Properties: remainders of numbers with signs
-/

namespace Verif.Modulo
open Verif.RInt

/-! ## Remainders -/

theorem same_sign (a b : Int) (h : (a < 0) ↔ (b < 0)) : a.tmod b = a.fmod b := by
  by_cases ha : a < 0
  · have hb := h.1 ha
    have e1 : a = - (-a) := by omega
    have e2 : b = - (-b) := by omega
    have key := Int.fmod_eq_tmod_of_nonneg (a := -a) (b := -b) (by omega) (by omega)
    rw [e1, e2, Int.neg_tmod, Int.tmod_neg, Int.neg_fmod_neg, key, Int.tmod_neg]
  · have hb : ¬ b < 0 := fun k => ha (h.2 k)
    exact (Int.fmod_eq_tmod_of_nonneg (by omega) (by omega)).symm

theorem zero_iff (a b : Int) : a.tmod b = 0 ↔ a.fmod b = 0 := by
  rw [← Int.dvd_iff_tmod_eq_zero, ← Int.dvd_iff_fmod_eq_zero]

/-- With different signs the remainders differ, unless there is none. -/
theorem other_sign (a b : Int) (h : ¬ ((a < 0) ↔ (b < 0))) (hd : ¬ b ∣ a) (hb : b ≠ 0) : a.tmod b ≠ a.fmod b := by
  rw [Int.fmod_eq_tmod]
  have hnd : ¬ (b ∣ a) := hd
  split
  · rename_i k; exact absurd k hnd
  · by_cases h1 : 0 ≤ a <;> by_cases h2 : 0 ≤ b <;> simp only [h1, h2, if_true, if_false] <;> omega

theorem bits_zero (t : IT) (h0 : 0 < t.bits) (v : Int) (hv : t.In v) (h : t.toBits v = 0) : v = 0 := by
  have e := IT.ofBits_toBits t h0 hv
  rw [h] at e
  rw [← e]
  simp [IT.ofBits]

/-! ## What is not reported -/

theorem zero_fits (t : Ty) (ht : t.Integer) (v : Int) (hv : t.Has v) (k : Option Const) (hk : Fits t v k) (hz : isZero k = true) : v = 0 := by
  have hk' : k = some (.int 0) := by
    unfold isZero at hz
    split at hz
    · rfl
    · cases hz
  rw [hk'] at hk
  cases t with
  | int w => exact bits_zero ⟨true, w⟩ ht.1 v hv hk.symm
  | uint w => exact bits_zero ⟨false, w⟩ ht.1 v hv hk.symm
  | float => cases ht
  | ref t => cases ht
  | other => cases ht

theorem used_cases (r : Option Around) (h : usedWithZero r = true) :
    ∃ p, r = some p ∧ (p.op = .eq ∨ p.op = .ne) ∧ (isZero p.self = true ∨ isZero p.oth = true) := by
  unfold usedWithZero at h
  split at h
  · rename_i l s o
    refine ⟨_, rfl, Or.inl rfl, ?_⟩
    rw [Bool.or_eq_true] at h
    cases l
    · exact h.symm
    · exact h
  · rename_i l s o
    refine ⟨_, rfl, Or.inr rfl, ?_⟩
    rw [Bool.or_eq_true] at h
    cases l
    · exact h.symm
    · exact h
  · cases h

theorem unsigned_nonneg (w : Nat) (v : Int) (h : IT.In ⟨false, w⟩ v) : ¬ v < 0 := by
  have : (0 : Int) ≤ v := h.1
  omega

/-- What is known of the sign of an operand. -/
theorem analyze_sign (t : Ty) (ht : t.Integer) (v : Int) (hv : t.Has v) (k : Option Const) (hk : Fits t v k) (i : Info)
    (h : analyze t k = some i) : (i.isNegative = true ↔ v < 0) ∧ i.isIntegral = true ∧ (∀ n, i.text = some n → n = v) := by
  match k, hk, h with
  | none, _, h => cases h
  | some (.float n), hk, _ => cases hk
  | some .other, hk, _ => cases hk
  | some (.int b), hk, h =>
    cases t with
    | int w =>
      cases h
      have hk : b = IT.toBits ⟨true, w⟩ v := hk
      have e : Consts.sextW w b = v := by rw [hk]; exact Consts.sextW_toBits ht.1 ht.2 hv
      simp only [e, decide_eq_true_eq, Option.some.injEq]
      exact ⟨trivial, trivial, fun n hn => hn.symm⟩
    | uint w =>
      cases h
      exact ⟨⟨(fun h => by cases h), fun h => absurd h (unsigned_nonneg w v hv)⟩, rfl, (fun n hn => by cases hn)⟩
    | float => cases ht
    | ref t => cases ht
    | other => cases ht

theorem seen_same (e : Rem) (z m n : Int) (h : m = n) : e.seen z m = e.seen z n := by rw [h]

/-- When nothing is reported for integers, the program sees the same whatever sign remainders have. -/
theorem silent_same_partial (g : Bool) (e : Rem) (ht : e.ty.Integer) (hl : e.lhs.ty = e.ty) (h : check g e = .silent) (a b z : Int) (hc : e.Can a b z) :
    e.seen z (a.tmod b) = e.seen z (a.fmod b) := by
  unfold check at h
  by_cases hz : (g && usedWithZero e.around) = true
  · rw [Bool.and_eq_true] at hz
    obtain ⟨p, hp, ho, hk⟩ := used_cases _ hz.2
    rcases hk with hk | hk
    · obtain ⟨h1, h2⟩ := hc.self p hp
      have e1 := zero_fits e.ty ht _ h1 _ h2 hk
      apply seen_same
      rw [e1, (zero_iff a b).1 e1]
    · obtain ⟨h1, h2⟩ := hc.oth p hp
      have e1 := zero_fits e.ty ht _ h1 _ h2 hk
      subst e1
      have hd : decide (a.tmod b = 0) = decide (a.fmod b = 0) := by
        rw [decide_eq_decide]; exact zero_iff a b
      have hn : decide (a.tmod b ≠ 0) = decide (a.fmod b ≠ 0) := by
        rw [decide_eq_decide]; exact not_congr (zero_iff a b)
      obtain ⟨op, l, s, o⟩ := p
      rcases ho with ho | ho
      · simp only at ho
        subst ho
        simp only [Rem.seen, hp, hd]
      · simp only at ho
        subst ho
        simp only [Rem.seen, hp, hn]
  · rw [if_neg hz] at h
    apply seen_same
    apply same_sign
    have nonconst : checkNonConst e.lhs.ty = .silent → (a < 0 ↔ b < 0) := by
      intro h
      rw [hl] at h
      have h1 := hc.lhs
      have h2 := hc.rhs
      generalize e.ty = t at h ht h1 h2
      cases t with
      | int w => cases h
      | uint w =>
        have := unsigned_nonneg w a h1
        have := unsigned_nonneg w b h2
        omega
      | float => cases ht
      | ref t => cases ht
      | other => cases ht
    cases hA : analyze e.ty e.lhs.known with
    | none => rw [hA] at h; exact nonconst h
    | some i =>
      cases hB : analyze e.ty e.rhs.known with
      | none => rw [hA, hB] at h; exact nonconst h
      | some j =>
        rw [hA, hB] at h
        have s1 := (analyze_sign e.ty ht a hc.lhs _ hc.knownL i hA).1
        have s2 := (analyze_sign e.ty ht b hc.rhs _ hc.knownR j hB).1
        simp only [checkConst] at h
        rw [← s1, ← s2]
        cases hi : i.isNegative <;> cases hj : j.isNegative <;> rw [hi, hj] at h
        · exfalso
          revert h
          show (match i.text, j.text with
            | some a, some b => Outcome.report ⟨some (a, b), i.isIntegral⟩
            | _, _ => .panic) = .silent → False
          split <;> (intro h; cases h)
        · exfalso
          revert h
          show (match i.text, j.text with
            | some a, some b => Outcome.report ⟨some (a, b), i.isIntegral⟩
            | _, _ => .panic) = .silent → False
          split <;> (intro h; cases h)

/-- Nothing is reported for unsigned integers. -/
theorem unsigned_silent (g : Bool) (e : Rem) (w : Nat) (ht : e.ty = .uint w) (hl : e.lhs.ty = e.ty) (a b z : Int) (hc : e.Can a b z) : check g e = .silent := by
  have hf : ∀ v k i, Fits e.ty v k → analyze e.ty k = some i → i.isNegative = false := by
    intro v k i hk h
    rw [ht] at hk h
    match k, hk, h with
    | none, _, h => cases h
    | some (.float n), hk, _ => cases hk
    | some .other, hk, _ => cases hk
    | some (.int b), _, h => cases h; rfl
  unfold check
  by_cases hz : (g && usedWithZero e.around) = true
  · rw [if_pos hz]
  · rw [if_neg hz]
    cases hA : analyze e.ty e.lhs.known with
    | none => simp only [hl, ht]; rfl
    | some i =>
      cases hB : analyze e.ty e.rhs.known with
      | none => simp only [hl, ht]; rfl
      | some j =>
        simp only [checkConst, hf a _ i hc.knownL hA, hf b _ j hc.knownR hB]
        rfl

/-! ## What is reported -/

/-- For constants a report says which they are and that their signs differ; there is no panic. -/
theorem report_consts (g : Bool) (e : Rem) (ht : e.ty.Integer) (a b z : Int) (hc : e.Can a b z) :
    check g e ≠ .panic ∧ ∀ r p, check g e = .report r → r.consts = some p → p = (a, b) ∧ ¬ (a < 0 ↔ b < 0) ∧ r.euclid = true := by
  unfold check
  by_cases hz : (g && usedWithZero e.around) = true
  · rw [if_pos hz]
    exact ⟨(fun h => by cases h), (fun r p h => by cases h)⟩
  · rw [if_neg hz]
    have nonconst : checkNonConst e.lhs.ty ≠ .panic ∧ ∀ r p, checkNonConst e.lhs.ty = .report r → r.consts = some p →
        p = (a, b) ∧ ¬ (a < 0 ↔ b < 0) ∧ r.euclid = true := by
      unfold checkNonConst
      split
      · refine ⟨(fun h => by cases h), fun r p h k => ?_⟩
        cases h
        cases k
      · exact ⟨(fun h => by cases h), (fun r p h => by cases h)⟩
    cases hA : analyze e.ty e.lhs.known with
    | none => exact nonconst
    | some i =>
      cases hB : analyze e.ty e.rhs.known with
      | none => exact nonconst
      | some j =>
        obtain ⟨s1, k1, t1⟩ := analyze_sign e.ty ht a hc.lhs _ hc.knownL i hA
        obtain ⟨s2, _, t2⟩ := analyze_sign e.ty ht b hc.rhs _ hc.knownR j hB
        simp only [checkConst]
        by_cases hx : (i.isNegative ^^ j.isNegative) = true
        · rw [if_pos hx]
          have hne : ¬ (a < 0 ↔ b < 0) := by
            rw [← s1, ← s2]
            cases hi : i.isNegative <;> cases hj : j.isNegative <;> rw [hi, hj] at hx <;> simp at hx ⊢
          obtain ⟨ti, ni, ii⟩ := i
          obtain ⟨tj, nj, ij⟩ := j
          simp only at *
          have texts : (∃ n, ti = some n) ∧ (∃ n, tj = some n) := by
            have hint : ∃ w, e.ty = .int w := by
              cases hty : e.ty with
              | int w => exact ⟨w, rfl⟩
              | uint w =>
                have h1 := hc.lhs
                have h2 := hc.rhs
                rw [hty] at h1 h2
                have := unsigned_nonneg w a h1
                have := unsigned_nonneg w b h2
                omega
              | float => rw [hty] at ht; cases ht
              | ref t => rw [hty] at ht; cases ht
              | other => rw [hty] at ht; cases ht
            obtain ⟨w, hw⟩ := hint
            rw [hw] at hA hB
            constructor
            · revert hA
              unfold analyze
              split
              · intro h; cases h; exact ⟨_, rfl⟩
              · intro h; cases h; exact ⟨_, rfl⟩
              · intro h; cases h
            · revert hB
              unfold analyze
              split
              · intro h; cases h; exact ⟨_, rfl⟩
              · intro h; cases h; exact ⟨_, rfl⟩
              · intro h; cases h
          obtain ⟨⟨m, rfl⟩, ⟨n, rfl⟩⟩ := texts
          refine ⟨(fun h => by cases h), fun r p h hp => ?_⟩
          cases h
          cases hp
          exact ⟨by rw [t1 m rfl, t2 n rfl], hne, k1⟩
        · rw [if_neg hx]
          exact ⟨(fun h => by cases h), (fun r p h => by cases h)⟩

/-- The constants of a report have remainders that depend on the language, unless the remainder is zero. -/
theorem report_differs (g : Bool) (e : Rem) (ht : e.ty.Integer) (a b z : Int) (hc : e.Can a b z) (r : Report) (p : Int × Int)
    (h : check g e = .report r) (hp : r.consts = some p) (hb : b ≠ 0) (hd : ¬ b ∣ a) : a.tmod b ≠ a.fmod b :=
  other_sign a b ((report_consts g e ht a b z hc).2 r p h hp).2.1 hd hb

/-! ## Cases -/

/-- `-5i8 % 3`. -/
def e0 : Rem := ⟨.int 8, ⟨.int 8, some (.int 251)⟩, ⟨.int 8, some (.int 3)⟩, none⟩

theorem e0_can : e0.Can (-5) 3 0 where
  lhs := (show IT.In ⟨true, 8⟩ (-5) by decide +kernel)
  rhs := (show IT.In ⟨true, 8⟩ (3) by decide +kernel)
  knownL := (show 251 = IT.toBits ⟨true, 8⟩ (-5) by decide +kernel)
  knownR := (show 3 = IT.toBits ⟨true, 8⟩ (3) by decide +kernel)
  self := fun p h => by cases h
  oth := fun p h => by cases h

example : check true e0 = .report ⟨some (-5, 3), true⟩ ∧ (-5 : Int).tmod 3 = -2 ∧ (-5 : Int).fmod 3 = 1 := by decide +kernel

/-- `x % 2 == 0`. -/
def e1 : Rem := ⟨.int 8, ⟨.int 8, none⟩, ⟨.int 8, some (.int 2)⟩, some ⟨.eq, true, none, some (.int 0)⟩⟩

theorem e1_can : e1.Can (-5) 2 0 where
  lhs := (show IT.In ⟨true, 8⟩ (-5) by decide +kernel)
  rhs := (show IT.In ⟨true, 8⟩ (2) by decide +kernel)
  knownL := trivial
  knownR := (show 2 = IT.toBits ⟨true, 8⟩ (2) by decide +kernel)
  self := fun p h => by cases h; exact ⟨(show IT.In ⟨true, 8⟩ (Int.tmod (-5) 2) by decide +kernel), trivial⟩
  oth := fun p h => by cases h; exact ⟨(show IT.In ⟨true, 8⟩ (0) by decide +kernel), (show 0 = IT.toBits ⟨true, 8⟩ (0) by decide +kernel)⟩

example : check true e1 = .silent ∧ check false e1 = .report ⟨none, true⟩ ∧ e1.ty.Integer := by
  exact ⟨by decide +kernel, by decide +kernel, (show 0 < 8 by decide), (show 8 ≤ 128 by decide)⟩

/-- A first operand behind a reference, `&x % 3`, is not reported although its sign matters. -/
theorem ref_missed : ∃ e : Rem, e.lhs.ty = .ref e.ty ∧ e.ty.Integer ∧ check true e = .silent ∧
    ∃ a b z, e.Can a b z ∧ e.seen z (a.tmod b) ≠ e.seen z (a.fmod b) := by
  refine ⟨⟨.int 8, ⟨.ref (.int 8), none⟩, ⟨.int 8, some (.int 3)⟩, none⟩, rfl, ⟨(show 0 < 8 by decide), (show 8 ≤ 128 by decide)⟩, by decide +kernel, -5, 3, 0, ?_, by decide +kernel⟩
  exact ⟨(show IT.In ⟨true, 8⟩ (-5) by decide +kernel), (show IT.In ⟨true, 8⟩ (3) by decide +kernel), trivial, (show 3 = IT.toBits ⟨true, 8⟩ (3) by decide +kernel), (fun p h => by cases h), (fun p h => by cases h)⟩

/-- Constants that divide each other are reported although the remainder is zero in every language. -/
theorem no_remainder : check true ⟨.int 8, ⟨.int 8, some (.int 252)⟩, ⟨.int 8, some (.int 2)⟩, none⟩ = .report ⟨some (-4, 2), true⟩ ∧
    (-4 : Int).tmod 2 = (-4 : Int).fmod 2 := by decide +kernel

end Verif.Modulo
