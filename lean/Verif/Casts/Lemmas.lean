import Verif.Casts.Spec
import Verif.Consts.Lemmas

/-! Facts about the values of expressions. -/

namespace Verif.Casts
open Verif.RInt

theorem bitLen_lt (c : Nat) : c < 2 ^ bitLen c := by
  unfold bitLen
  split
  · next h => subst h; decide
  · exact Nat.lt_log2_self

theorem bitLen_le {c : Nat} (h : c ≠ 0) : 2 ^ (bitLen c - 1) ≤ c := by
  unfold bitLen
  rw [if_neg h]
  exact Nat.log2_self_le h

theorem bitLen_le_of_lt {c n : Nat} (h : c < 2 ^ n) : bitLen c ≤ n := by
  unfold bitLen
  split
  · omega
  · next h0 => exact (Nat.log2_lt h0).2 h

theorem le_bitLen {c n : Nat} (h : 2 ^ n ≤ c) : n + 1 ≤ bitLen c := by
  have := bitLen_lt c
  have := (Nat.pow_lt_pow_iff_right (a := 2) (by decide)).1 (Nat.lt_of_le_of_lt h this)
  omega

theorem it_in_nonneg {t : IT} {v : Int} (h : t.In v) (h0 : 0 ≤ v) : t.toBits v = v.toNat := by
  have hp := two_pow_pos t.bits
  have hlt : v < 2 ^ t.bits := by
    have := h.2
    unfold IT.max at this
    split at this
    · have : (2 : Int) ^ (t.bits - 1) ≤ 2 ^ t.bits := by
        have := Nat.pow_le_pow_right (n := 2) (by decide) (Nat.sub_le t.bits 1)
        exact_mod_cast this
      omega
    · omega
  unfold IT.toBits
  rw [Int.emod_eq_of_lt h0 hlt]

theorem it_unsigned {t : IT} (h : t.signed = false) {v : Int} : t.In v ↔ 0 ≤ v ∧ v < 2 ^ t.bits := by
  simp [IT.In, IT.min, IT.max, h]; omega

theorem it_signed {t : IT} (h : t.signed = true) {v : Int} : t.In v ↔ -(2 ^ (t.bits - 1)) ≤ v ∧ v < 2 ^ (t.bits - 1) := by
  simp [IT.In, IT.min, IT.max, h]; omega

theorem checked_ok {t : IT} {v w : Int} (h : t.checked v = .ok w) : w = v ∧ t.In v := by
  unfold IT.checked at h
  split at h
  · next hi => cases h; exact ⟨rfl, hi⟩
  · cases h

/-- Between 0 and a value of the type. -/
theorem in_of_between {t : IT} (h0 : t.min ≤ 0) (h1 : 0 ≤ t.max) {x v : Int} (hx : t.In x)
    (h : (0 ≤ v ∧ v ≤ x) ∨ (x ≤ v ∧ v ≤ 0)) : t.In v := by
  obtain ⟨a, b⟩ := hx
  constructor <;> omega

theorem it_zero (t : IT) : t.min ≤ 0 ∧ 0 ≤ t.max := by
  have := two_pow_pos (t.bits - 1)
  have := two_pow_pos t.bits
  unfold IT.min IT.max
  constructor <;> split <;> omega

theorem div_ok {t : IT} {x y v : Int} (h : t.div x y = .ok v) : y ≠ 0 ∧ v = x.tdiv y ∧ t.In v := by
  unfold IT.div at h
  split at h
  · cases h
  · next hy =>
    obtain ⟨e, hi⟩ := checked_ok h
    exact ⟨hy, e, e ▸ hi⟩

theorem rem_ok {t : IT} {x y v : Int} (h : t.rem x y = .ok v) : y ≠ 0 ∧ v = x.tmod y := by
  unfold IT.rem at h
  split at h
  · cases h
  · next hy =>
    split at h
    · cases h; exact ⟨hy, rfl⟩
    · cases h

theorem shr_ok {t : IT} {x y v : Int} (h : t.shr x y = .ok v) : 0 ≤ y ∧ y < t.bits ∧ v = x / 2 ^ y.toNat := by
  unfold IT.shr at h
  split at h
  · next hy => cases h; exact ⟨hy.1, hy.2, rfl⟩
  · cases h

/-- The remainder is between 0 and the dividend. -/
theorem tmod_between (x y : Int) : (0 ≤ x.tmod y ∧ x.tmod y ≤ x) ∨ (x ≤ x.tmod y ∧ x.tmod y ≤ 0) := by
  have hn : (x.tmod y).natAbs ≤ x.natAbs := by
    rw [Int.natAbs_tmod]; exact Nat.mod_le _ _
  rcases Int.le_total 0 x with h | h
  · have := Int.tmod_nonneg y h
    omega
  · obtain ⟨z, rfl⟩ : ∃ z, x = -z := ⟨-x, by omega⟩
    have hz : 0 ≤ z := by omega
    have h1 := Int.tmod_nonneg y hz
    rw [Int.neg_tmod] at hn ⊢
    omega

theorem shr_between (x : Int) (k : Nat) : (0 ≤ x / 2 ^ k ∧ x / 2 ^ k ≤ x) ∨ (x ≤ x / 2 ^ k ∧ x / 2 ^ k < 0) := by
  have hp := two_pow_pos k
  rcases Int.lt_or_le x 0 with h | h
  · right
    refine ⟨?_, Int.ediv_neg_of_neg_of_pos h hp⟩
    rw [Int.le_ediv_iff_mul_le hp]
    have : x * 2 ^ k ≤ x * 1 := Int.mul_le_mul_of_nonpos_left (by omega) (by omega)
    omega
  · left
    exact ⟨Int.ediv_nonneg h (by omega), Int.ediv_le_self _ h⟩

/-- The value of an expression is a value of its type. -/
theorem ev_in {p : Nat} {e : E} {v : Int} (ht : e.Typed p) (h : Ev p e v) : (e.ty.it p).In v := by
  induction h with
  | atom h => exact h
  | lit => exact ht.2
  | @cast ty e v _ _ => 
    have := ht.1.1
    exact IT.wrap_in (ty.it p) (by simp only [ITy.it]; omega) _
  | block _ ih => exact ih ht
  | locl _ ih => exact ih ht
  | @bin op a b x y v _ _ hr ih1 ih2 =>
    have hx := ih1 ht.1
    obtain ⟨z0, z1⟩ := it_zero (a.ty.it p)
    have hpos : 0 < (a.ty.it p).bits := by have := ht.2.2.1.1; simp only [ITy.it]; omega
    simp only [E.ty]
    cases op <;> simp only [Op.run] at hr
    · obtain ⟨e, hi⟩ := checked_ok hr; rw [e]; exact hi
    · obtain ⟨e, hi⟩ := checked_ok hr; rw [e]; exact hi
    · exact (div_ok hr).2.2
    · rw [(rem_ok hr).2]
      exact in_of_between z0 z1 hx (tmod_between x y)
    · rw [hr]; exact IT.ofBits_in _ hpos _
    · rw [(shr_ok hr).2.2]
      rcases shr_between x y.toNat with h | h
      · exact in_of_between z0 z1 hx (.inl h)
      · exact in_of_between z0 z1 hx (.inr ⟨h.1, by omega⟩)
    · exact hr
  | @call0 ty m a x v _ hr ih =>
    obtain ⟨h1, h2, h3, h4, _⟩ := ht
    have hx := ih h2
    obtain ⟨z0, z1⟩ := it_zero (ty.it p)
    have sm : m.sameRes = true → (ty.it p).In x := fun h => h3 h ▸ hx
    simp only [E.ty]
    have sq : ∀ w : Int, (ty.it p).In x → 0 ≤ x ∧ 0 ≤ w ∧ w * w ≤ x ∧ x < (w + 1) * (w + 1) → (ty.it p).In w := by
      intro w hx ⟨a, b, c, d⟩
      refine in_of_between z0 z1 hx (.inl ⟨b, ?_⟩)
      rcases Int.lt_or_le 0 w with h | h
      · have : w * 1 ≤ w * w := Int.mul_le_mul_of_nonneg_left (by omega) (by omega)
        omega
      · omega
    cases m <;> simp only [Meth.run0] at hr <;> try exact hr
    · rw [hr]
      have := h4 rfl
      have hw := h1.1
      rw [it_signed (by simp [ITy.it, this])]
      have hp : (2 : Int) ^ 1 ≤ 2 ^ ((ty.it p).bits - 1) := by
        have := Nat.pow_le_pow_right (n := 2) (by decide) (show 1 ≤ (ty.it p).bits - 1 by simp only [ITy.it]; omega)
        exact_mod_cast this
      rcases Int.lt_trichotomy x 0 with h | h | h
      · rw [Int.sign_eq_neg_one_of_neg h]; omega
      · rw [h, Int.sign_zero]; omega
      · rw [Int.sign_eq_one_of_pos h]; omega
    · exact hr.2
    · rw [hr]
      constructor
      · have : (0 : Int) ≤ x.natAbs := by omega
        omega
      · omega
    · exact sq v (sm rfl) hr
    · exact sq v (sm rfl) hr
    · rw [hr]; exact sm rfl
    · rw [hr]; exact sm rfl
    · rw [hr]; exact sm rfl
  | @call1 ty m a b x y v _ _ hr ih1 ih2 =>
    obtain ⟨h1, h2, h3, h4, h5, h6, h7⟩ := ht
    have hx := ih1 h2
    have hy := ih2 h3
    obtain ⟨z0, z1⟩ := it_zero (ty.it p)
    simp only [E.ty]
    have em : y ≠ 0 → (ty.it p).In y → (ty.it p).In (x % y) := by
      intro hy0 hy
      have e1 := Int.emod_nonneg x hy0
      have e2 := Int.emod_lt x hy0
      cases hs : (ty.it p).signed
      · rw [it_unsigned hs] at hy ⊢; omega
      · rw [it_signed hs] at hy ⊢; omega
    cases m <;> simp only [Meth.run1] at hr <;> try exact hr
    · rw [hr]
      have hx' := h4 rfl ▸ hx
      have hy' := h5 rfl ▸ hy
      obtain ⟨l, u⟩ := hx'
      obtain ⟨l', u'⟩ := hy'
      constructor <;> omega
    · exact hr.2.2
    · rw [hr.2]; constructor <;> omega
    · exact hr.2.2
    · rw [hr.2]; exact em hr.1 (h5 rfl ▸ hy)
    · rw [hr.2]; exact em hr.1 (h5 rfl ▸ hy)
    · rw [hr.2]; exact em hr.1 (h5 rfl ▸ hy)
  | expect _ ih => 
    have := ih ht.2.1
    rwa [ht.2.2.2.1 rfl] at this
  | @call2 ty m a b c x y z v _ _ _ hr ih1 ih2 ih3 =>
    obtain ⟨h1, h2, h3, h4, h5, h6, _⟩ := ht
    simp only [E.ty]
    cases m <;> simp only [Meth.run2] at hr <;> try exact hr
    have hy := (h6 rfl).1 ▸ ih2 h3
    have hz := (h6 rfl).2 ▸ ih3 h4
    rw [hr.2]
    obtain ⟨l, u⟩ := hy
    obtain ⟨l', u'⟩ := hz
    constructor <;> omega

theorem ty_ok {p : Nat} {e : E} (ht : e.Typed p) : e.ty.Ok p := by
  induction e with
  | atom => exact ht
  | lit => exact ht.1
  | str => exact ⟨Nat.le_refl 8, (by decide : 8 ≤ 128)⟩
  | cast => exact ht.1
  | block e ih => exact ih ht
  | locl e ih => exact ih ht
  | bin => exact ht.2.2.1
  | call0 => exact ht.1
  | call1 => exact ht.1
  | call2 => exact ht.1

end Verif.Casts
