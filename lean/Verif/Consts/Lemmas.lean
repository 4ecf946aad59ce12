import Verif.Consts.Model

/-! Arithmetic of `sext`, `unsext` and `clip`. -/

namespace Verif.Consts
open Verif.RInt

theorem pow_split {w : Nat} (h : w ≤ 128) : (2 : Int) ^ w * 2 ^ (128 - w) = 2 ^ 128 := by
  rw [← Int.pow_add]; congr 1; omega

theorem npow_split {w : Nat} (h : w ≤ 128) : (2 : Nat) ^ w * 2 ^ (128 - w) = 2 ^ 128 := by
  rw [← Nat.pow_add]; congr 1; omega

theorem pow_dvd {w : Nat} (h : w ≤ 128) : (2 : Int) ^ w ∣ 2 ^ 128 := ⟨_, (pow_split h).symm⟩

theorem emod_pow {w : Nat} (h : w ≤ 128) (x : Int) : x % 2 ^ 128 % 2 ^ w = x % 2 ^ w :=
  Int.emod_emod_of_dvd _ (pow_dvd h)

/-- `sext` reads the low bits as a two's complement number. -/
theorem sextW_eq {w : Nat} (h0 : 0 < w) (h : w ≤ 128) (u : Nat) :
    sextW w u = IT.ofBits ⟨true, w⟩ u := by
  have hin := IT.ofBits_in ⟨true, w⟩ h0 u
  have hmod := IT.ofBits_emod ⟨true, w⟩ u
  generalize IT.ofBits ⟨true, w⟩ u = v at *
  have hp := two_pow_pos (128 - w)
  have key : I128.wrap (I128.wrap u * 2 ^ (128 - w)) = v * 2 ^ (128 - w) := by
    apply I128.emod_inj (by decide) (I128.wrap_in (by decide) _)
    · simp only [IT.In, IT.min, IT.max, I128, if_true] at hin ⊢
      have e : (2 : Int) ^ (128 - 1) = 2 ^ (w - 1) * 2 ^ (128 - w) := by
        rw [← Int.pow_add]; congr 1; omega
      rw [e]
      constructor
      · rw [← Int.neg_mul]
        exact Int.mul_le_mul_of_nonneg_right hin.1 (by omega)
      · have : (v + 1) * 2 ^ (128 - w) ≤ 2 ^ (w - 1) * 2 ^ (128 - w) :=
          Int.mul_le_mul_of_nonneg_right (by omega) (by omega)
        rw [Int.add_mul] at this
        omega
    · rw [I128.wrap_emod]
      have e1 : I128.wrap u % 2 ^ 128 = (u : Int) % 2 ^ 128 := I128.wrap_emod u
      show I128.wrap ↑u * 2 ^ (128 - w) % 2 ^ 128 = v * 2 ^ (128 - w) % 2 ^ 128
      have mm : ∀ a : Int, a * 2 ^ (128 - w) % 2 ^ 128 = 2 ^ (128 - w) * (a % 2 ^ w) := by
        intro a
        rw [← pow_split h, Int.mul_comm a, Int.mul_comm (2 ^ w), Int.mul_emod_mul_of_pos _ _ hp]
      rw [mm, mm]
      congr 1
      rw [← emod_pow h, e1, emod_pow h, hmod]
  rw [sextW, key, Int.mul_ediv_cancel _ (by omega)]

theorem unsextW_eq {w : Nat} (h : w ≤ 128) (x : Int) : unsextW w x = (x % 2 ^ w).toNat := by
  have hp := Nat.two_pow_pos (128 - w)
  have h0 := Int.emod_nonneg x (Int.ne_of_gt (two_pow_pos 128))
  have h1 := Int.emod_nonneg x (Int.ne_of_gt (two_pow_pos w))
  unfold unsextW
  rw [← npow_split h, Nat.mul_mod_mul_right, Nat.mul_div_cancel _ hp]
  have h2 := emod_pow h x
  generalize hy : x % 2 ^ 128 = y at *
  have : ((y.toNat % 2 ^ w : Nat) : Int) = y % 2 ^ w := by
    rw [Int.natCast_emod, Int.toNat_of_nonneg h0]; simp
  omega

theorem clipW_eq {w : Nat} (h : w ≤ 128) (u : Nat) : clipW w u = u % 2 ^ w := by
  have hp := Nat.two_pow_pos (128 - w)
  unfold clipW
  rw [← npow_split h, Nat.mul_mod_mul_right, Nat.mul_div_cancel _ hp]

theorem unsextW_toBits {w : Nat} (h : w ≤ 128) (s : Bool) (x : Int) :
    unsextW w x = IT.toBits ⟨s, w⟩ x := unsextW_eq h x

/-- Sign extension of a bit pattern of width `w` gives back the value. -/
theorem sextW_toBits {w : Nat} (h0 : 0 < w) (h : w ≤ 128) {v : Int} (hv : IT.In ⟨true, w⟩ v) :
    sextW w (IT.toBits ⟨true, w⟩ v) = v := by
  rw [sextW_eq h0 h, IT.ofBits_toBits _ h0 hv]

theorem in_i128 {w : Nat} (h0 : 0 < w) (h : w ≤ 128) {v : Int} (hv : IT.In ⟨true, w⟩ v) :
    I128.In v := by
  have hle : (2 : Int) ^ (w - 1) ≤ 2 ^ (128 - 1) := by
    have := Nat.pow_le_pow_right (n := 2) (by decide) (show w - 1 ≤ 128 - 1 by omega)
    exact_mod_cast this
  simp only [IT.In, IT.min, IT.max, I128, if_true] at *
  omega

theorem toBits_unsigned {w : Nat} {v : Int} (hv : IT.In ⟨false, w⟩ v) :
    (IT.toBits ⟨false, w⟩ v : Int) = v := by
  rw [IT.toBits_cast]
  simp only [IT.In, IT.min, IT.max] at hv
  exact Int.emod_eq_of_lt (by simp at hv; omega) (by simp at hv ⊢; omega)

end Verif.Consts
