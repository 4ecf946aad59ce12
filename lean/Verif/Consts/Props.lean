import Verif.Consts.Lemmas
import Verif.Consts.Spec

/-! C18: constant folding agrees with run-time evaluation. -/

namespace Verif.Consts
open Verif.RInt

theorem IntTy.bounds {S : Sess} (h : S.Native) (t : IntTy) :
    t.bits S = t.targetBits S ∧ 8 ≤ t.targetBits S ∧ t.targetBits S ≤ 128 := by
  obtain ⟨h1, h2⟩ := h
  cases t <;> simp [IntTy.bits, IntTy.targetBits] <;> omega

theorem UintTy.bounds {S : Sess} (h : S.Native) (t : UintTy) :
    t.bits S = t.targetBits S ∧ 8 ≤ t.targetBits S ∧ t.targetBits S ≤ 128 := by
  obtain ⟨h1, h2⟩ := h
  cases t <;> simp [UintTy.bits, UintTy.targetBits] <;> omega

theorem Ty.it_bounds {S : Sess} (h : S.Native) {ty : Ty} {t : IT} (ht : ty.it S = some t) :
    8 ≤ t.bits ∧ t.bits ≤ 128 := by
  cases ty <;> simp [Ty.it] at ht
  · subst ht; exact (IntTy.bounds h _).2
  · subst ht; exact (UintTy.bounds h _).2

theorem nat_cast_in {w : Nat} {x : Int} (hx : IT.In ⟨false, w⟩ x) : 0 ≤ x ∧ x < 2 ^ w := by
  simp [IT.In, IT.min, IT.max] at hx; omega

theorem in_unsigned {w : Nat} {x : Int} (h0 : 0 ≤ x) (h1 : x < 2 ^ w) : IT.In ⟨false, w⟩ x := by
  simp [IT.In, IT.min, IT.max]; omega

theorem toBits_nat {w n : Nat} (h : n < 2 ^ w) : IT.toBits ⟨false, w⟩ n = n := by
  have : (n : Int) < 2 ^ w := by exact_mod_cast h
  have := toBits_unsigned (in_unsigned (Int.natCast_nonneg n) this)
  omega

/-- A small bit pattern of any integer type is that number. -/
theorem small_amount {t : IT} (h8 : 8 ≤ t.bits) {b : Int} (hb : t.In b) (h : t.toBits b < 128) :
    b = t.toBits b := by
  have e := t.ofBits_toBits (by omega) hb
  have hl := t.toBits_lt b
  generalize t.toBits b = n at *
  have h7 : 2 ^ 7 ≤ 2 ^ (t.bits - 1) := Nat.pow_le_pow_right (by decide) (by omega)
  have : t.ofBits n = n := by
    unfold IT.ofBits
    dsimp only
    rw [Nat.mod_eq_of_lt hl, if_neg (by omega)]
  rw [← e, this]

theorem bitop_sound {w : Nat} (h0 : 0 < w) (h : w ≤ 128) {f : Nat → Nat → Nat}
    (hf : ∀ a b n, f a b % 2 ^ n = f (a % 2 ^ n) (b % 2 ^ n)) (a b : Int) :
    unsextW w (I128.ofBits (f (I128.toBits a) (I128.toBits b))) =
      IT.toBits ⟨true, w⟩ (IT.ofBits ⟨true, w⟩ (f (IT.toBits ⟨true, w⟩ a) (IT.toBits ⟨true, w⟩ b))) := by
  rw [unsextW_toBits h true, IT.toBits_ofBits]
  have key : ∀ n : Nat, IT.toBits ⟨true, w⟩ (I128.ofBits n) = n % 2 ^ w := by
    intro n
    have := IT.toBits_cast ⟨true, w⟩ (I128.ofBits n)
    have h2 := I128.ofBits_emod n
    simp only [I128] at this h2
    rw [← emod_pow h, h2, emod_pow h] at this
    have h3 : ((n % 2 ^ w : Nat) : Int) = (n : Int) % 2 ^ w := by simp
    simp only [I128]
    omega
  have low : ∀ x : Int, I128.toBits x % 2 ^ w = IT.toBits ⟨true, w⟩ x := by
    intro x
    have h1 := I128.toBits_cast x
    have h2 := IT.toBits_cast ⟨true, w⟩ x
    have h3 : ((I128.toBits x % 2 ^ w : Nat) : Int) = (I128.toBits x : Int) % 2 ^ w := by simp
    rw [h1] at h3
    simp only [I128] at h3 h2 ⊢
    rw [emod_pow h] at h3
    omega
  rw [key, hf, low, low]
  have hself : ∀ x : Int, IT.toBits ⟨true, w⟩ x % 2 ^ w = IT.toBits ⟨true, w⟩ x :=
    fun x => Nat.mod_eq_of_lt (IT.toBits_lt ⟨true, w⟩ x)
  dsimp only
  rw [hf (IT.toBits ⟨true, w⟩ a), hself, hself]

theorem and_mod (a b n : Nat) : (a &&& b) % 2 ^ n = (a % 2 ^ n) &&& (b % 2 ^ n) := Nat.and_mod_two_pow
theorem or_mod (a b n : Nat) : (a ||| b) % 2 ^ n = (a % 2 ^ n) ||| (b % 2 ^ n) := Nat.or_mod_two_pow
theorem xor_mod (a b n : Nat) : (a ^^^ b) % 2 ^ n = (a % 2 ^ n) ^^^ (b % 2 ^ n) := Nat.xor_mod_two_pow

/-- The type of the result of an operator. -/
def resTy (op : BinOp) (l : Ty) : Ty := if op.isCmp then .bool else l

theorem IntTy.fits {S : Sess} (h : S.Native) (t : IntTy) {x y : Int}
    (e : (i128Checked x).bind (t.ensureFits S) = some y) :
    y = x ∧ IT.In ⟨true, t.targetBits S⟩ x := by
  have hb := (t.bounds h).1
  unfold i128Checked at e
  split at e
  · simp only [Option.bind_some, IntTy.ensureFits, IntTy.minMax, hb] at e
    split at e
    · simp at e
      rename_i h2
      refine ⟨e.symm, ?_⟩
      simpa [IT.In, IT.min, IT.max] using h2
    · simp at e
  · simp at e

/-- Signed operators other than shifts. -/
theorem binopInt_sound {S : Sess} (hS : S.Native) {op : BinOp} (hop : op.isShift = false) {t : IntTy}
    {a b : Int} (ha : IT.In ⟨true, t.targetBits S⟩ a) (hb : IT.In ⟨true, t.targetBits S⟩ b) {c}
    (h : binopInt S op t (IT.toBits ⟨true, t.targetBits S⟩ a) (IT.toBits ⟨true, t.targetBits S⟩ b) = some c) :
    ∃ v, runInt op ⟨true, t.targetBits S⟩ a b = .ok v ∧ Rep S (resTy op (.int t)) c v := by
  obtain ⟨hbits, h8, h128⟩ := t.bounds hS
  have ia := in_i128 (by omega) h128 ha
  have ib := in_i128 (by omega) h128 hb
  have sa := sextW_toBits (by omega) h128 ha
  have sb := sextW_toBits (by omega) h128 hb
  simp only [binopInt, sext, sa, sb] at h
  have rep : ∀ {x : Int}, IT.In ⟨true, t.targetBits S⟩ x →
      Rep S (.int t) (.int (unsext S x t)) (.int x) := by
    intro x hx
    exact ⟨_, rfl, hx, unsextW_toBits h128 true x⟩
  by_cases hdiv : (op = .div ∨ op = .rem) ∧ a = (t.minMax S).1 ∧ b = -1
  · rw [if_pos hdiv] at h; simp at h
  rw [if_neg hdiv] at h
  have quot : b ≠ 0 → ¬ (a = (t.minMax S).1 ∧ b = -1) → IT.In ⟨true, t.targetBits S⟩ (a.tdiv b) := by
    intro hb0 hne
    simp only [IntTy.minMax, hbits] at hne
    have hp := two_pow_pos (t.targetBits S - 1)
    simp only [IT.In, IT.min, IT.max, if_true] at ha hb ⊢
    by_cases h1 : b = -1
    · subst h1
      simp only [Int.tdiv_neg, Int.tdiv_one] 
      simp only [and_true] at hne
      omega
    by_cases h2 : b = 1
    · subst h2; simpa using ha
    have hab : (a.tdiv b).natAbs ≤ a.natAbs / 2 := by
      rw [Int.natAbs_tdiv]
      exact Nat.div_le_div_left (by omega) (by omega)
    omega
  cases op <;> simp only [BinOp.isShift, Bool.true_eq_false] at hop
  case add =>
    simp only [Option.map_eq_some_iff] at h
    obtain ⟨y, hy, rfl⟩ := h
    obtain ⟨rfl, hin⟩ := t.fits hS hy
    exact ⟨.int (a + b), by simp [runInt, IT.add, IT.checked, hin, lift], rep hin⟩
  case sub =>
    simp only [Option.map_eq_some_iff] at h
    obtain ⟨y, hy, rfl⟩ := h
    obtain ⟨rfl, hin⟩ := t.fits hS hy
    exact ⟨.int (a - b), by simp [runInt, IT.sub, IT.checked, hin, lift], rep hin⟩
  case mul =>
    simp only [Option.map_eq_some_iff] at h
    obtain ⟨y, hy, rfl⟩ := h
    obtain ⟨rfl, hin⟩ := t.fits hS hy
    exact ⟨.int (a * b), by simp [runInt, IT.mul, IT.checked, hin, lift], rep hin⟩
  case div =>
    by_cases hb0 : b = 0
    · simp [hb0] at h
    have hq := quot hb0 (by simpa using hdiv)
    have hi := in_i128 (by omega) h128 hq
    simp [hb0, i128Div, i128Checked, hi] at h
    subst h
    exact ⟨.int (a.tdiv b), by simp [runInt, IT.div, IT.checked, hb0, hq, lift], rep hq⟩
  case rem =>
    by_cases hb0 : b = 0
    · simp [hb0] at h
    have hq := quot hb0 (by simpa using hdiv)
    have hi := in_i128 (by omega) h128 hq
    simp [hb0, i128Rem, hi] at h
    subst h
    refine ⟨.int (a.tmod b), by simp [runInt, IT.rem, hb0, hq, lift], rep ?_⟩
    have h1 := Int.natAbs_tmod a b
    have h3 : a.natAbs % b.natAbs < b.natAbs := Nat.mod_lt _ (by omega)
    have hp := two_pow_pos (t.targetBits S - 1)
    simp only [IT.In, IT.min, IT.max, if_true] at ha hb ⊢
    omega
  case bitXor =>
    simp only [Option.some.injEq] at h
    subst h
    refine ⟨_, rfl, _, rfl, IT.ofBits_in _ (by simp; omega) _, ?_⟩
    exact bitop_sound (by omega) h128 xor_mod a b
  case bitOr =>
    simp only [Option.some.injEq] at h
    subst h
    refine ⟨_, rfl, _, rfl, IT.ofBits_in _ (by simp; omega) _, ?_⟩
    exact bitop_sound (by omega) h128 or_mod a b
  case bitAnd =>
    simp only [Option.some.injEq] at h
    subst h
    refine ⟨_, rfl, _, rfl, IT.ofBits_in _ (by simp; omega) _, ?_⟩
    exact bitop_sound (by omega) h128 and_mod a b
  all_goals first
    | (simp only [Option.some.injEq] at h; subst h; exact ⟨_, rfl, rfl, rfl⟩)
    | simp at h

/-- Signed shifts: the amount may be of any integer type as long as its bits fit into the left type. -/
theorem binopInt_shift_sound {S : Sess} (hS : S.Native) {op : BinOp} (hop : op.isShift = true) {t : IntTy}
    {u : IT} (hu : 8 ≤ u.bits) {a b : Int} (ha : IT.In ⟨true, t.targetBits S⟩ a) (hb : u.In b)
    (hn : u.toBits b < 2 ^ t.targetBits S) {c}
    (h : binopInt S op t (IT.toBits ⟨true, t.targetBits S⟩ a) (u.toBits b) = some c) :
    ∃ v, runInt op ⟨true, t.targetBits S⟩ a b = .ok v ∧ Rep S (.int t) c v := by
  obtain ⟨hbits, h8, h128⟩ := t.bounds hS
  have sa := sextW_toBits (by omega) h128 ha
  have sb := sextW_eq (by omega) h128 (u.toBits b)
  simp only [binopInt, sext, sa, hbits] at h
  have amount : 0 ≤ sextW (t.targetBits S) (u.toBits b) →
      sextW (t.targetBits S) (u.toBits b) < t.targetBits S →
      sextW (t.targetBits S) (u.toBits b) = b ∧ b < t.targetBits S ∧ 0 ≤ b := by
    intro h0 h1
    have e : sextW (t.targetBits S) (u.toBits b) = u.toBits b := by
      rw [sb] at h0 ⊢
      unfold IT.ofBits at h0 ⊢
      dsimp only at h0 ⊢
      rw [Nat.mod_eq_of_lt hn] at h0 ⊢
      split at h0
      · have : ((u.toBits b : Nat) : Int) < 2 ^ t.targetBits S := by exact_mod_cast hn
        omega
      · rename_i hneg; rw [if_neg hneg]
    rw [e] at h1 ⊢
    have := small_amount hu hb (by omega)
    omega
  have hdiv : ¬ ((op = .div ∨ op = .rem) ∧ a = (t.minMax S).1 ∧
      sextW (t.targetBits S) (u.toBits b) = -1) := by
    cases op <;> simp [BinOp.isShift] at hop ⊢
  rw [if_neg hdiv] at h
  cases op <;> simp only [BinOp.isShift, Bool.false_eq_true] at hop
  case shl =>
    simp only at h
    split at h
    · rename_i hr
      obtain ⟨e, h1, h0⟩ := amount hr.2 hr.1
      rw [e] at h
      simp only [i128Shl, show b.toNat < 128 by omega, if_true, Option.map_some, Option.some.injEq] at h
      subst h
      refine ⟨.int (IT.wrap ⟨true, t.targetBits S⟩ (a * 2 ^ b.toNat)),
        by simp [runInt, IT.shl, h0, h1, lift], _, rfl, IT.wrap_in _ (by simp; omega) _, ?_⟩
      rw [unsext, unsextW_toBits h128 true]
      apply IT.toBits_congr
      dsimp only
      rw [← emod_pow h128, show (2 : Int) ^ 128 = 2 ^ I128.bits from rfl, I128.wrap_emod,
        show I128.bits = 128 from rfl, emod_pow h128]
      exact (IT.wrap_emod ⟨true, t.targetBits S⟩ _).symm
    · simp at h
  case shr =>
    simp only at h
    split at h
    · rename_i hr
      obtain ⟨e, h1, h0⟩ := amount hr.2 hr.1
      rw [e] at h
      simp only [i128Shr, show b.toNat < 128 by omega, if_true, Option.map_some, Option.some.injEq] at h
      subst h
      have hin : IT.In ⟨true, t.targetBits S⟩ (a / 2 ^ b.toNat) := by
        have hp := two_pow_pos b.toNat
        have hp' := two_pow_pos (t.targetBits S - 1)
        simp only [IT.In, IT.min, IT.max, if_true] at ha ⊢
        constructor
        · apply (Int.le_ediv_iff_mul_le hp).2
          have : (-(2 ^ (t.targetBits S - 1)) : Int) * 2 ^ b.toNat ≤ -(2 ^ (t.targetBits S - 1)) * 1 :=
            Int.mul_le_mul_of_nonpos_left (by omega) (by omega)
          omega
        · by_cases ha0 : 0 ≤ a
          · have := Int.ediv_le_self (2 ^ b.toNat) ha0; omega
          · have := Int.ediv_neg_of_neg_of_pos (show a < 0 by omega) hp; omega
      refine ⟨.int (a / 2 ^ b.toNat), by simp [runInt, IT.shr, h0, h1, lift], _, rfl, hin, unsextW_toBits h128 true _⟩
    · simp at h

theorem UintTy.fits {S : Sess} (h : S.Native) (t : UintTy) {x : Int} {y : Nat}
    (e : (u128Checked x).bind (t.ensureFits S) = some y) :
    (y : Int) = x ∧ IT.In ⟨false, t.targetBits S⟩ x := by
  have hb := (t.bounds h).1
  unfold u128Checked at e
  split at e
  · rename_i h1
    simp only [Option.bind_some, UintTy.ensureFits, UintTy.minMax, hb] at e
    split at e
    · rename_i h2
      simp at e
      have hp := Nat.two_pow_pos (t.targetBits S)
      have c := cast_two_pow (t.targetBits S)
      exact ⟨by omega, in_unsigned h1.1 (by omega)⟩
    · simp at e
  · simp at e

theorem mask_eq {w : Nat} (h : w ≤ 128) : (2 ^ 128 - 1) / 2 ^ (128 - w) = 2 ^ w - 1 := by
  have hp := Nat.two_pow_pos (128 - w)
  have hw := Nat.two_pow_pos w
  have e := npow_split h
  rw [Nat.div_eq_iff hp]
  have : 2 ^ 128 - 2 ^ (128 - w) = (2 ^ w - 1) * 2 ^ (128 - w) := by
    rw [Nat.sub_mul, e]; omega
  omega

/-- Unsigned operators; the amount of a shift may be of any integer type. -/
theorem binopUint_sound {S : Sess} (hS : S.Native) {op : BinOp} {t : UintTy}
    {u : IT} (hu : 8 ≤ u.bits) {a b : Int} (ha : IT.In ⟨false, t.targetBits S⟩ a) (hb : u.In b)
    (same : op.isShift = false → u = ⟨false, t.targetBits S⟩) {c}
    (h : binopUint S op t (IT.toBits ⟨false, t.targetBits S⟩ a) (u.toBits b) = some c) :
    ∃ v, runInt op ⟨false, t.targetBits S⟩ a b = .ok v ∧ Rep S (resTy op (.uint t)) c v := by
  obtain ⟨hbits, h8, h128⟩ := t.bounds hS
  have la := toBits_unsigned ha
  have hla := IT.toBits_lt ⟨false, t.targetBits S⟩ a
  have rep : ∀ {n : Nat} {x : Int}, (n : Int) = x → IT.In ⟨false, t.targetBits S⟩ x →
      Rep S (.uint t) (.int n) (.int x) := by
    intro n x e hx
    refine ⟨_, rfl, hx, ?_⟩
    have := toBits_unsigned hx
    omega
  have cw := cast_two_pow (t.targetBits S)
  by_cases hs : op.isShift = true
  · simp only [binopUint, hbits, mask_eq h128] at h
    have amount : u.toBits b < t.targetBits S → 0 ≤ b ∧ b < t.targetBits S ∧ u.toBits b = b.toNat := by
      intro h1
      have := small_amount hu hb (by omega)
      omega
    cases op <;> simp only [BinOp.isShift, Bool.false_eq_true] at hs
    case shl =>
      simp only at h
      split at h
      · rename_i hr
        obtain ⟨h0, h1, e⟩ := amount hr
        rw [e] at h
        simp only [u128Shl, show b.toNat < 128 by omega, if_true, Option.map_some, Option.some.injEq] at h
        subst h
        refine ⟨.int (IT.wrap ⟨false, t.targetBits S⟩ (a * 2 ^ b.toNat)),
          by simp [runInt, IT.shl, h0, h1, lift], _, rfl, IT.wrap_in _ (by simp; omega) _, ?_⟩
        rw [Nat.and_two_pow_sub_one_eq_mod]
        have hz := toBits_unsigned (IT.wrap_in ⟨false, t.targetBits S⟩ (by simp; omega) (a * 2 ^ b.toNat))
        have hwe : IT.wrap ⟨false, t.targetBits S⟩ (a * 2 ^ b.toNat) = (a * 2 ^ b.toNat) % 2 ^ t.targetBits S := by
          have h1 := IT.wrap_emod ⟨false, t.targetBits S⟩ (a * 2 ^ b.toNat)
          rw [Int.emod_eq_of_lt (nat_cast_in (IT.wrap_in ⟨false, t.targetBits S⟩ (by simp; omega) _)).1
            (nat_cast_in (IT.wrap_in ⟨false, t.targetBits S⟩ (by simp; omega) _)).2] at h1
          exact h1
        have hdv : 2 ^ t.targetBits S ∣ 2 ^ 128 := Nat.pow_dvd_pow 2 h128
        rw [Nat.mod_mod_of_dvd _ hdv]
        have : ((IT.toBits ⟨false, t.targetBits S⟩ a * 2 ^ b.toNat % 2 ^ t.targetBits S : Nat) : Int)
            = (a * 2 ^ b.toNat) % 2 ^ t.targetBits S := by
          simp [la]
        omega
      · simp at h
    case shr =>
      simp only at h
      split at h
      · rename_i hr
        obtain ⟨h0, h1, e⟩ := amount hr
        rw [e] at h
        simp only [u128Shr, show b.toNat < 128 by omega, if_true, Option.map_some, Option.some.injEq] at h
        subst h
        have hle : IT.toBits ⟨false, t.targetBits S⟩ a / 2 ^ b.toNat ≤ IT.toBits ⟨false, t.targetBits S⟩ a :=
          Nat.div_le_self _ _
        rw [Nat.and_two_pow_sub_one_eq_mod, Nat.mod_eq_of_lt (by dsimp only at hla; omega)]
        have e2 : ((IT.toBits ⟨false, t.targetBits S⟩ a / 2 ^ b.toNat : Nat) : Int) = a / 2 ^ b.toNat := by
          simp [la]
        refine ⟨.int (a / 2 ^ b.toNat), by simp [runInt, IT.shr, h0, h1, lift], rep e2 ?_⟩
        dsimp only at hla
        exact in_unsigned (e2 ▸ Int.natCast_nonneg _) (by omega)
      · simp at h
  · have hs' : op.isShift = false := by simpa using hs
    have hu' := same hs'
    subst hu'
    have lb := toBits_unsigned hb
    have hlb := IT.toBits_lt ⟨false, t.targetBits S⟩ b
    have na := nat_cast_in ha
    have nb := nat_cast_in hb
    dsimp only at hla hlb
    simp only [binopUint] at h
    cases op <;> simp only [BinOp.isShift, Bool.true_eq_false] at hs'
    case add =>
      simp only [Option.map_eq_some_iff] at h
      obtain ⟨y, hy, rfl⟩ := h
      rw [la, lb] at hy
      obtain ⟨e, hin⟩ := t.fits hS hy
      exact ⟨.int (a + b), by simp [runInt, IT.add, IT.checked, hin, lift], rep e hin⟩
    case sub =>
      simp only [Option.map_eq_some_iff] at h
      obtain ⟨y, hy, rfl⟩ := h
      rw [la, lb] at hy
      obtain ⟨e, hin⟩ := t.fits hS hy
      exact ⟨.int (a - b), by simp [runInt, IT.sub, IT.checked, hin, lift], rep e hin⟩
    case mul =>
      simp only [Option.map_eq_some_iff] at h
      obtain ⟨y, hy, rfl⟩ := h
      rw [la, lb] at hy
      obtain ⟨e, hin⟩ := t.fits hS hy
      exact ⟨.int (a * b), by simp [runInt, IT.mul, IT.checked, hin, lift], rep e hin⟩
    case div =>
      by_cases hb0 : IT.toBits ⟨false, t.targetBits S⟩ b = 0
      · simp [u128Div, hb0] at h
      have hb1 : b ≠ 0 := by omega
      simp [u128Div, hb0] at h
      subst h
      have e : ((IT.toBits ⟨false, t.targetBits S⟩ a / IT.toBits ⟨false, t.targetBits S⟩ b : Nat) : Int)
          = a.tdiv b := by
        rw [Int.tdiv_eq_ediv_of_nonneg na.1]; simp [la, lb]
      have hle : IT.toBits ⟨false, t.targetBits S⟩ a / IT.toBits ⟨false, t.targetBits S⟩ b
          ≤ IT.toBits ⟨false, t.targetBits S⟩ a := Nat.div_le_self _ _
      have hin : IT.In ⟨false, t.targetBits S⟩ (a.tdiv b) := in_unsigned (e ▸ Int.natCast_nonneg _) (by omega)
      exact ⟨.int (a.tdiv b), by simp [runInt, IT.div, IT.checked, hb1, hin, lift], rep e hin⟩
    case rem =>
      by_cases hb0 : IT.toBits ⟨false, t.targetBits S⟩ b = 0
      · simp [u128Rem, hb0] at h
      have hb1 : b ≠ 0 := by omega
      simp [u128Rem, hb0] at h
      subst h
      have e : ((IT.toBits ⟨false, t.targetBits S⟩ a % IT.toBits ⟨false, t.targetBits S⟩ b : Nat) : Int)
          = a.tmod b := by
        rw [Int.tmod_eq_emod_of_nonneg na.1]; simp [la, lb]
      have eq : ((IT.toBits ⟨false, t.targetBits S⟩ a / IT.toBits ⟨false, t.targetBits S⟩ b : Nat) : Int)
          = a.tdiv b := by
        rw [Int.tdiv_eq_ediv_of_nonneg na.1]; simp [la, lb]
      have hle : IT.toBits ⟨false, t.targetBits S⟩ a / IT.toBits ⟨false, t.targetBits S⟩ b
          ≤ IT.toBits ⟨false, t.targetBits S⟩ a := Nat.div_le_self _ _
      have hle' : IT.toBits ⟨false, t.targetBits S⟩ a % IT.toBits ⟨false, t.targetBits S⟩ b
          ≤ IT.toBits ⟨false, t.targetBits S⟩ a := Nat.mod_le _ _
      have hq : IT.In ⟨false, t.targetBits S⟩ (a.tdiv b) := in_unsigned (eq ▸ Int.natCast_nonneg _) (by omega)
      have hin : IT.In ⟨false, t.targetBits S⟩ (a.tmod b) := in_unsigned (e ▸ Int.natCast_nonneg _) (by omega)
      exact ⟨.int (a.tmod b), by simp [runInt, IT.rem, hb1, hq, lift], rep e hin⟩
    case bitXor =>
      simp only [Option.some.injEq] at h
      subst h
      refine ⟨_, rfl, _, rfl, IT.ofBits_in _ (by simp; omega) _, ?_⟩
      rw [IT.xor, IT.toBits_ofBits]
      exact (Nat.mod_eq_of_lt (Nat.xor_lt_two_pow hla hlb)).symm
    case bitOr =>
      simp only [Option.some.injEq] at h
      subst h
      refine ⟨_, rfl, _, rfl, IT.ofBits_in _ (by simp; omega) _, ?_⟩
      rw [IT.or, IT.toBits_ofBits]
      exact (Nat.mod_eq_of_lt (Nat.or_lt_two_pow hla hlb)).symm
    case bitAnd =>
      simp only [Option.some.injEq] at h
      subst h
      refine ⟨_, rfl, _, rfl, IT.ofBits_in _ (by simp; omega) _, ?_⟩
      rw [IT.and, IT.toBits_ofBits]
      exact (Nat.mod_eq_of_lt (Nat.and_lt_two_pow _ hlb)).symm
    case and => simp at h
    case or => simp at h
    all_goals
      simp only [Option.some.injEq] at h
      subst h
      refine ⟨_, rfl, rfl, ?_⟩
      rw [decide_eq_decide]
      omega

theorem not_sound {S : Sess} (hS : S.Native) {ty : Ty} {c c' : Constant} {v : Val}
    (hr : Rep S ty c v) (h : constantNot S c ty = some c') :
    ∃ v', runNot S ty v = .ok v' ∧ Rep S ty c' v' := by
  cases c <;> cases v <;> simp only [Rep] at hr
  case bool.bool b b' =>
    obtain ⟨rfl, rfl⟩ := hr
    simp [constantNot] at h
    subst h
    exact ⟨_, rfl, rfl, rfl⟩
  case int.int n x =>
    obtain ⟨t, ht, hx, rfl⟩ := hr
    obtain ⟨h8, h128⟩ := Ty.it_bounds hS ht
    have hl := t.toBits_lt x
    have hle : 2 ^ t.bits ≤ 2 ^ 128 := Nat.pow_le_pow_right (by decide) h128
    have key : (2 ^ 128 - 1 - t.toBits x) % 2 ^ t.bits = 2 ^ t.bits - 1 - t.toBits x := by
      have e := npow_split h128
      have hp := Nat.two_pow_pos (128 - t.bits)
      obtain ⟨k, hk⟩ : ∃ k, 2 ^ (128 - t.bits) = k + 1 := ⟨2 ^ (128 - t.bits) - 1, by omega⟩
      rw [hk, Nat.mul_add, Nat.mul_one] at e
      have : 2 ^ 128 - 1 - t.toBits x = (2 ^ t.bits - 1 - t.toBits x) + 2 ^ t.bits * k := by omega
      rw [this, Nat.add_mul_mod_self_left, Nat.mod_eq_of_lt (by omega)]
    refine ⟨.int (t.not x), by simp [runNot, ht], ?_⟩
    have fin : ∀ n, n = (2 ^ 128 - 1 - t.toBits x) % 2 ^ t.bits → Rep S ty (.int n) (.int (t.not x)) := by
      intro n hn
      refine ⟨t, ht, t.ofBits_in (by omega) _, ?_⟩
      rw [IT.not, t.toBits_ofBits, hn, key, Nat.mod_eq_of_lt (by omega)]
    cases ty <;> simp [Ty.it] at ht <;> subst ht <;> simp [constantNot] at h <;> subst h <;> apply fin
    · rw [unsext, unsextW_eq h128]
      have h1 := I128.wrap_emod ((2 ^ 128 - 1 - IT.toBits ⟨true, IntTy.targetBits S ‹_›⟩ x : Nat) : Int)
      rw [← emod_pow h128, show (2 : Int) ^ 128 = 2 ^ I128.bits from rfl, h1,
        show I128.bits = 128 from rfl, emod_pow h128]
      rw [← cast_two_pow, ← Int.natCast_emod, Int.toNat_natCast]
    · rw [clip, clipW_eq h128]

theorem neg_sound {S : Sess} (hS : S.Native) {ty : Ty} {c c' : Constant} {v : Val}
    (hr : Rep S ty c v) (h : constantNegate S c ty = some c') :
    ∃ v', runNeg S ty v = .ok v' ∧ Rep S ty c' v' := by
  cases c <;> cases v <;> simp only [Rep] at hr
  case bool.bool b b' => simp [constantNegate] at h
  case int.int n x =>
    obtain ⟨t, ht, hx, rfl⟩ := hr
    cases ty <;> simp [Ty.it] at ht <;> subst ht
    case int t =>
      obtain ⟨hbits, h8, h128⟩ := t.bounds hS
      simp only [constantNegate, sext, sextW_toBits (by omega) h128 hx] at h
      split at h
      · simp at h
      · rename_i hne
        simp only [IntTy.minMax, hbits] at hne
        have hin : IT.In ⟨true, t.targetBits S⟩ (-x) := by
          simp only [IT.In, IT.min, IT.max, if_true] at hx ⊢
          omega
        have hi := in_i128 (by omega) h128 hin
        simp [i128Checked, hi] at h
        subst h
        exact ⟨.int (-x), by simp [runNeg, Ty.it, IT.neg, IT.checked, hin, lift], _, rfl, hin,
          unsextW_toBits h128 true _⟩
    case uint t => simp [constantNegate] at h

theorem toBits_of_nat {t : IT} (h8 : 8 ≤ t.bits) {n : Nat} (h : t.In n) : t.toBits n = n := by
  have h1 := t.toBits_cast n
  have hp := two_pow_pos (t.bits - 1)
  have hs := two_pow_succ (n := t.bits) (by omega)
  rw [Int.emod_eq_of_lt (by omega)] at h1
  · omega
  · simp only [IT.In, IT.min, IT.max] at h
    split at h <;> omega

/-- In every shift of a signed value, the bits of the amount (if it is constant) are below
`2 ^ width` of the shifted type. -/
def ShiftsOk (S : Sess) (consts : String → Option Constant) : Expr → Prop
  | .not e | .neg e | .block e => ShiftsOk S consts e
  | .bin op l r => ShiftsOk S consts l ∧ ShiftsOk S consts r ∧
      ∀ t n, op.isShift = true → l.ty = .int t → eval S consts r = some (.int n) →
        n < 2 ^ t.targetBits S
  | .ite c t e => ShiftsOk S consts c ∧ ShiftsOk S consts t ∧ ShiftsOk S consts e
  | _ => True

theorem Rep.bool_inv {S : Sess} {ty : Ty} {b : Bool} {v : Val} (h : Rep S ty (.bool b) v) :
    v = .bool b ∧ ty = .bool := by
  cases v <;> simp only [Rep] at h
  exact ⟨by rw [h.2], h.1⟩

theorem Rep.of_bool {S : Sess} {c : Constant} {v : Val} (h : Rep S .bool c v) : ∃ b, c = .bool b := by
  cases c <;> cases v <;> simp only [Rep] at h
  · obtain ⟨t, ht, _⟩ := h; simp [Ty.it] at ht
  · exact ⟨_, rfl⟩

theorem bin_sound {S : Sess} (hS : S.Native) {op : BinOp} (h1 : op ≠ .and) (h2 : op ≠ .or)
    {lt rt : Ty} (hty : op.Typed S lt rt) {l r c : Constant} {a b : Val}
    (hl : Rep S lt l a) (hr : Rep S rt r b)
    (hsh : ∀ t n, op.isShift = true → lt = .int t → r = .int n → n < 2 ^ t.targetBits S)
    (h : binop S op lt l (some r) = some c) :
    ∃ v, runStrict S op lt a b = .ok v ∧ Rep S (resTy op lt) c v := by
  cases l <;> cases a <;> simp only [Rep] at hl
  case bool.bool x x' =>
    obtain ⟨rfl, rfl⟩ := hl
    have hrt : rt = .bool := by
      cases op <;> simp [BinOp.Typed, BinOp.isShift, BinOp.isArith, Ty.it] at hty <;> simp_all
    subst hrt
    obtain ⟨y, rfl⟩ := hr.of_bool
    obtain ⟨rfl, _⟩ := hr.bool_inv
    simp only [binop] at h
    cases op <;> simp [binopBool] at h <;> first
      | exact absurd rfl h1
      | exact absurd rfl h2
      | (subst h; exact ⟨_, rfl, rfl, rfl⟩)
  case int.int n x =>
    obtain ⟨t, ht, hx, rfl⟩ := hl
    cases r <;> cases b <;> simp only [Rep] at hr
    case bool.bool y y' =>
      simp only [binop] at h
      cases op <;> simp [binopBool] at h
    case int.int m y =>
      obtain ⟨u, hu, hy, rfl⟩ := hr
      have hu8 := (Ty.it_bounds hS hu).1
      have same : op.isShift = false → u = t := by
        intro hs
        have : lt = rt := by
          cases op <;> simp [BinOp.Typed, BinOp.isShift, BinOp.isArith] at hty hs h1 h2 <;> exact hty.1
        subst this
        rw [hu] at ht; exact Option.some.inj ht
      simp only [binop] at h
      cases lt <;> simp [Ty.it] at ht <;> subst ht <;> simp only [runStrict, Ty.it]
      case int t =>
        by_cases hs : op.isShift = true
        · have hres : resTy op (.int t) = .int t := by
            cases op <;> simp [BinOp.isShift] at hs <;> rfl
          rw [hres]
          exact binopInt_shift_sound hS hs hu8 hx hy (hsh t _ hs rfl rfl) h
        · have hs' : op.isShift = false := by simpa using hs
          have := same hs'
          subst this
          exact binopInt_sound hS hs' hx hy h
      case uint t => exact binopUint_sound hS hu8 hx hy same h

/-- **C18.** Constant folding agrees with run-time evaluation: when clippy folds a well-typed integer or
boolean expression to a constant, evaluating the expression in Rust with overflow checks does not panic
and produces the value the constant stands for, for every environment of run-time values.

Missing (the code violates the property there, see `shift_amount_wraps` and `cross_width`): a signed
value shifted by an amount whose bits do not fit into the shifted type, and `isize`/`usize` when the
target's pointer width differs from the host's. -/
theorem eval_sound_partial {S : Sess} (hS : S.Native) {consts : String → Option Constant}
    {env : String → Val} : ∀ {e : Expr}, WT S consts env e → ShiftsOk S consts e → ∀ {c},
    eval S consts e = some c → ∃ v, run S env e = .ok v ∧ Rep S e.ty c v
  | .lit n ty, hw, _, c, h => by
      obtain ⟨t, ht, hn⟩ := hw
      simp [eval] at h
      subst h
      exact ⟨.int n, rfl, t, ht, hn, (toBits_of_nat (Ty.it_bounds hS ht).1 hn).symm⟩
  | .negLit n ty, hw, _, c, h => by
      obtain ⟨t, ht, hs, hn⟩ := hw
      obtain ⟨h8, h128⟩ := Ty.it_bounds hS ht
      cases ty <;> simp [Ty.it] at ht <;> subst ht <;> simp at hs
      rename_i ity _
      simp only [eval, constantNegate, sext] at h
      have hn' := hn
      simp only [IT.In, IT.min, IT.max, if_true] at hn'
      simp only at h8 h128
      by_cases hmin : (n : Int) = 2 ^ (ity.targetBits S - 1)
      · have hsx : sextW (ity.targetBits S) n = (ity.minMax S).1 := by
          rw [sextW_eq (by omega) h128, IntTy.minMax, (ity.bounds hS).1]
          have h1 := IT.ofBits_emod ⟨true, ity.targetBits S⟩ n
          apply IT.emod_inj ⟨true, ity.targetBits S⟩ (by simp; omega)
            (IT.ofBits_in _ (by simp; omega) _)
          · have := two_pow_pos (ity.targetBits S - 1)
            simp only [IT.In, IT.min, IT.max, if_true]; omega
          · rw [h1, hmin, ← Int.add_emod_right (a := -_) ]
            congr 1
            simp only
            rw [two_pow_succ (n := ity.targetBits S) (by omega)]
            omega
        simp [hsx] at h
      · have hin : IT.In ⟨true, ity.targetBits S⟩ (n : Int) := by
          simp only [IT.In, IT.min, IT.max, if_true]; omega
        have hsx : sextW (ity.targetBits S) n = n := by
          conv => lhs; rw [← toBits_of_nat (t := ⟨true, ity.targetBits S⟩) h8 hin]
          exact sextW_toBits (by omega) h128 hin
        have hi := in_i128 (by omega) h128 hn
        simp only [hsx] at h
        split at h
        · simp at h
        · simp [i128Checked, hi] at h
          subst h
          exact ⟨_, rfl, _, rfl, hn, unsextW_toBits h128 true _⟩
  | .boolLit b, _, _, c, h => by
      simp [eval] at h
      subst h
      exact ⟨_, rfl, rfl, rfl⟩
  | .path x ty, hw, _, c, h => ⟨_, rfl, hw.2 c h⟩
  | .not e, hw, hs, c, h => by
      simp only [eval, Option.bind_eq_some_iff] at h
      obtain ⟨o, ho, h⟩ := h
      obtain ⟨v, hv, hr⟩ := eval_sound_partial hS hw.1 hs ho
      obtain ⟨v', h1, h2⟩ := not_sound hS hr h
      exact ⟨v', by simp only [run, hv]; exact h1, h2⟩
  | .neg e, hw, hs, c, h => by
      simp only [eval, Option.bind_eq_some_iff] at h
      obtain ⟨o, ho, h⟩ := h
      obtain ⟨v, hv, hr⟩ := eval_sound_partial hS hw.1 hs ho
      obtain ⟨v', h1, h2⟩ := neg_sound hS hr h
      exact ⟨v', by simp only [run, hv]; exact h1, h2⟩
  | .block e, hw, hs, c, h => by
      simp only [eval] at h
      exact eval_sound_partial hS (e := e) hw hs h
  | .ite b t e, hw, hs, c, h => by
      obtain ⟨w1, w2, w3, hb, hte⟩ := hw
      obtain ⟨s1, s2, s3⟩ := hs
      simp only [eval] at h
      split at h
      · rename_i b' hb'
        obtain ⟨v, hv, hr⟩ := eval_sound_partial hS w1 s1 hb'
        obtain ⟨rfl, _⟩ := hr.bool_inv
        cases b'
        · obtain ⟨v, h1, h2⟩ := eval_sound_partial hS w3 s3 (by simpa using h)
          refine ⟨v, by simp only [run, hv]; exact h1, ?_⟩
          simp only [Expr.ty]; rw [hte]; exact h2
        · obtain ⟨v, h1, h2⟩ := eval_sound_partial hS w2 s2 (by simpa using h)
          exact ⟨v, by simp only [run, hv]; exact h1, h2⟩
      · simp at h
  | .bin op l r, hw, hs, c, h => by
      obtain ⟨w1, w2, hty⟩ := hw
      obtain ⟨s1, s2, hsh⟩ := hs
      simp only [eval, Option.bind_eq_some_iff] at h
      obtain ⟨lc, hlc, h⟩ := h
      obtain ⟨a, ha, hra⟩ := eval_sound_partial hS w1 s1 hlc
      by_cases h1 : op = .and
      · subst h1
        simp only [BinOp.Typed, BinOp.isShift, BinOp.isArith, Bool.false_eq_true, if_false] at hty
        rw [hty.1] at hra
        obtain ⟨x, rfl⟩ := hra.of_bool
        obtain ⟨rfl, _⟩ := hra.bool_inv
        simp only [binop] at h
        cases x
        · simp [binopBool] at h
          subst h
          exact ⟨.bool false, by simp [run, ha, Except.bind], by simp [Expr.ty, BinOp.isCmp, hty.1], rfl⟩
        · cases hr : eval S consts r with
          | none => simp [hr, binopBool] at h
          | some rc =>
            simp [hr, binopBool] at h
            subst h
            obtain ⟨b, hb, hrb⟩ := eval_sound_partial hS w2 s2 hr
            refine ⟨b, by simp [run, ha, Except.bind, hb], ?_⟩
            simp only [Expr.ty, BinOp.isCmp, hty.1]
            rw [hty.2] at hrb
            exact hrb
      by_cases h2 : op = .or
      · subst h2
        simp only [BinOp.Typed, BinOp.isShift, BinOp.isArith, Bool.false_eq_true, if_false] at hty
        rw [hty.1] at hra
        obtain ⟨x, rfl⟩ := hra.of_bool
        obtain ⟨rfl, _⟩ := hra.bool_inv
        simp only [binop] at h
        cases x
        · cases hr : eval S consts r with
          | none => simp [hr, binopBool] at h
          | some rc =>
            simp [hr, binopBool] at h
            subst h
            obtain ⟨b, hb, hrb⟩ := eval_sound_partial hS w2 s2 hr
            refine ⟨b, by simp [run, ha, Except.bind, hb], ?_⟩
            simp only [Expr.ty, BinOp.isCmp, hty.1]
            rw [hty.2] at hrb
            exact hrb
        · simp [binopBool] at h
          subst h
          exact ⟨.bool true, by simp [run, ha, Except.bind], by simp [Expr.ty, BinOp.isCmp, hty.1], rfl⟩
      · cases hr : eval S consts r with
        | none =>
          rw [hr] at h
          cases lc <;> simp only [binop] at h <;> cases op <;> simp_all [binopBool]
        | some rc =>
          rw [hr] at h
          obtain ⟨b, hb, hrb⟩ := eval_sound_partial hS w2 s2 hr
          obtain ⟨v, hv, hrep⟩ := bin_sound hS h1 h2 hty hra hrb
            (fun t n e1 e2 e3 => hsh t n e1 e2 (by rw [hr, e3])) h
          refine ⟨v, ?_, hrep⟩
          cases op <;> first
            | exact absurd rfl h1
            | exact absurd rfl h2
            | (simp only [run, ha, hb, Except.bind]; exact hv)

/-! ### Witnesses -/

def native64 : Sess := ⟨64, 64⟩

theorem native64_native : native64.Native := ⟨rfl, .inr (.inr rfl)⟩

/-- `false && x`, `-(3 - 10)`, `!7u8 >> 3`, `if 1 < 2 { -128i8 / 3 } else { y }`-like expressions meet the
hypotheses of `eval_sound_partial` and are folded. -/
example :
    let consts : String → Option Constant := fun x => if x = "K" then some (.int 0xFE) else none
    let env : String → Val := fun x => if x = "K" then .int (-2) else .int 7
    let i8 : Ty := .int .i8
    let e : Expr := .ite (.bin .lt (.path "K" i8) (.lit 1 i8))
      (.bin .shl (.neg (.bin .sub (.lit 3 i8) (.lit 10 i8))) (.lit 3 (.int .i32))) (.path "x" i8)
    WT native64 consts env e ∧ ShiftsOk native64 consts e ∧ eval native64 consts e = some (.int 56) := by
  refine ⟨?_, ?_, rfl⟩
  · simp only [WT, HasTy, BinOp.Typed, Expr.ty, BinOp.isShift, BinOp.isArith, BinOp.isCmp]
    refine ⟨⟨⟨⟨_, rfl, by decide⟩, ?_⟩, ⟨_, rfl, by decide⟩, ?_⟩, ⟨⟨⟨⟨_, rfl, by decide⟩, ⟨_, rfl, by decide⟩, ?_⟩, ?_⟩, ⟨_, rfl, by decide⟩, ?_⟩, ⟨⟨_, rfl, by decide⟩, ?_⟩, ?_⟩
    · intro c hc; simp at hc; subst hc; exact ⟨_, rfl, by decide, by decide⟩
    · simp [Ty.it]
    · simp [Ty.it]
    · simp [Ty.it]
    · simp [Ty.it]
    · intro c hc; simp at hc
    · simp
  · simp only [ShiftsOk, BinOp.isShift]
    refine ⟨⟨trivial, trivial, by simp⟩, ⟨⟨trivial, trivial, by simp⟩, trivial, ?_⟩, trivial⟩
    intro t n _ ht hn
    simp only [eval, Option.some.injEq, Constant.int.injEq] at hn
    simp only [Expr.ty, BinOp.isCmp, Bool.false_eq_true, if_false, Ty.int.injEq] at ht
    subst ht hn
    decide

/-- Violation of C18: the shift amount is sign-extended with the type of the *left* operand, so
`1i8 << 256` (the amount is an `i32`) is folded to 1, while evaluating it panics. -/
theorem shift_amount_wraps :
    let e : Expr := .bin .shl (.lit 1 (.int .i8)) (.lit 256 (.int .i32))
    (∀ env, WT native64 (fun _ => none) env e) ∧
    eval native64 (fun _ => none) e = some (.int 1) ∧
    (∀ env, run native64 env e = .error (.panic .shift)) := by
  refine ⟨fun env => ?_, rfl, fun env => rfl⟩
  simp only [WT, BinOp.Typed, Expr.ty, BinOp.isShift]
  exact ⟨⟨_, rfl, by decide⟩, ⟨_, rfl, by decide⟩, by simp [Ty.it]⟩

/-- Violation of C18 when cross-compiling: on a 64-bit machine, for a 32-bit target,
`0xFFFF_FFFFusize + 1` is folded to 2^32 (it overflows), and `-(-0x7FFF_FFFFisize - 1)` to −2^31. -/
theorem cross_width :
    let S : Sess := ⟨32, 64⟩
    let usize : Ty := .uint .usize
    let isize : Ty := .int .isize
    let e : Expr := .bin .add (.lit 0xFFFFFFFF usize) (.lit 1 usize)
    let m : Expr := .neg (.bin .sub (.negLit 0x7FFFFFFF isize) (.lit 1 isize))
    (∀ env, WT S (fun _ => none) env e ∧ WT S (fun _ => none) env m) ∧
    eval S (fun _ => none) e = some (.int (2 ^ 32)) ∧
    (∀ env, run S env e = .error (.panic .overflow)) ∧
    eval S (fun _ => none) m = some (.int (2 ^ 31)) ∧
    (∀ env, run S env m = .error (.panic .overflow)) := by
  refine ⟨fun env => ⟨?_, ?_⟩, rfl, fun env => rfl, rfl, fun env => rfl⟩
  · simp only [WT, BinOp.Typed, Expr.ty, BinOp.isShift, BinOp.isArith]
    exact ⟨⟨_, rfl, by decide⟩, ⟨_, rfl, by decide⟩, by simp [Ty.it]⟩
  · simp only [WT, BinOp.Typed, Expr.ty, BinOp.isShift, BinOp.isArith, BinOp.isCmp]
    exact ⟨⟨⟨_, rfl, rfl, by decide⟩, ⟨_, rfl, by decide⟩, by simp [Ty.it]⟩, by simp [Ty.it]⟩

end Verif.Consts
