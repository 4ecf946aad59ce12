import Verif.IntLints.Model

/-! C29: `checked_conversions`. -/

namespace Verif.IntLints
open Verif.RInt

/-! ### Specification -/

/-- The type on a target whose pointers have `pw` bits. -/
def ITy.it (pw : Nat) : ITy → IT
  | .u8 => ⟨false, 8⟩ | .u16 => ⟨false, 16⟩ | .u32 => ⟨false, 32⟩ | .u64 => ⟨false, 64⟩
  | .usize => ⟨false, pw⟩
  | .i8 => ⟨true, 8⟩ | .i16 => ⟨true, 16⟩ | .i32 => ⟨true, 32⟩ | .i64 => ⟨true, 64⟩
  | .isize => ⟨true, pw⟩

/-- The value of an operand; `as` wraps around. -/
def COperand.val (pw : Nat) (ρ : Nat → Int) : COperand → Int
  | .limit true to fr => (fr.it pw).wrap (to.it pw).max
  | .limit false to fr => (fr.it pw).wrap (to.it pw).min
  | .zero => 0
  | .atom i => ρ i

/-- The operand is an expression of type `T`. -/
def COperand.Typed (pw : Nat) (ρ : Nat → Int) (T : ITy) : COperand → Prop
  | .limit _ _ fr => fr = T
  | .zero => True
  | .atom i => (T.it pw).In (ρ i)

def CItem.Typed (pw : Nat) (ρ : Nat → Int) (T : ITy) : CItem → Prop
  | .le a b => a.Typed pw ρ T ∧ b.Typed pw ρ T
  | .and a b c d => a.Typed pw ρ T ∧ b.Typed pw ρ T ∧ c.Typed pw ρ T ∧ d.Typed pw ρ T

/-- The value of the condition. -/
def CItem.val (pw : Nat) (ρ : Nat → Int) : CItem → Bool
  | .le a b => a.val pw ρ ≤ b.val pw ρ
  | .and a b c d => a.val pw ρ ≤ b.val pw ρ && c.val pw ρ ≤ d.val pw ρ

/-- `to::try_from(v).is_ok()`. -/
def tryFromOk (pw : Nat) (to : ITy) (v : Int) : Bool := (to.it pw).In v

/-! ### Proofs -/

theorem ITy.it_signed (pw : Nat) (T : ITy) : (T.it pw).signed = T.signed := by cases T <;> rfl

theorem ITy.it_bits {pw : Nat} (h : 16 ≤ pw) (T : ITy) : 8 ≤ (T.it pw).bits := by
  cases T <;> simp [ITy.it] <;> omega

theorem COperand.val_in {pw : Nat} (hpw : 16 ≤ pw) {ρ : Nat → Int} {T : ITy} {o : COperand}
    (h : o.Typed pw ρ T) : (T.it pw).In (o.val pw ρ) := by
  have b := T.it_bits hpw
  cases o with
  | limit m to fr =>
    simp only [COperand.Typed] at h
    subst h
    cases m <;> exact IT.wrap_in _ (by omega) _
  | zero =>
    simp only [COperand.val, IT.In, IT.min, IT.max]
    have := two_pow_pos (T.it pw).bits
    have := two_pow_pos ((T.it pw).bits - 1)
    split <;> omega
  | atom i => exact h

/-- `2 ^ k - 1` truncated to `w ≤ k` bits is all ones. -/
theorem ones_emod {w k : Nat} (h : w ≤ k) : ((2 : Int) ^ k - 1) % 2 ^ w = 2 ^ w - 1 := by
  obtain ⟨d, rfl⟩ := Nat.exists_eq_add_of_le h
  have e : (2 : Int) ^ (w + d) - 1 = (2 ^ w - 1) + 2 ^ w * (2 ^ d - 1) := by
    rw [Int.pow_add, Int.mul_sub]; omega
  have := two_pow_pos w
  rw [e, Int.add_mul_emod_self_left, Int.emod_eq_of_lt] <;> omega

/-- The number of value bits. -/
def vbits (t : IT) : Nat := if t.signed then t.bits - 1 else t.bits

theorem max_eq (t : IT) : t.max = 2 ^ vbits t - 1 := by
  unfold IT.max vbits; split <;> rfl

theorem pow_le_iff {a b : Nat} : (2 : Int) ^ a ≤ 2 ^ b ↔ a ≤ b := by
  have := Nat.pow_le_pow_iff_right (a := 2) (n := a) (m := b) (by omega)
  rw [← this, ← cast_two_pow, ← cast_two_pow]; omega

/-- An unsigned value is at most `to::MAX as T` exactly if it fits in `to`. -/
theorem unsigned_upper {t to : IT} (hs : t.signed = false) (hb : 8 ≤ t.bits) {v : Int}
    (hv : t.In v) : v ≤ t.wrap to.max ↔ to.In v := by
  have hv0 : 0 ≤ v := by have := hv.1; simp only [IT.min, hs] at this; simpa using this
  have hmin : to.min ≤ 0 := by
    unfold IT.min; have := two_pow_pos (to.bits - 1); split <;> omega
  have hmax0 : 0 ≤ to.max := by rw [max_eq]; have := two_pow_pos (vbits to); omega
  by_cases h : to.max ≤ t.max
  · rw [IT.wrap_of_in t (by omega) ⟨by simp only [IT.min, hs]; simpa using hmax0, h⟩]
    exact ⟨fun h => ⟨by omega, h⟩, fun h => h.2⟩
  · have hk : t.bits ≤ vbits to := by
      have hv' : vbits t = t.bits := by simp [vbits, hs]
      rw [max_eq to, max_eq t, hv'] at h
      have := @pow_le_iff (vbits to) t.bits
      omega
    have e : t.wrap to.max = t.max := by
      have : t.wrap to.max = t.wrap t.max := by
        rw [IT.wrap_eq, IT.wrap_eq]
        congr 1
        apply IT.toBits_congr
        rw [max_eq to, ones_emod hk, max_eq t]
        have : vbits t = t.bits := by simp [vbits, hs]
        rw [this, ones_emod (Nat.le_refl _)]
      rw [this]
      apply IT.wrap_of_in t (by omega)
      exact ⟨by rw [max_eq]; simp only [IT.min, hs]; have := two_pow_pos (vbits t); simp; omega, Int.le_refl _⟩
    rw [e]
    exact ⟨fun h' => ⟨by omega, by omega⟩, fun _ => hv.2⟩

theorem upper_inv {a b : COperand} {c : Conversion} (h : upperBound a b = some c) :
    ∃ to fr, b = .limit true to fr ∧ c = ⟨.tryNew fr to, a, some to⟩ := by
  unfold upperBound at h
  split at h
  · exact ⟨_, _, rfl, (Option.some.inj h).symm⟩
  · simp at h

theorem lower_inv {a b : COperand} {c : Conversion} (h : lowerBound a b = some c) :
    (a = .zero ∧ c = ⟨.signedToUnsigned, b, none⟩) ∨
    ∃ to fr, a = .limit false to fr ∧ to.signed = true ∧ c = ⟨.tryNew fr to, b, some to⟩ := by
  unfold lowerBound at h
  split at h
  · exact .inl ⟨rfl, (Option.some.inj h).symm⟩
  · split at h
    · exact .inr ⟨_, _, rfl, by assumption, (Option.some.inj h).symm⟩
    · simp at h
  · simp at h

/-- Both bounds of a pair on a signed value, read together. -/
theorem pair_sound {pw : Nat} (hpw : 16 ≤ pw) {ρ : Nat → Int} {T : ITy} {l1 g1 l2 g2 : COperand}
    {u l c : Conversion} (hu : upperBound l1 g1 = some u) (hl : lowerBound l2 g2 = some l)
    (hc : u.combine l = some c) (t1 : g1.Typed pw ρ T) (t2 : l2.Typed pw ρ T) (hT : T.signed = true) {to : ITy}
    (hto : c.to = some to) (hfit : (to.it pw).max ≤ (T.it pw).max) :
    (l1.val pw ρ ≤ g1.val pw ρ ∧ l2.val pw ρ ≤ g2.val pw ρ) ↔ (to.it pw).In (c.e.val pw ρ) := by
  obtain ⟨to1, fr1, rfl, rfl⟩ := upper_inv hu
  simp only [COperand.Typed] at t1
  subst t1
  have bT := fr1.it_bits hpw
  have sT := fr1.it_signed pw
  unfold Conversion.combine at hc
  simp only [Option.isSome_some, if_true] at hc
  split at hc
  · rename_i hcond
    obtain ⟨hcvt, he, hty⟩ := hcond
    simp only [Option.some.injEq] at hc
    subst hc
    simp only [Option.some.injEq] at hto
    subst hto
    have bto := to1.it_bits hpw
    have sto := to1.it_signed pw
    have hmin : (fr1.it pw).min ≤ 0 := by
      unfold IT.min; have := two_pow_pos ((fr1.it pw).bits - 1); split <;> omega
    have hmax0 : 0 ≤ (to1.it pw).max := by rw [max_eq]; have := two_pow_pos (vbits (to1.it pw)); omega
    have emax : (fr1.it pw).wrap (to1.it pw).max = (to1.it pw).max :=
      IT.wrap_of_in _ (by omega) ⟨by omega, hfit⟩
    rcases lower_inv hl with ⟨rfl, rfl⟩ | ⟨to2, fr2, rfl, hs2, rfl⟩
    · simp only at hcvt he
      subst he
      simp only [COperand.val, emax]
      unfold ConvType.tryNew at hcvt
      rw [hT] at hcvt
      simp only [Bool.true_eq_false, if_false] at hcvt
      have us : to1.signed = false := by
        cases h : to1.signed
        · rfl
        · simp [h] at hcvt
      have : (to1.it pw).min = 0 := by simp [IT.min, sto, us]
      unfold IT.In
      rw [this]
      exact And.comm
    · simp only at hcvt he hty
      subst he
      simp only [compatibleTo, decide_eq_true_eq] at hty
      subst hty
      simp only [COperand.Typed] at t2
      subst t2
      have emin : (fr2.it pw).wrap (to1.it pw).min = (to1.it pw).min := by
        apply IT.wrap_of_in _ (by omega)
        constructor
        · rw [max_eq, max_eq] at hfit
          simp only [vbits, sT, sto, hT, hs2, if_true] at hfit
          simp only [IT.min, sT, sto, hT, hs2, if_true]
          omega
        · have : (to1.it pw).min ≤ 0 := by
            unfold IT.min; have := two_pow_pos ((to1.it pw).bits - 1); split <;> omega
          omega
      simp only [COperand.val, emax, emin]
      unfold IT.In
      exact And.comm
  · simp at hc

/-- **C29 (partial).** When the lint fires on a condition over values of type `T`, the condition has the same
value as the suggested `to::try_from(e).is_ok()`: always for a single upper bound, and for a pair of bounds if
`T` is signed and `to::MAX` is a value of `T`. Missing: pairs over unsigned values
(`unsigned_pair_wrong`) and limits that do not fit (`limit_truncated`). -/
theorem checkedConversion_partial {pw : Nat} (hpw : 16 ≤ pw) {ρ : Nat → Int} {T : ITy} {item : CItem}
    {e : COperand} {to : ITy} (h : checkedConversion item = some (e, to)) (ht : item.Typed pw ρ T)
    (hpair : (∃ a b, item = .le a b) ∨ (T.signed = true ∧ (to.it pw).max ≤ (T.it pw).max)) :
    item.val pw ρ = tryFromOk pw to (e.val pw ρ) := by
  cases item with
  | le a b =>
    simp only [checkedConversion] at h
    split at h
    · rename_i cv hcv
      obtain ⟨to', fr, rfl, rfl⟩ := upper_inv hcv
      simp only [Option.map_some] at h
      split at h
      · rename_i hu
        simp only [Option.some.injEq, Prod.mk.injEq] at h
        obtain ⟨rfl, rfl⟩ := h
        obtain ⟨ta, tb⟩ := ht
        simp only [COperand.Typed] at tb
        subst tb
        have us : fr.signed = false := by
          unfold ConvType.tryNew at hu
          cases h : fr.signed
          · rfl
          · simp only [h, Bool.true_eq_false, if_false] at hu
            split at hu <;> simp at hu
        simp only [CItem.val, tryFromOk, COperand.val]
        exact decide_eq_decide.2 (unsigned_upper (by rw [ITy.it_signed, us]) (fr.it_bits hpw)
          (COperand.val_in hpw ta))
      · simp at h
    · simp at h
  | and a b c d =>
    have hp : T.signed = true ∧ (to.it pw).max ≤ (T.it pw).max := by
      rcases hpair with ⟨_, _, h⟩ | h
      · simp at h
      · exact h
    obtain ⟨ta, tb, tc, td⟩ := ht
    simp only [checkedConversion] at h
    have fin : ∀ {cv : Conversion}, cv.to.map (fun t => (cv.e, t)) = some (e, to) → cv.to = some to ∧ cv.e = e := by
      intro cv h
      cases hc : cv.to with
      | none => simp [hc] at h
      | some t => simp [hc] at h; exact ⟨by rw [h.2], h.1⟩
    simp only [CItem.val, tryFromOk]
    rw [← Bool.decide_and]
    apply decide_eq_decide.2
    split at h
    · rename_i cv hcv
      obtain ⟨hto, he⟩ := fin h
      subst he
      split at hcv
      · rename_i c' hc'
        cases hcv
        split at hc'
        · rename_i u l hu hl
          exact pair_sound hpw hu hl hc' tb tc hp.1 hto hp.2
        · simp at hc'
      · split at hcv
        · rename_i u l hu hl
          rw [And.comm]
          exact pair_sound hpw hu hl hcv td ta hp.1 hto hp.2
        · simp at hcv
    · simp at h

/-- `x <= u8::MAX as i32 && x >= 0` becomes `u8::try_from(x).is_ok()`; the hypotheses hold for `x = 300`. -/
example :
    let item : CItem := .and (.atom 0) (.limit true .u8 .i32) .zero (.atom 0)
    checkedConversion item = some (.atom 0, .u8) ∧ item.Typed 64 (fun _ => 300) .i32 ∧
    (ITy.u8.it 64).max ≤ (ITy.i32.it 64).max := by
  refine ⟨rfl, ⟨?_, rfl, trivial, ?_⟩, by decide⟩ <;> (simp only [COperand.Typed]; decide)

example : checkedConversion (.le (.atom 0) (.limit true .i8 .u32)) = some (.atom 0, .i8) := rfl

/-- **C29 (violation).** `x <= i8::MAX as u32 && x >= i8::MIN as u32` is never true, since `i8::MIN as u32` is
4294967168; the suggested `i8::try_from(x).is_ok()` is true for `x = 5`. -/
theorem unsigned_pair_wrong :
    let item : CItem := .and (.atom 0) (.limit true .i8 .u32) (.limit false .i8 .u32) (.atom 0)
    checkedConversion item = some (.atom 0, .i8) ∧ item.Typed 64 (fun _ => 5) .u32 ∧
    item.val 64 (fun _ => 5) = false ∧ tryFromOk 64 .i8 5 = true := by
  refine ⟨rfl, ⟨?_, rfl, rfl, ?_⟩, by decide +kernel, by decide +kernel⟩ <;> (simp only [COperand.Typed]; decide)

/-- **C29 (violation).** `x <= u32::MAX as i32 && x >= 0` is never true, since `u32::MAX as i32` is -1; the
suggested `u32::try_from(x).is_ok()` is true for `x = 5`. -/
theorem limit_truncated :
    let item : CItem := .and (.atom 0) (.limit true .u32 .i32) .zero (.atom 0)
    checkedConversion item = some (.atom 0, .u32) ∧ item.Typed 64 (fun _ => 5) .i32 ∧
    item.val 64 (fun _ => 5) = false ∧ tryFromOk 64 .u32 5 = true := by
  refine ⟨rfl, ⟨?_, rfl, trivial, ?_⟩, by decide +kernel, by decide +kernel⟩ <;> (simp only [COperand.Typed]; decide)

end Verif.IntLints
