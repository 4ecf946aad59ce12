import Verif.Ops.Model
import Verif.Ops.BitMask

/-! C25: `identity_op` and `erasing_op`. -/

namespace Verif.Ops
open Verif.RInt Verif.Consts

/-- The constant clippy found for an operand (if any) stands for the operand's value. -/
def Known (S : Sess) (ty : Ty) (c : Option Constant) (v : Int) : Prop :=
  HasTy S ty (.int v) ∧ ∀ k, c = some k → Rep S ty k (.int v)

theorem zero_in (t : IT) : t.In 0 := by
  have := two_pow_pos (t.bits - 1)
  have := two_pow_pos t.bits
  unfold IT.In IT.min IT.max; split <;> omega

theorem one_in {t : IT} (h8 : 8 ≤ t.bits) : t.In 1 := by
  have h : (2 : Int) ^ 7 ≤ 2 ^ (t.bits - 1) := by
    have := Nat.pow_le_pow_right (n := 2) (by decide) (show 7 ≤ t.bits - 1 by omega)
    exact_mod_cast this
  have := two_pow_succ (show 0 < t.bits by omega)
  unfold IT.In IT.min IT.max; split <;> omega

theorem toBits_one {t : IT} (h8 : 8 ≤ t.bits) : t.toBits 1 = 1 := by
  have := toBits_of_nat h8 (n := 1) (by exact_mod_cast one_in h8)
  exact_mod_cast this

theorem toBits_zero (t : IT) : t.toBits 0 = 0 := by simp [IT.toBits]

theorem toBits_neg_one (w : Nat) (s : Bool) : IT.toBits ⟨s, w⟩ (-1) = 2 ^ w - 1 := by
  have hp := two_pow_pos w
  have : (-1 : Int) % 2 ^ w = 2 ^ w - 1 := by
    rw [← Int.add_emod_right]
    exact Int.emod_eq_of_lt (by omega) (by omega)
  have c := cast_two_pow w
  simp only [IT.toBits, this]; omega

/-- What a redundant operand is. -/
theorem redundant_value {S : Sess} (hS : S.Native) {ty : Ty} {c : Option Constant} {m x : Int} {t : IT}
    (ht : ty.it S = some t) (hk : Known S ty c x) (h : isRedundant S ty c m = true) :
    (m = 0 → x = 0) ∧ (m = -1 → t.toBits x = 2 ^ t.bits - 1) ∧ (m = 1 → x = 1) := by
  cases c with
  | none => simp [isRedundant] at h
  | some k =>
    have hr := hk.2 k rfl
    have b8 := Ty.it_bounds hS ht
    cases k <;> simp [isRedundant] at h
    simp only [Rep] at hr
    obtain ⟨t', ht', hin, rfl⟩ := hr
    rw [ht] at ht'
    cases ht'
    have h0 : t.toBits x = 0 → x = 0 := fun e =>
      (toBits_inj (by omega) hin (zero_in t)).1 (by rw [e, toBits_zero])
    have h1 : t.toBits x = 1 → x = 1 := fun e =>
      (toBits_inj (by omega) hin (one_in b8.1)).1 (by rw [e, toBits_one b8.1])
    cases ty <;> simp [Ty.it] at ht <;> simp only at h
    · rename_i ity
      subst ht
      refine ⟨fun e => h0 ?_, fun e => ?_, fun e => h1 ?_⟩ <;> subst e <;> simp at h
      · exact h
      · rw [h, unsext, unsextW_toBits (ity.bounds hS).2.2 true, toBits_neg_one]
      · exact h
    · rename_i uty
      subst ht
      refine ⟨fun e => h0 ?_, fun e => ?_, fun e => h1 ?_⟩ <;> subst e <;> simp at h
      · exact h
      · have hle : (2 : Nat) ^ uty.targetBits S ≤ 2 ^ 128 := Nat.pow_le_pow_right (by decide) (uty.bounds hS).2.2
        rw [h, clip, clipW_eq (uty.bounds hS).2.2]
        have e := npow_split (uty.bounds hS).2.2
        have hq := Nat.two_pow_pos (uty.targetBits S)
        have hp := Nat.two_pow_pos (128 - uty.targetBits S)
        obtain ⟨j, hj⟩ : ∃ j, 2 ^ (128 - uty.targetBits S) = j + 1 := ⟨2 ^ (128 - uty.targetBits S) - 1, by omega⟩
        rw [hj, Nat.mul_add] at e
        simp only at *
        rw [show 340282366920938463463374607431768211455 = 2 ^ uty.targetBits S - 1 + 2 ^ uty.targetBits S * j by omega,
          Nat.add_mul_mod_self_left, Nat.mod_eq_of_lt (by omega)]
      · exact h

theorem lift_checked {t : IT} {v : Int} (h : t.In v) : lift (t.checked v) = .ok (.int v) := by
  simp [IT.checked, h, lift]

theorem and_ones {t : IT} (h : 0 < t.bits) {x y : Int} (hx : t.In x) (hy : t.toBits y = 2 ^ t.bits - 1) :
    t.and x y = x := by
  rw [IT.and, hy, Nat.and_two_pow_sub_one_eq_mod, Nat.mod_eq_of_lt (t.toBits_lt x), t.ofBits_toBits h hx]

theorem or_zero {t : IT} (h : 0 < t.bits) {x : Int} (hx : t.In x) : t.or x 0 = x := by
  rw [IT.or, toBits_zero, Nat.or_zero, t.ofBits_toBits h hx]

theorem xor_zero {t : IT} (h : 0 < t.bits) {x : Int} (hx : t.In x) : t.xor x 0 = x := by
  rw [IT.xor, toBits_zero, Nat.xor_zero, t.ofBits_toBits h hx]

theorem tdiv_zero_of_lt {a b : Int} (h : (if a < 0 then -a else a) < (if b < 0 then -b else b)) :
    b ≠ 0 ∧ a.tdiv b = 0 ∧ a.tmod b = a := by
  have hb : b ≠ 0 := by
    intro e; subst e; simp at h; split at h <;> omega
  have e : a.tdiv b = 0 := by
    have : a.natAbs < b.natAbs := by split at h <;> split at h <;> omega
    rw [← Int.natAbs_eq_zero, Int.natAbs_tdiv]
    exact Nat.div_eq_of_lt this
  refine ⟨hb, e, ?_⟩
  have := Int.mul_tdiv_add_tmod a b
  rw [e] at this
  omega

/-- The result the lint promises: the operation evaluates to the operand that is kept. -/
def Side.Keeps (S : Sess) (op : BinOp) (ty : Ty) (x y : Int) : Side → Prop
  | .left => runStrict S op ty (.int x) (.int y) = .ok (.int x)
  | .right => runStrict S op ty (.int x) (.int y) = .ok (.int y)

/-- **C25 (partial), `identity_op`.** When the lint says that an integer operation has no effect and can be
reduced to one of its operands, the operation does not panic and evaluates to that operand, for all
operators, types and values, *unless* it is a remainder whose dividend is `i128::MIN`
(`remainder_min`). -/
theorem identityOp_partial {S : Sess} (hS : S.Native) {op : BinOp} {lt rt : Ty} {l r : Option Constant}
    {x y : Int} (hty : op.Typed S lt rt) (hl : Known S lt l x) (hr : Known S rt r y) {s : Side}
    (h : identityOp S op lt rt l r = some s) (hmin : op = .rem → x ≠ I128.min) :
    s.Keeps S op lt x y := by
  obtain ⟨t, ht, hx⟩ := hl.1
  obtain ⟨t', ht', hy⟩ := hr.1
  have b8 := Ty.it_bounds hS ht
  have hpos : 0 < t.bits := by omega
  have RL {m} := redundant_value hS (m := m) ht hl
  have RR {m} := redundant_value hS (m := m) ht' hr
  have same : op.isShift = false → t' = t := by
    intro hs
    have : lt = rt := by
      cases op <;> simp [BinOp.isShift] at hs <;>
        simp [BinOp.Typed, BinOp.isShift, BinOp.isArith] at hty <;> simp [hty]
    subst this
    rw [ht] at ht'
    cases ht'; rfl
  have run : runStrict S op lt (.int x) (.int y) = runInt op t x y := by simp only [runStrict, ht]
  cases op <;> simp only [identityOp] at h <;> (try (simp at h; done))
  case add =>
    obtain rfl := same rfl
    split at h
    · rename_i hz
      cases h
      simp only [Side.Keeps]; rw [run]; simp only [runInt, IT.add, (RL hz).1 rfl, Int.zero_add, lift_checked hy]
    · split at h <;> simp at h
      rename_i hz
      subst h
      simp only [Side.Keeps]; rw [run]; simp only [runInt, IT.add, (RR hz).1 rfl, Int.add_zero, lift_checked hx]
  case sub =>
    obtain rfl := same rfl
    split at h <;> simp at h
    rename_i hz
    subst h
    simp only [Side.Keeps]; rw [run]; simp only [runInt, IT.sub, (RR hz).1 rfl, Int.sub_zero, lift_checked hx]
  case mul =>
    obtain rfl := same rfl
    split at h
    · rename_i hz
      cases h
      simp only [Side.Keeps]; rw [run]; simp only [runInt, IT.mul, (RL hz).2.2 rfl, Int.one_mul, lift_checked hy]
    · split at h <;> simp at h
      rename_i hz
      subst h
      simp only [Side.Keeps]; rw [run]; simp only [runInt, IT.mul, (RR hz).2.2 rfl, Int.mul_one, lift_checked hx]
  case div =>
    split at h <;> simp at h
    rename_i hz
    subst h
    have : (1 : Int) ≠ 0 := by decide
    simp only [Side.Keeps]; rw [run]; simp only [runInt, IT.div, (RR hz).2.2 rfl, Int.tdiv_one, if_neg this, lift_checked hx]
  case rem =>
    obtain rfl := same rfl
    have hrem : (if x < 0 then -x else x) < (if y < 0 then -y else y) →
        runInt .rem t' x y = .ok (.int x) := by
      intro hlt
      obtain ⟨h1, h2, h3⟩ := tdiv_zero_of_lt hlt
      simp only [runInt, IT.rem, if_neg h1, h2, if_pos (zero_in t'), h3, lift]
    split at h <;> simp at h
    rename_i hz
    subst h
    simp only [Side.Keeps, run]
    apply hrem
    cases l with
    | none => simp [remainderRedundant] at hz
    | some lc =>
      cases r with
      | none => simp [remainderRedundant] at hz
      | some rc =>
        obtain ⟨f, hf, fx⟩ := intValue_sound hS (hl.2 lc rfl)
        obtain ⟨g, hg, gy⟩ := intValue_sound hS (hr.2 rc rfl)
        simp only [Option.bind_some, hf, hg] at hz
        cases f <;> cases g <;> simp [remainderRedundant] at hz <;>
          simp only [FullInt.toInt] at fx gy
        · subst fx gy
          rename_i v w
          have big : ∀ {z : Int}, t'.In z → I128.In z := by
            intro z hz
            have e1 : (2 : Int) ^ (t'.bits - 1) ≤ 2 ^ 127 := by
              have := Nat.pow_le_pow_right (n := 2) (by decide) (show t'.bits - 1 ≤ 127 by omega)
              exact_mod_cast this
            have sgn : t'.signed = true := by
              cases lt <;> simp [Ty.it] at ht <;> subst ht
              · rfl
              · cases lc <;> simp [intValue] at hf
            simp only [IT.In, IT.min, IT.max, sgn, I128] at hz ⊢
            simp at hz ⊢
            omega
          have hv := big hx
          have hw := big hy
          have hm := hmin rfl
          have abs : ∀ {z : Int}, I128.In z → z ≠ I128.min → i128Abs z = if z < 0 then -z else z := by
            intro z hz hne
            unfold i128Abs
            apply I128.wrap_of_in (by decide)
            simp only [IT.In, IT.min, IT.max, I128] at hz hne ⊢
            simp at hz hne ⊢
            split <;> omega
          rw [abs hv hm] at hz
          by_cases hwm : w = I128.min
          · have : i128Abs w = I128.min := by rw [hwm]; decide +kernel
            rw [this] at hz
            simp only [IT.min, I128] at hz
            simp at hz
            split at hz <;> omega
          · rw [abs hw hwm] at hz
            exact hz
        · subst fx gy
          rename_i v w
          have : ((v : Int) < w) := by exact_mod_cast hz
          rw [if_neg (by omega), if_neg (by omega)]
          exact this
  case shl =>
    split at h
    · simp at h
    · split at h <;> simp at h
      rename_i hz
      subst h
      have hb : (0 : Int) ≤ 0 ∧ (0 : Int) < t.bits := by omega
      simp only [Side.Keeps]; rw [run]; simp [runInt, IT.shl, (RR hz).1 rfl, hpos, lift, t.wrap_of_in hpos hx]
  case shr =>
    split at h <;> simp at h
    rename_i hz
    subst h
    simp only [Side.Keeps]; rw [run]; simp [runInt, IT.shr, (RR hz).1 rfl, hpos, lift]
  case bitAnd =>
    obtain rfl := same rfl
    split at h
    · rename_i hz
      cases h
      have e : t'.and x y = t'.and y x := by simp only [IT.and, Nat.and_comm]
      simp only [Side.Keeps]; rw [run]; simp only [runInt, e, and_ones hpos hy ((RL hz).2.1 rfl)]
    · split at h <;> simp at h
      rename_i hz
      subst h
      simp only [Side.Keeps]; rw [run]; simp only [runInt, and_ones hpos hx ((RR hz).2.1 rfl)]
  case bitOr =>
    obtain rfl := same rfl
    split at h
    · rename_i hz
      cases h
      have e : t'.or x y = t'.or y x := by simp only [IT.or, Nat.or_comm]
      simp only [Side.Keeps]; rw [run]; simp only [runInt]; rw [e, (RL hz).1 rfl, or_zero hpos hy]
    · split at h <;> simp at h
      rename_i hz
      subst h
      simp only [Side.Keeps]; rw [run]; simp only [runInt, (RR hz).1 rfl, or_zero hpos hx]
  case bitXor =>
    obtain rfl := same rfl
    split at h
    · rename_i hz
      cases h
      have e : t'.xor x y = t'.xor y x := by simp only [IT.xor, Nat.xor_comm]
      simp only [Side.Keeps]; rw [run]; simp only [runInt]; rw [e, (RL hz).1 rfl, xor_zero hpos hy]
    · split at h <;> simp at h
      rename_i hz
      subst h
      simp only [Side.Keeps]; rw [run]; simp only [runInt, (RR hz).1 rfl, xor_zero hpos hx]

-- `x & -1` for an `i16`, `7 % -9`
example : identityOp native64 .bitAnd (.int .i16) (.int .i16) none (some (.int 65535)) = some .left ∧
    Known native64 (.int .i16) (some (.int 65535)) (-1) ∧
    identityOp native64 .rem (.int .i8) (.int .i8) (some (.int 7)) (some (.int 247)) = some .left := by
  refine ⟨by decide +kernel, ⟨⟨_, rfl, by decide⟩, ?_⟩, by decide +kernel⟩
  intro k hk
  cases hk
  exact ⟨_, rfl, by decide, by decide⟩

/-- **C25 (violation).** `i128::MIN % 3` is said to have no effect (in a clippy built without overflow
checks; `lv.abs()` panics in one built with them), but it is -2. -/
theorem remainder_min :
    let t : IT := ⟨true, 128⟩
    identityOp native64 .rem (.int .i128) (.int .i128) (some (.int (t.toBits t.min))) (some (.int 3)) = some .left ∧
    runStrict native64 .rem (.int .i128) (.int t.min) (.int 3) = .ok (.int (-2)) := by
  exact ⟨by decide +kernel, rfl⟩

/-- **C25 (partial), `erasing_op`.** When the lint says that an integer operation always returns zero, the
operation gives zero whenever it gives a value, and it always gives a value, *unless* it is a
division (`0 / x` panics for `x = 0`: `erasing_div`). -/
theorem erasingOp_partial {S : Sess} (hS : S.Native) {op : BinOp} {ty : Ty} {l r : Option Constant}
    {x y : Int} (hl : Known S ty l x) (hr : Known S ty r y) (h : erasingOp op l r = true)
    (hdiv : op = .div → y ≠ 0) : runStrict S op ty (.int x) (.int y) = .ok (.int 0) := by
  obtain ⟨t, ht, hx⟩ := hl.1
  obtain ⟨t', ht', hy⟩ := hr.1
  rw [ht] at ht'
  cases ht'
  have b8 := Ty.it_bounds hS ht
  have hpos : 0 < t.bits := by omega
  have run : runStrict S op ty (.int x) (.int y) = runInt op t x y := by simp only [runStrict, ht]
  have zero : ∀ {c z}, Known S ty c z → isZero c = true → z = 0 := by
    intro c z hk hz
    unfold isZero at hz
    split at hz
    · have := hk.2 _ rfl
      simp only [Rep] at this
      obtain ⟨t', ht', hin, e⟩ := this
      rw [ht] at ht'
      cases ht'
      exact (toBits_inj hpos hin (zero_in t)).1 (by rw [toBits_zero, ← e])
    · simp at hz
  rw [run]
  cases op <;> simp only [erasingOp] at h <;> (try (simp at h; done))
  case mul =>
    rcases Bool.or_eq_true _ _ ▸ h with h | h
    · simp only [runInt, IT.mul, zero hl h, Int.zero_mul, lift_checked (zero_in t)]
    · simp only [runInt, IT.mul, zero hr h, Int.mul_zero, lift_checked (zero_in t)]
  case div =>
    simp only [runInt, IT.div, if_neg (hdiv rfl), zero hl h, Int.zero_tdiv, lift_checked (zero_in t)]
  case bitAnd =>
    rcases Bool.or_eq_true _ _ ▸ h with h | h
    · have e : t.and x y = t.and y x := by simp only [IT.and, Nat.and_comm]
      simp only [runInt]; rw [e, zero hl h, run_and_zero hpos]
    · simp only [runInt, zero hr h, run_and_zero hpos]

/-- **C25 (violation).** `0 / x` is said to always return zero; it panics for `x = 0`. -/
theorem erasing_div :
    erasingOp .div (some (.int 0)) none = true ∧
    runStrict native64 .div (.int .i32) (.int 0) (.int 0) = .error (.panic .divByZero) := by
  exact ⟨rfl, rfl⟩

example : erasingOp .bitAnd none (some (.int 0)) = true ∧ Known native64 (.int .i32) none 5 :=
  ⟨rfl, ⟨_, rfl, by decide⟩, by simp⟩

end Verif.Ops
