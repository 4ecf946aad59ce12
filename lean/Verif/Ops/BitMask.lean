import Verif.Ops.Model
import Verif.Consts.Order
import Verif.Common.POrd

/-! C24: verdicts of `bad_bit_mask` and `ineffective_bit_mask`. -/

namespace Verif.Ops
open Verif.RInt Verif.Consts

/-! ### Specification -/

/-- `x bit_op m` in the integer type `t`. -/
def BitOp.run (t : IT) : BitOp → Int → Int → Int
  | .and => t.and
  | .or => t.or
  | .xor => t.xor

/-- The six comparison operators. -/
def cmpKind : BinOp → Option Cmp
  | .eq => some .eq | .ne => some .ne | .lt => some .lt | .le => some .le | .gt => some .gt
  | .ge => some .ge | _ => none

/-- `y k c`, or `c k y` if the operands are swapped. -/
def compared (k : Cmp) (swapped : Bool) (y c : Int) : Bool :=
  if swapped then intOrd.holds k c y else intOrd.holds k y c

/-- What a message claims about the comparison of `x bit_op m` with `c`. -/
def MaskMsg.True (t : IT) (k : Cmp) (swapped : Bool) (b : BitOp) (x m c : Int) : MaskMsg → Prop
  | .alwaysTrue => compared k swapped (b.run t x m) c = true
  | .alwaysFalse => compared k swapped (b.run t x m) c = false
  | .ineffective => compared k swapped (b.run t x m) c = compared k swapped x c

/-! ### Bits -/

theorem tz_dvd (f n : Nat) : 2 ^ tz f n ∣ n := by
  induction f generalizing n with
  | zero => simp [tz]
  | succ f ih =>
    unfold tz
    split
    · obtain ⟨k, hk⟩ := ih (n / 2)
      refine ⟨k, ?_⟩
      rw [Nat.pow_succ, Nat.mul_right_comm, ← hk]
      omega
    · simp

theorem tz_le (f n : Nat) : tz f n ≤ f := by
  induction f generalizing n with
  | zero => simp [tz]
  | succ f ih => unfold tz; split <;> simp [ih]

theorem to_dvd (f n : Nat) : 2 ^ to f n ∣ n + 1 := by
  induction f generalizing n with
  | zero => simp [to]
  | succ f ih =>
    unfold to
    split
    · obtain ⟨k, hk⟩ := ih (n / 2)
      refine ⟨k, ?_⟩
      rw [Nat.pow_succ, Nat.mul_right_comm, ← hk]
      omega
    · simp

theorem to_le (f n : Nat) : to f n ≤ f := by
  induction f generalizing n with
  | zero => simp [to]
  | succ f ih => unfold to; split <;> simp [ih]

theorem mask_shl {k : Nat} (h : k ≤ 128) : (2 ^ 128 - 1) * 2 ^ k % 2 ^ 128 = (2 ^ (128 - k) - 1) <<< k := by
  rw [Nat.shiftLeft_eq]
  have e := npow_split h
  have hp := Nat.two_pow_pos k
  have hq := Nat.two_pow_pos (128 - k)
  have e' : (2 ^ (128 - k) - 1) * 2 ^ k = 2 ^ 128 - 2 ^ k := by
    rw [Nat.sub_mul, Nat.mul_comm (2 ^ (128 - k)), e]; omega
  rw [e', Nat.sub_mul]
  have hle : 2 ^ k ≤ 2 ^ 128 := Nat.pow_le_pow_right (by decide) h
  obtain ⟨j, hj⟩ : ∃ j, 2 ^ k = j + 1 := ⟨2 ^ k - 1, by omega⟩
  have : 2 ^ 128 * 2 ^ k - 1 * 2 ^ k = (2 ^ 128 - 2 ^ k) + 2 ^ 128 * j := by
    rw [hj, Nat.mul_add]; omega
  rw [this, Nat.add_mul_mod_self_left, Nat.mod_eq_of_lt (by omega)]

theorem mask_zero {k op : Nat} (h : k ≤ 128) (hop : op < 2 ^ 128)
    (hz : ((2 ^ (128 - k) - 1) <<< k) &&& op = 0) : op / 2 ^ k = 0 := by
  rw [← Nat.shiftRight_eq_div_pow]
  apply Nat.eq_of_testBit_eq
  intro i
  rw [Nat.testBit_shiftRight, Nat.zero_testBit]
  by_cases hi : k + i < 128
  · have := congrArg (fun n => n.testBit (k + i)) hz
    simp only [Nat.testBit_and, Nat.zero_testBit, Nat.testBit_shiftLeft] at this
    rw [show k + i - k = i by omega, Nat.testBit_two_pow_sub_one] at this
    simpa [show i < 128 - k by omega] using this
  · exact Nat.testBit_lt_two_pow (Nat.lt_of_lt_of_le hop (Nat.pow_le_pow_right (by decide) (by omega)))

theorem high_or {k x m : Nat} (h : m / 2 ^ k = 0) : (x ||| m) / 2 ^ k = x / 2 ^ k := by
  rw [← Nat.shiftRight_eq_div_pow] at *
  rw [Nat.shiftRight_or_distrib, h, ← Nat.shiftRight_eq_div_pow]; simp

theorem high_xor {k x m : Nat} (h : m / 2 ^ k = 0) : (x ^^^ m) / 2 ^ k = x / 2 ^ k := by
  rw [← Nat.shiftRight_eq_div_pow] at *
  rw [Nat.shiftRight_xor_distrib, h, ← Nat.shiftRight_eq_div_pow]; simp

/-- Numbers with the same high bits compare in the same way with a multiple of `2 ^ k`. -/
theorem lt_high {k x y c : Nat} (hc : 2 ^ k ∣ c) (h : x / 2 ^ k = y / 2 ^ k) : x < c ↔ y < c := by
  obtain ⟨d, rfl⟩ := hc
  have hp := Nat.two_pow_pos k
  rw [Nat.mul_comm, ← Nat.div_lt_iff_lt_mul hp, ← Nat.div_lt_iff_lt_mul hp, h]

theorem gt_high {k x y c : Nat} (hc : 2 ^ k ∣ c + 1) (h : x / 2 ^ k = y / 2 ^ k) : c < x ↔ c < y := by
  have := lt_high hc h
  omega

theorem wrapping_zero {c op : Nat} (hop : op < 2 ^ 128)
    (h : maxWrappingShl (trailingZeros c) &&& op = 0) : ∃ k, 2 ^ k ∣ c ∧ op / 2 ^ k = 0 := by
  have hle := tz_le 128 c
  unfold maxWrappingShl trailingZeros at h
  by_cases he : tz 128 c = 128
  · rw [he, mask_shl (by decide)] at h
    exact ⟨0, by simp, mask_zero (by decide) hop h⟩
  · rw [Nat.mod_eq_of_lt (show tz 128 c < 128 by omega), mask_shl hle] at h
    exact ⟨_, tz_dvd 128 c, mask_zero hle hop h⟩

theorem unbounded_zero {c op : Nat} (hop : op < 2 ^ 128)
    (h : maxUnboundedShl (trailingOnes c) &&& op = 0) : ∃ k, 2 ^ k ∣ c + 1 ∧ op / 2 ^ k = 0 := by
  have hle := to_le 128 c
  unfold maxUnboundedShl trailingOnes at h
  refine ⟨_, to_dvd 128 c, ?_⟩
  split at h
  · rw [mask_shl hle] at h
    exact mask_zero hle hop h
  · rw [show to 128 c = 128 by omega]
    exact Nat.div_eq_of_lt hop

/-! ### The operations on bit patterns -/

/-- The operation on bit patterns. -/
def BitOp.bits : BitOp → Nat → Nat → Nat
  | .and, a, b => a &&& b
  | .or, a, b => a ||| b
  | .xor, a, b => a ^^^ b

theorem bits_run {t : IT} (b : BitOp) (x m : Int) :
    t.toBits (b.run t x m) = b.bits (t.toBits x) (t.toBits m) := by
  have hx := t.toBits_lt x
  have hm := t.toBits_lt m
  cases b <;> simp only [BitOp.run, BitOp.bits, IT.and, IT.or, IT.xor, IT.toBits_ofBits]
  · exact Nat.mod_eq_of_lt (Nat.xor_lt_two_pow hx hm)
  · exact Nat.mod_eq_of_lt (Nat.and_lt_two_pow _ hm)
  · exact Nat.mod_eq_of_lt (Nat.or_lt_two_pow hx hm)

theorem run_in {t : IT} (h : 0 < t.bits) (b : BitOp) (x m : Int) : t.In (b.run t x m) := by
  cases b <;> exact t.ofBits_in h _

/-- The mask may be on either side. -/
theorem run_comm (t : IT) (b : BitOp) (x m : Int) : b.run t x m = b.run t m x := by
  cases b <;> simp only [BitOp.run, IT.and, IT.or, IT.xor, Nat.and_comm, Nat.or_comm, Nat.xor_comm]

theorem run_and_zero {t : IT} (h : 0 < t.bits) (x : Int) : t.and x 0 = 0 := by
  have : t.toBits 0 = 0 := by simp [IT.toBits]
  rw [IT.and, this, Nat.and_zero]
  unfold IT.ofBits
  have := Nat.two_pow_pos (t.bits - 1)
  simp

/-- `MCmp` as a comparison. -/
def MCmp.run (c : MCmp) (y v : Int) : Bool :=
  let r := match c.kind with
    | .eq => decide (y = v)
    | .lt => decide (y < v)
    | .gt => decide (v < y)
  if c.negate then !r else r

theorem mcmp_spec {op : BinOp} {c : MCmp} (h : MCmp.ofBinOp op = some c) (swapped : Bool) :
    ∃ k, cmpKind op = some k ∧ ∀ y v, compared k swapped y v =
      (if swapped then c.swapOperands else c).run y v := by
  cases op <;> simp [MCmp.ofBinOp] at h <;> subst h <;> refine ⟨_, rfl, fun y v => ?_⟩ <;>
    cases swapped <;> simp [compared, intOrd_holds, MCmp.run, MCmp.swapOperands] <;>
    (try rw [Bool.eq_iff_iff]; simp) <;> omega

/-- What a message claims, for a normalised comparison. -/
def MaskMsg.Says (t : IT) (c : MCmp) (b : BitOp) (x m v : Int) : MaskMsg → Prop
  | .alwaysTrue => c.run (b.run t x m) v = true
  | .alwaysFalse => c.run (b.run t x m) v = false
  | .ineffective => c.run (b.run t x m) v = c.run x v

theorem says_ofResult {t : IT} {c : MCmp} {b : BitOp} {x m v : Int} {q : Bool}
    (h : c.run (b.run t x m) v = q) : (MaskMsg.ofResult q).Says t c b x m v := by
  cases q <;> exact h

theorem mask_core {t : IT} (h8 : 8 ≤ t.bits) (h128 : t.bits ≤ 128) {c : MCmp} {b : BitOp} {x m v : Int}
    (hx : t.In x) (hm : t.In m) (hv : t.In v)
    (ok : t.signed = true → b = .and → m = 0 → c.kind ≠ .eq → 0 ≤ v) {r : MaskMsg}
    (h : maskVerdict (!t.signed) c b (t.toBits m) (t.toBits v) = some r)
    (hgt : c.kind = .gt → b = .and ∧ m = 0 ∨ r = .ineffective) : r.Says t c b x m v := by
  have hpos : 0 < t.bits := by omega
  have hmb := t.toBits_lt m
  have hvb := t.toBits_lt v
  have hle : 2 ^ t.bits ≤ 2 ^ 128 := Nat.pow_le_pow_right (by decide) h128
  have zero : t.toBits m = 0 → m = 0 := by
    intro e
    have h0 : t.In 0 := by
      have := two_pow_pos (t.bits - 1)
      have := two_pow_pos t.bits
      unfold IT.In IT.min IT.max; split <;> omega
    exact (toBits_inj hpos hm h0).1 (by rw [e]; simp [IT.toBits])
  -- unsigned values are their bit patterns
  have uns : t.signed = false → ∀ y, t.In y → y = t.toBits y := by
    intro hs y hy
    obtain ⟨sg, w⟩ := t
    simp only at hs
    subst hs
    exact (toBits_unsigned hy).symm
  unfold maskVerdict at h
  split at h
  · rename_i h0
    obtain ⟨rfl, hz⟩ := h0
    have hm0 := zero hz
    subst hm0
    obtain rfl := Option.some.inj h
    apply says_ofResult
    have e0 : BitOp.and.run t x 0 = 0 := run_and_zero hpos x
    rw [e0]
    -- comparing 0 with `v`
    have hcase : (v = 0 ↔ t.toBits v = 0) := by
      constructor
      · intro e; rw [e]; simp [IT.toBits]
      · intro e
        have : t.In 0 := by
          have := two_pow_pos (t.bits - 1)
          have := two_pow_pos t.bits
          unfold IT.In IT.min IT.max; split <;> omega
        exact (toBits_inj hpos hv this).1 (by rw [e]; simp [IT.toBits])
    by_cases hk : c.kind = .eq
    · obtain ⟨k, n⟩ := c
      simp only at hk
      subst hk
      by_cases hv0 : v = 0
      · have := hcase.1 hv0
        simp only [MCmp.run, MCmp.matchesOrdering, this, hv0]; cases n <;> rfl
      · have h1 : t.toBits v ≠ 0 := fun e => hv0 (hcase.2 e)
        have h2 : compare 0 (t.toBits v) = .lt := by
          simp [compare, compareOfLessAndEq]; omega
        have h3 : (0 : Int) ≠ v := fun e => hv0 e.symm
        simp only [MCmp.run, MCmp.matchesOrdering, h2, h3]; cases n <;> rfl
    · have hv0 : 0 ≤ v := by
        cases hs : t.signed
        · rw [uns hs v hv]; exact Int.natCast_nonneg _
        · exact ok hs rfl rfl hk
      by_cases hvz : v = 0
      · have h1 := hcase.1 hvz
        obtain ⟨k, n⟩ := c
        have h2 : compare 0 (t.toBits v) = .eq := by rw [h1]; rfl
        rw [h2, hvz]
        cases k <;> cases n <;> rfl
      · have h1 : t.toBits v ≠ 0 := fun e => hvz (hcase.2 e)
        have h2 : compare 0 (t.toBits v) = .lt := by
          simp [compare, compareOfLessAndEq]; omega
        have h3 : (0 : Int) < v := by omega
        have h4 : ¬ v < 0 := by omega
        have h5 : (0 : Int) ≠ v := by omega
        obtain ⟨k, n⟩ := c
        cases k <;> simp [MCmp.run, MCmp.matchesOrdering, h2, h3, h4, h5]
  · rename_i h0
    obtain ⟨kind, neg⟩ := c
    have br := bits_run (t := t) b x m
    have bin := run_in hpos b x m
    have flip : ∀ {p : Prop} [Decidable p], ¬ p → (if neg = true then !decide p else decide p) = neg := by
      intro p _ hp; cases neg <;> simp [hp]
    have flip' : ∀ {p : Prop} [Decidable p], p → (if neg = true then !decide p else decide p) = !neg := by
      intro p _ hp; cases neg <;> simp [hp]
    cases kind <;> simp only at h
    · -- equality
      have hne : t.toBits (b.run t x m) ≠ t.toBits v → (b.run t x m) ≠ v := fun h e => h (by rw [e])
      cases b <;> simp only [BitOp.bits] at h br
      · simp at h
      · split at h <;> simp at h
        rename_i hbits
        subst h
        apply says_ofResult
        exact flip (hne fun e => hbits (by
          rw [← e, br, Nat.and_comm (t.toBits x), ← Nat.and_assoc, Nat.and_self]))
      · split at h <;> simp at h
        rename_i hbits
        subst h
        apply says_ofResult
        exact flip (hne fun e => hbits (by
          rw [← e, br, Nat.or_comm (t.toBits x), ← Nat.or_assoc, Nat.or_self]))
    all_goals
      split at h
      case isFalse => simp at h
      rename_i hs
      have hs : t.signed = false := by simpa using hs
      have ux := uns hs x hx
      have uv := uns hs v hv
      have uy := uns hs _ bin
      rw [br] at uy
    · -- less than
      cases b <;> simp only [BitOp.bits] at h uy
      · -- xor
        split at h
        · rename_i hz
          simp at h
          subst h
          apply says_ofResult
          apply flip
          rw [uv, hz.2, uy]; omega
        · split at h <;> simp at h
          rename_i hz
          subst h
          obtain ⟨k, h1, h2⟩ := wrapping_zero (by omega) hz
          have := lt_high h1 (high_xor (x := t.toBits x) h2)
          have e : (BitOp.xor.run t x m < v) ↔ (x < v) := by omega
          simp only [MaskMsg.Says, MCmp.run, decide_eq_decide.2 e]
      · split at h <;> simp at h
        subst h
        apply says_ofResult
        apply flip'
        have := Nat.and_le_right (n := t.toBits x) (m := t.toBits m)
        omega
      · split at h
        · simp at h
          subst h
          apply says_ofResult
          apply flip
          have := Nat.right_le_or (n := t.toBits x) (m := t.toBits m)
          omega
        · split at h <;> simp at h
          rename_i hz
          subst h
          obtain ⟨k, h1, h2⟩ := wrapping_zero (by omega) hz
          have := lt_high h1 (high_or (x := t.toBits x) h2)
          have e : (BitOp.or.run t x m < v) ↔ (x < v) := by omega
          simp only [MaskMsg.Says, MCmp.run, decide_eq_decide.2 e]
    · -- greater than
      cases b <;> simp only [BitOp.bits] at h uy
      · split at h <;> simp at h
        rename_i hz
        subst h
        obtain ⟨k, h1, h2⟩ := unbounded_zero (by omega) hz
        have := gt_high h1 (high_xor (x := t.toBits x) h2)
        have e : (v < BitOp.xor.run t x m) ↔ (v < x) := by omega
        simp only [MaskMsg.Says, MCmp.run, decide_eq_decide.2 e]
      · split at h <;> simp at h
        subst h
        rcases hgt rfl with hz | hz
        · exact absurd (by rw [hz.2]; simp [IT.toBits]) h0
        · cases neg <;> simp [MaskMsg.ofResult] at hz
      · split at h
        · simp at h
          subst h
          rcases hgt rfl with hz | hz
          · simp at hz
          · cases neg <;> simp [MaskMsg.ofResult] at hz
        · split at h <;> simp at h
          rename_i hz
          subst h
          obtain ⟨k, h1, h2⟩ := unbounded_zero (by omega) hz
          have := gt_high h1 (high_or (x := t.toBits x) h2)
          have e : (v < BitOp.or.run t x m) ↔ (v < x) := by omega
          simp only [MaskMsg.Says, MCmp.run, decide_eq_decide.2 e]

/-- The opposite message. -/
def MaskMsg.flip : MaskMsg → MaskMsg
  | .alwaysTrue => .alwaysFalse
  | .alwaysFalse => .alwaysTrue
  | .ineffective => .ineffective

theorem mask_gt {t : IT} (h8 : 8 ≤ t.bits) {c : MCmp} {b : BitOp} {x m v : Int}
    (hm : t.In m) (hv : t.In v) (hk : c.kind = .gt) (h0 : ¬(b = .and ∧ m = 0)) {r : MaskMsg}
    (h : maskVerdict (!t.signed) c b (t.toBits m) (t.toBits v) = some r) (hr : r ≠ .ineffective) :
    r.flip.Says t c b x m v := by
  have hpos : 0 < t.bits := by omega
  have uns : t.signed = false → ∀ y, t.In y → y = t.toBits y := by
    intro hs y hy
    obtain ⟨sg, w⟩ := t
    simp only at hs
    subst hs
    exact (toBits_unsigned hy).symm
  have zin : t.In 0 := by
    have := two_pow_pos (t.bits - 1)
    have := two_pow_pos t.bits
    unfold IT.In IT.min IT.max; split <;> omega
  obtain ⟨kind, neg⟩ := c
  simp only at hk
  subst hk
  have br := bits_run (t := t) b x m
  have bin := run_in hpos b x m
  unfold maskVerdict at h
  rw [if_neg (fun e => h0 ⟨e.1, (toBits_inj hpos hm zin).1 (by rw [e.2]; simp [IT.toBits])⟩)] at h
  simp only at h
  split at h
  case isFalse => simp at h
  rename_i hs
  have hs : t.signed = false := by simpa using hs
  have uv := uns hs v hv
  have uy := uns hs _ bin
  rw [br] at uy
  cases b <;> simp only [BitOp.bits] at h uy
  · split at h <;> simp at h
    exact absurd h.symm hr
  · split at h <;> simp at h
    subst h
    have := Nat.and_le_right (n := t.toBits x) (m := t.toBits m)
    have e : ¬ (v < BitOp.and.run t x m) := by omega
    cases neg <;> simp [MaskMsg.ofResult, MaskMsg.flip, MaskMsg.Says, MCmp.run, e]
  · split at h
    · simp at h
      subst h
      have := Nat.right_le_or (n := t.toBits x) (m := t.toBits m)
      have e : v < BitOp.or.run t x m := by omega
      cases neg <;> simp [MaskMsg.ofResult, MaskMsg.flip, MaskMsg.Says, MCmp.run, e]
    · split at h <;> simp at h
      exact absurd h.symm hr

/-! ### The property -/

/-- `x & m > c`, `x & m <= c` and their mirror images, with the constant on the right. -/
def greater (op : BinOp) (swapped : Bool) : Prop :=
  if swapped then op = .lt ∨ op = .ge else op = .gt ∨ op = .le

theorem greater_iff {op : BinOp} {c : MCmp} (h : MCmp.ofBinOp op = some c) (swapped : Bool) :
    (if swapped then c.swapOperands else c).kind = .gt ↔ greater op swapped := by
  cases op <;> simp [MCmp.ofBinOp] at h <;> subst h <;> cases swapped <;> simp [greater, MCmp.swapOperands]

theorem says_true {t : IT} {c : MCmp} {b : BitOp} {x m v : Int} {k : Cmp} {sw : Bool}
    (h : ∀ y v, compared k sw y v = c.run y v) (r : MaskMsg) :
    r.Says t c b x m v ↔ r.True t k sw b x m v := by
  cases r <;> simp [MaskMsg.Says, MaskMsg.True, h]

/-- **C24 (partial).** What `bad_bit_mask` and `ineffective_bit_mask` say about comparing `x op m` with `c`
(or `c` with `x op m`) is true of every value `x` of the type, for all masks and constants, *unless*
the mask is a zero `&` mask of a signed type and `c` is negative (`and_zero_negative`), or the comparison
is `>` or `<=` and the message is not "unaffected" (`gt_inverted`). -/
theorem maskCheck_partial {t : IT} (h8 : 8 ≤ t.bits) (h128 : t.bits ≤ 128) {op : BinOp} {swapped : Bool}
    {b : BitOp} {x m v : Int} (hx : t.In x) (hm : t.In m) (hv : t.In v) {r : MaskMsg}
    (h : maskCheck (!t.signed) op swapped b (t.toBits m) (t.toBits v) = some r)
    (hneg : t.signed = true → b = .and → m = 0 → op ≠ .eq → op ≠ .ne → 0 ≤ v)
    (hgt : greater op swapped → b = .and ∧ m = 0 ∨ r = .ineffective) :
    ∃ k, cmpKind op = some k ∧ r.True t k swapped b x m v := by
  unfold maskCheck at h
  cases hc : MCmp.ofBinOp op with
  | none => simp [hc] at h
  | some c =>
    simp only [hc] at h
    obtain ⟨k, hk, hr⟩ := mcmp_spec hc swapped
    refine ⟨k, hk, (says_true hr r).1 (mask_core h8 h128 hx hm hv ?_ h ?_)⟩
    · intro hs hb hz hne
      refine hneg hs hb hz ?_ ?_ <;>
        (intro e; subst e; simp [MCmp.ofBinOp] at hc; subst hc; cases swapped <;> exact hne rfl)
    · exact fun e => hgt ((greater_iff hc swapped).1 e)

/-- **C24 (violation).** For `>` and `<=` with an unsigned `&` or `|` mask, whenever the lint says "always
true" the comparison is always false, and whenever it says "always false" it is always true. -/
theorem gt_inverted {t : IT} (h8 : 8 ≤ t.bits) {op : BinOp} {swapped : Bool} {b : BitOp} {m v : Int}
    (hm : t.In m) (hv : t.In v) {r : MaskMsg}
    (h : maskCheck (!t.signed) op swapped b (t.toBits m) (t.toBits v) = some r)
    (hgt : greater op swapped) (hz : ¬(b = .and ∧ m = 0)) (hr : r ≠ .ineffective) (x : Int) :
    ∃ k, cmpKind op = some k ∧ r.flip.True t k swapped b x m v := by
  unfold maskCheck at h
  cases hc : MCmp.ofBinOp op with
  | none => simp [hc] at h
  | some c =>
    simp only [hc] at h
    obtain ⟨k, hk, hr'⟩ := mcmp_spec hc swapped
    exact ⟨k, hk, (says_true hr' _).1 (mask_gt h8 hm hv ((greater_iff hc swapped).2 hgt) hz h hr)⟩

/-- `x & 1 > 2` for a `u32` is reported as always true; it is always false. -/
theorem gt_inverted_witness :
    let t : IT := ⟨false, 32⟩
    maskCheck true .gt false .and (t.toBits 1) (t.toBits 2) = some .alwaysTrue ∧
    ∀ x, compared .gt false (t.and x 1) 2 = false := by
  refine ⟨by decide +kernel, fun x => ?_⟩
  obtain ⟨k, hk, h⟩ := gt_inverted (t := ⟨false, 32⟩) (op := .gt) (swapped := false) (b := .and) (m := 1)
    (v := 2) (by decide) (by decide) (by decide) (r := .alwaysTrue) (by decide +kernel) (.inl rfl)
    (by simp) (by simp) x
  cases hk
  exact h

/-- **C24 (violation).** `x & 0 > -1` for an `i32` is reported as always false; it is always true. -/
theorem and_zero_negative :
    let t : IT := ⟨true, 32⟩
    maskCheck false .gt false .and (t.toBits 0) (t.toBits (-1)) = some .alwaysFalse ∧
    ∀ x, compared .gt false (t.and x 0) (-1) = true := by
  refine ⟨by decide +kernel, fun x => ?_⟩
  rw [run_and_zero (by decide)]
  decide

-- `x | 3 < 8` is not affected by the mask, `2 == x & 1` is always false
example : maskCheck true .lt false .or 3 8 = some .ineffective ∧
    maskCheck true .eq true .and 1 2 = some .alwaysFalse ∧
    maskCheck true .gt false .xor 3 7 = some .ineffective := by decide +kernel

/-- **C24 (nothing is missed).** If a comparison of an unsigned `&` or `|` mask isn't called constant then it isn't: it is true for some value and
false for another one. (The mask isn't the neutral or absorbing one, and the bound isn't the extreme value which makes the comparison constant
without the mask.) -/
theorem mask_complete {t : IT} (h8 : 8 ≤ t.bits) (hs : t.signed = false) {op : BinOp} {swapped : Bool} {b : BitOp} {m v : Int}
    (hm : t.In m) (hv : t.In v) {k : Cmp} (hk : cmpKind op = some k)
    (h : maskCheck true op swapped b (t.toBits m) (t.toBits v) = none ∨
      maskCheck true op swapped b (t.toBits m) (t.toBits v) = some .ineffective)
    (hb : b = .and ∧ m ≠ 0 ∨ b = .or ∧ m ≠ t.max)
    (hlo : v ≠ 0 ∨ k = .eq ∨ k = .ne) (hhi : v ≠ t.max ∨ k = .eq ∨ k = .ne) :
    ∃ x y, t.In x ∧ t.In y ∧ compared k swapped (b.run t x m) v = true ∧ compared k swapped (b.run t y m) v = false := by
  obtain ⟨sg, w⟩ := t
  simp only at hs
  subst hs
  have hpos : 0 < w := by simp only at h8; omega
  have uns : ∀ y, IT.In ⟨false, w⟩ y → y = (IT.toBits ⟨false, w⟩ y : Int) := fun y hy => (toBits_unsigned hy).symm
  have hmin : IT.min ⟨false, w⟩ = 0 := rfl
  have zin : IT.In ⟨false, w⟩ 0 := by
    have := two_pow_pos w
    constructor
    · simp [hmin]
    · simp [IT.max]; omega
  have maxin : IT.In ⟨false, w⟩ (IT.max ⟨false, w⟩) := ⟨by have := two_pow_pos w; simp [IT.max, IT.min]; omega, Int.le_refl _⟩
  have r1 : ∀ x y, IT.In ⟨false, w⟩ (b.run ⟨false, w⟩ x y) := fun x y => run_in hpos b x y
  have andm : IT.and ⟨false, w⟩ m m = m := by rw [IT.and, Nat.and_self, IT.ofBits_toBits _ hpos hm]
  have orm : IT.or ⟨false, w⟩ 0 m = m := by
    have : IT.toBits ⟨false, w⟩ 0 = 0 := by simp [IT.toBits]
    rw [IT.or, this, Nat.zero_or, IT.ofBits_toBits _ hpos hm]
  have and0 : IT.and ⟨false, w⟩ 0 m = 0 := by rw [show IT.and ⟨false, w⟩ 0 m = IT.and ⟨false, w⟩ m 0 from run_comm _ .and 0 m, run_and_zero hpos]
  have ormax : IT.or ⟨false, w⟩ (IT.max ⟨false, w⟩) m = IT.max ⟨false, w⟩ := by
    have hle := (run_in (t := ⟨false, w⟩) hpos .or (IT.max ⟨false, w⟩) m).2
    have hge : IT.toBits ⟨false, w⟩ (IT.max ⟨false, w⟩) ≤ IT.toBits ⟨false, w⟩ (IT.or ⟨false, w⟩ (IT.max ⟨false, w⟩) m) := by
      rw [show IT.or ⟨false, w⟩ (IT.max ⟨false, w⟩) m = BitOp.or.run ⟨false, w⟩ (IT.max ⟨false, w⟩) m from rfl, bits_run]
      exact Nat.left_le_or
    have e1 := uns _ maxin
    have e2 := uns _ (run_in (t := ⟨false, w⟩) hpos .or (IT.max ⟨false, w⟩) m)
    simp only [BitOp.run] at hle e2
    omega
  have eqv : ∀ x, IT.In ⟨false, w⟩ x → (b.bits (IT.toBits ⟨false, w⟩ x) (IT.toBits ⟨false, w⟩ m) = IT.toBits ⟨false, w⟩ v → b.run ⟨false, w⟩ x m = v) := by
    intro x hx e
    have e2 := uns _ (r1 x m)
    rw [bits_run, e, ← uns v hv] at e2
    exact e2
  have hmv : (IT.toBits ⟨false, w⟩ m < IT.toBits ⟨false, w⟩ v ↔ m < v) := by have := uns m hm; have := uns v hv; omega
  have hm0 : IT.toBits ⟨false, w⟩ m = 0 ↔ m = 0 := by have := uns m hm; omega
  have v0 : 0 ≤ v := hv.1
  have v1 : v ≤ IT.max ⟨false, w⟩ := hv.2
  unfold maskCheck at h
  cases hc : MCmp.ofBinOp op with
  | none => cases op <;> simp [MCmp.ofBinOp, cmpKind] at hc hk
  | some c =>
    simp only [hc, Option.bind_some] at h
    obtain ⟨k', hk', hr⟩ := mcmp_spec hc swapped
    rw [hk] at hk'
    cases hk'
    have hkind : (if swapped then c.swapOperands else c).kind = .eq ∨ (v ≠ 0 ∧ v ≠ IT.max ⟨false, w⟩) := by
      cases op <;> simp [MCmp.ofBinOp, cmpKind] at hc hk <;> subst hc <;> subst hk <;> cases swapped <;>
        simp [MCmp.swapOperands] at hlo hhi ⊢ <;> exact ⟨hlo, hhi⟩
    simp only [hr]
    generalize (if swapped then c.swapOperands else c) = d at *
    -- it is enough to find values on both sides of the comparison without the negation
    have fin : (∃ x y, IT.In ⟨false, w⟩ x ∧ IT.In ⟨false, w⟩ y ∧ MCmp.run ⟨d.kind, false⟩ (b.run ⟨false, w⟩ x m) v = true ∧
        MCmp.run ⟨d.kind, false⟩ (b.run ⟨false, w⟩ y m) v = false) →
        ∃ x y, IT.In ⟨false, w⟩ x ∧ IT.In ⟨false, w⟩ y ∧ d.run (b.run ⟨false, w⟩ x m) v = true ∧ d.run (b.run ⟨false, w⟩ y m) v = false := by
      rintro ⟨x, y, hx, hy, e1, e2⟩
      obtain ⟨kd, ng⟩ := d
      cases ng
      · exact ⟨x, y, hx, hy, e1, e2⟩
      · refine ⟨y, x, hy, hx, ?_, ?_⟩
        · simp [MCmp.run] at e2 ⊢; cases kd <;> simp at e2 ⊢ <;> omega
        · simp [MCmp.run] at e1 ⊢; cases kd <;> simp at e1 ⊢ <;> omega
    apply fin
    obtain ⟨kd, ng⟩ := d
    simp only [maskVerdict] at h
    have hz : ¬(b = .and ∧ IT.toBits ⟨false, w⟩ m = 0) := by
      rintro ⟨e1, e2⟩
      rcases hb with ⟨_, h0⟩ | ⟨e3, _⟩
      · exact h0 (hm0.1 e2)
      · rw [e1] at e3; cases e3
    rw [if_neg hz] at h
    have noRes : ∀ q, ¬(some (MaskMsg.ofResult q) = none ∨ some (MaskMsg.ofResult q) = some .ineffective) := by
      intro q; cases q <;> simp [MaskMsg.ofResult]
    rcases hb with ⟨rfl, h0⟩ | ⟨rfl, h0⟩ <;> cases kd <;> simp only [MCmp.run, BitOp.run, if_true] at h hkind ⊢
    · by_cases hx : IT.toBits ⟨false, w⟩ m &&& IT.toBits ⟨false, w⟩ v ≠ IT.toBits ⟨false, w⟩ v
      · rw [if_pos hx] at h; exact absurd h (noRes _)
      · have e := eqv v hv (by rw [BitOp.bits, Nat.and_comm]; exact Decidable.not_not.1 hx)
        simp only [BitOp.run] at e
        by_cases hv0 : v = 0
        · refine ⟨v, m, hv, hm, by simp [e], ?_⟩
          simp [andm]; omega
        · refine ⟨v, 0, hv, zin, by simp [e], ?_⟩
          simp [and0]; omega
    · by_cases hx : IT.toBits ⟨false, w⟩ m < IT.toBits ⟨false, w⟩ v
      · rw [if_pos hx] at h; exact absurd h (noRes _)
      · refine ⟨0, m, zin, hm, ?_, ?_⟩
        · simp [and0]; rcases hkind with e | e
          · cases e
          · omega
        · simp [andm]; rw [hmv] at hx; omega
    · by_cases hx : IT.toBits ⟨false, w⟩ m ≤ IT.toBits ⟨false, w⟩ v
      · rw [if_pos hx] at h; exact absurd h (noRes _)
      · refine ⟨m, 0, hm, zin, ?_, ?_⟩
        · simp [andm]; have := uns m hm; have := uns v hv; omega
        · simp [and0]; omega
    · by_cases hx : IT.toBits ⟨false, w⟩ m ||| IT.toBits ⟨false, w⟩ v ≠ IT.toBits ⟨false, w⟩ v
      · rw [if_pos hx] at h; exact absurd h (noRes _)
      · have e := eqv v hv (by rw [BitOp.bits, Nat.or_comm]; exact Decidable.not_not.1 hx)
        simp only [BitOp.run] at e
        by_cases hv0 : v = IT.max ⟨false, w⟩
        · refine ⟨v, 0, hv, zin, by simp [e], ?_⟩
          simp [orm]; omega
        · refine ⟨v, IT.max ⟨false, w⟩, hv, maxin, by simp [e], ?_⟩
          simp [ormax]; omega
    · by_cases hx : IT.toBits ⟨false, w⟩ m ≥ IT.toBits ⟨false, w⟩ v
      · rw [if_pos hx] at h; exact absurd h (noRes _)
      · refine ⟨0, IT.max ⟨false, w⟩, zin, maxin, ?_, ?_⟩
        · simp [orm]; have := uns m hm; have := uns v hv; omega
        · simp [ormax]; omega
    · by_cases hx : IT.toBits ⟨false, w⟩ m > IT.toBits ⟨false, w⟩ v
      · rw [if_pos hx] at h; exact absurd h (noRes _)
      · refine ⟨IT.max ⟨false, w⟩, 0, maxin, zin, ?_, ?_⟩
        · simp [ormax]
          rcases hkind with e | e
          · cases e
          · omega
        · simp [orm]; have := uns m hm; have := uns v hv; omega

example : maskCheck true .lt false .or 3 4 = some .ineffective ∧ maskCheck true .gt false .and 6 4 = none ∧
    maskCheck true .lt true .or 8 12 = none := by decide +kernel

end Verif.Ops
