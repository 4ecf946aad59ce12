import Verif.IntLints.Saturating

/-! C34: lints that replace integer idioms by methods of the standard library. -/

namespace Verif.IntLints
open Verif.RInt

/-! ### manual_div_ceil -/

theorem ceil_core {x y : Int} (hx : 0 ≤ x) (hy : 0 < y) : (x + y - 1).tdiv y = ceilDiv x y := by
  rw [Int.tdiv_eq_ediv_of_nonneg (by omega), ceilDiv, Int.fdiv_eq_ediv_of_nonneg _ (by omega)]
  have h1 := Int.mul_ediv_add_emod (-x) y
  have h2 := Int.emod_nonneg (-x) (by omega : y ≠ 0)
  have h3 := Int.emod_lt_of_pos (-x) hy
  generalize (-x) / y = q at *
  generalize (-x) % y = r at *
  have e : x + y - 1 = (y - 1 - r) + y * (-q) := by rw [Int.mul_neg]; omega
  rw [e, Int.add_mul_ediv_left _ _ (by omega), Int.ediv_eq_zero_of_lt (by omega) (by omega)]
  omega

theorem differ_val {t : IT} {ρ : Nat → Res} : ∀ {a b : E} {sw : Bool} {x y : Int}, differ sw a b = true →
    eval t ρ a = .ok x → eval t ρ b = .ok y → if sw then x = y + 1 else y = x + 1 := by
  intro a
  induction a with
  | lit n =>
    intro b sw x y h ha hb
    cases b <;> simp only [differ, Bool.false_eq_true] at h
    rename_i m
    rw [lit_ok ha, lit_ok hb]
    cases sw <;> simp at h ⊢ <;> omega
  | neg a ih =>
    intro b sw x y h ha hb
    cases b <;> simp only [differ, Bool.false_eq_true] at h
    rename_i b
    simp only [eval] at ha hb
    obtain ⟨x', hx, ha⟩ := bind_ok ha
    obtain ⟨y', hy, hb⟩ := bind_ok hb
    have := (checked_ok ha).1
    have := (checked_ok hb).1
    have := ih h hx hy
    cases sw <;> simp at this ⊢ <;> omega
  | _ => intro b sw x y h; simp [differ] at h

theorem divCeil_lhs {t : IT} {ρ : Nat → Res} {signed features : Bool} {lhs rhs x : E} {vl vy : Int}
    (h : x ∈ manualDivCeil signed features lhs rhs) (hl : eval t ρ lhs = .ok vl) (hr : eval t ρ rhs = .ok vy) :
    ∃ vx, eval t ρ x = .ok vx ∧ (vl = vx + vy - 1 ∨ (vy ≠ 0 ∧ vl = vy * ceilDiv vx vy)) := by
  have minus : ∀ {e : E} {v : Int}, isMinusOne e rhs = true → eval t ρ e = .ok v → v = vy - 1 := by
    intro e v h he
    unfold isMinusOne at h
    split at h
    · simp only [Bool.and_eq_true, decide_eq_true_eq] at h
      obtain ⟨h1, rfl⟩ := h
      obtain ⟨a, b, ha, hb, hv⟩ := bin_ok he
      rw [hr] at ha
      injection ha with ha
      rw [isLit_eq h1] at hb
      have := lit_ok hb
      have := (checked_ok hv).1
      omega
    · simp at h
  unfold manualDivCeil at h
  split at h
  · simp at h
  · cases lhs with
    | bin op il ir =>
      obtain ⟨a, b, ha, hb, hv⟩ := bin_ok hl
      simp only at h
      split at h
      · rename_i hc
        obtain ⟨rfl, hc⟩ := hc
        simp only [List.mem_singleton] at h
        subst h
        have := minus hc hb
        have := (checked_ok hv).1
        exact ⟨a, ha, .inl (by omega)⟩
      · split at h
        · rename_i hc
          obtain ⟨rfl, hc⟩ := hc
          simp only [List.mem_singleton] at h
          subst h
          have := minus hc ha
          have := (checked_ok hv).1
          exact ⟨b, hb, .inl (by omega)⟩
        · simp only [List.mem_append] at h
          rcases h with ((h | h) | h) | h <;> split at h <;> (try (simp at h; done)) <;> rename_i hc <;>
            obtain ⟨rfl, hc⟩ := hc
          · -- (x + y - 1) / y
            rw [isLit_eq hc] at hb
            have := lit_ok hb
            have := (checked_ok hv).1
            unfold plusRhs at h
            split at h
            · split at h
              · rename_i he
                simp only [Option.toList_some, List.mem_singleton] at h
                subst he h
                obtain ⟨a', b', ha', hb', hv'⟩ := bin_ok ha
                rw [hr] at hb'
                injection hb' with hb'
                have := (checked_ok hv').1
                exact ⟨a', ha', .inl (by omega)⟩
              · simp at h
            · simp at h
          · simp only [List.mem_singleton] at h
            subst h
            have := differ_val hc hb hr
            have := (checked_ok hv).1
            simp at *
            exact ⟨a, ha, .inl (by omega)⟩
          · simp only [List.mem_singleton] at h
            subst h
            have := differ_val hc ha hr
            have := (checked_ok hv).1
            simp at *
            exact ⟨b, hb, .inl (by omega)⟩
          · simp only [List.mem_singleton] at h
            subst h
            unfold negPlusOne at hc
            split at hc
            · simp only [eval] at hr
              obtain ⟨y, hy, hr⟩ := bind_ok hr
              have := (checked_ok hr).1
              have := differ_val hc hy hb
              have := (checked_ok hv).1
              simp at *
              exact ⟨a, ha, .inl (by omega)⟩
            · simp at hc
    | nextMultipleOf e y =>
      simp only at h
      split at h
      · rename_i he
        simp only [List.mem_singleton] at h
        subst he h
        simp only [eval] at hl
        obtain ⟨a, ha, hl⟩ := bind_ok hl
        obtain ⟨b, hb, hl⟩ := bind_ok hl
        rw [hr] at hb
        injection hb with hb
        subst hb
        split at hl
        · simp at hl
        · rename_i h0
          exact ⟨a, ha, .inr ⟨h0, (checked_ok hl).1⟩⟩
      · simp at h
    | _ => simp at h

/-- **C34 (partial), `manual_div_ceil`.** When the lint fires on `lhs / rhs` and the division does not panic, it
equals `x.div_ceil(rhs)` for each suggested `x`, *if* the dividend is not negative and the divisor positive.
That is always so for unsigned types (`manualDivCeil_unsigned`); for signed types (`int_roundings`) see
`div_ceil_negative` and `div_ceil_negative_divisor`. -/
theorem manualDivCeil_partial {t : IT} {ρ : Nat → Res} {features : Bool} {lhs rhs x : E} {v vx vy : Int}
    (h : x ∈ manualDivCeil t.signed features lhs rhs) (hv : eval t ρ (.bin .div lhs rhs) = .ok v)
    (hx : eval t ρ x = .ok vx) (hy : eval t ρ rhs = .ok vy) (h0 : 0 ≤ vx) (hp : 0 < vy) : v = ceilDiv vx vy := by
  obtain ⟨a, b, ha, hb, hv⟩ := bin_ok hv
  obtain ⟨vx', hx', hl⟩ := divCeil_lhs h ha hb
  rw [hx] at hx'
  rw [hy] at hb
  injection hx' with hx'
  injection hb with hb
  subst hx' hb
  simp only [Op.run, IT.div] at hv
  rw [if_neg (by omega)] at hv
  have := (checked_ok hv).1
  rw [this]
  rcases hl with rfl | ⟨hne, rfl⟩
  · exact ceil_core h0 hp
  · exact Int.mul_tdiv_cancel_left _ hne

/-- **C34, `manual_div_ceil`** for unsigned types: the suggestion evaluates whenever the original does, to the same
value. -/
theorem manualDivCeil_unsigned {t : IT} (hs : t.signed = false) {ρ : Nat → Res} (hρ : Env t ρ) {features : Bool}
    {lhs rhs x : E} {v : Int} (h : x ∈ manualDivCeil t.signed features lhs rhs)
    (hv : eval t ρ (.bin .div lhs rhs) = .ok v) :
    ∃ vx vy, eval t ρ x = .ok vx ∧ eval t ρ rhs = .ok vy ∧ vy ≠ 0 ∧ v = ceilDiv vx vy := by
  obtain ⟨a, b, ha, hb, hr⟩ := bin_ok hv
  obtain ⟨vx, hx, _⟩ := divCeil_lhs h ha hb
  have hb0 := eval_nonneg hs hρ hb
  have hne : b ≠ 0 := by
    intro h
    subst h
    simp [Op.run, IT.div] at hr
  exact ⟨vx, b, hx, hb, hne, manualDivCeil_partial h hv hx hb (eval_nonneg hs hρ hx) (by omega)⟩

example :
    let t : IT := ⟨false, 32⟩
    E.atom 0 ∈ manualDivCeil false false (.bin .add (.atom 0) (.lit 6)) (.lit 7) ∧
    eval t (fun _ => .ok 8) (.bin .div (.bin .add (.atom 0) (.lit 6)) (.lit 7)) = .ok 2 ∧ ceilDiv 8 7 = 2 :=
  ⟨by decide, rfl, rfl⟩

/-- **C34 (violation).** With the `int_roundings` feature the lint also fires for signed types, where
`(-4 + (3 - 1)) / 3` is 0 but `(-4).div_ceil(3)` is -1. -/
theorem div_ceil_negative :
    let t : IT := ⟨true, 32⟩
    let lhs : E := .bin .add (.atom 0) (.bin .sub (.atom 1) (.lit 1))
    let ρ : Nat → Res := fun i => if i = 0 then .ok (-4) else .ok 3
    E.atom 0 ∈ manualDivCeil true true lhs (.atom 1) ∧
    eval t ρ (.bin .div lhs (.atom 1)) = .ok 0 ∧ ceilDiv (-4) 3 = -1 :=
  ⟨by decide, rfl, rfl⟩

/-- **C34 (violation).** `(x - 8) / -7` is taken for a `div_ceil` by -7: for `x = 7` it is 0, but
`7.div_ceil(-7)` is -1. -/
theorem div_ceil_negative_divisor :
    let t : IT := ⟨true, 32⟩
    let lhs : E := .bin .sub (.atom 0) (.lit 8)
    E.atom 0 ∈ manualDivCeil true true lhs (.neg (.lit 7)) ∧
    eval t (fun _ => .ok 7) (.bin .div lhs (.neg (.lit 7))) = .ok 0 ∧ ceilDiv 7 (-7) = -1 :=
  ⟨by decide, rfl, rfl⟩

/-! ### manual_midpoint -/

/-- **C34, `manual_midpoint`** (integers): if the original does not overflow, it is the midpoint. -/
theorem manualMidpoint_sound {t : IT} {ρ : Nat → Res} (hρ : Env t ρ) {op : Op} {l r a b : E} {v : Int}
    (h : manualMidpoint t.signed op l r = some (a, b)) (hv : eval t ρ (.bin op l r) = .ok v) :
    ∃ x y, eval t ρ a = .ok x ∧ eval t ρ b = .ok y ∧ v = midpoint x y := by
  unfold manualMidpoint at h
  split at h
  · rename_i req a' b' hop hadd
    split at h
    · simp at h
    · rename_i hc
      simp only [Option.some.injEq, Prod.mk.injEq] at h
      obtain ⟨rfl, rfl⟩ := h
      unfold addOperands at hadd
      split at hadd
      · simp only [Option.some.injEq, Prod.mk.injEq] at hadd
        obtain ⟨rfl, rfl⟩ := hadd
        obtain ⟨s, two, hs, htwo, hv⟩ := bin_ok hv
        obtain ⟨x, y, hx, hy, hsum⟩ := bin_ok hs
        have hsum' := (checked_ok hsum).1
        refine ⟨x, y, hx, hy, ?_⟩
        unfold midpointOp at hop
        split at hop
        · rename_i h2
          obtain ⟨rfl, h2⟩ := h2
          rw [isLit_eq h2] at htwo
          have := lit_ok htwo
          subst this
          simp only [Op.run, IT.div] at hv
          rw [if_neg (by simp)] at hv
          rw [(checked_ok hv).1, hsum', midpoint]
          rfl
        · split at hop
          · rename_i h2
            obtain ⟨rfl, h2⟩ := h2
            rw [isLit_eq h2] at htwo
            have := lit_ok htwo
            subst this
            injection hop with hop
            have us : t.signed = false := by
              cases hs : t.signed
              · rfl
              · exact absurd (.inr (.inr (.inl ⟨hop.symm, hs⟩))) hc
            have h0 := eval_nonneg us hρ hs
            simp only [Op.run, IT.shr] at hv
            split at hv
            · injection hv with hv
              rw [midpoint, ← hsum', Int.tdiv_eq_ediv_of_nonneg h0, ← hv]
              rfl
            · simp at hv
          · simp at hop
      · simp at hadd
  · simp at h

example : manualMidpoint true .div (.bin .add (.atom 0) (.atom 1)) (.lit 2) = some (.atom 0, .atom 1) ∧
    eval ⟨true, 8⟩ (fun i => if i = 0 then .ok (-4) else .ok 1)
      (.bin .div (.bin .add (.atom 0) (.atom 1)) (.lit 2)) = .ok (-1) := ⟨by decide, rfl⟩

/-! ### manual_is_multiple_of -/

/-- The recogniser of zero constants is right. -/
def SoundZero (t : IT) (ρ : Nat → Res) (zero : E → Bool) : Prop :=
  ∀ e v, zero e = true → eval t ρ e = .ok v → v = 0

/-- **C34, `manual_is_multiple_of`**: if the comparison evaluates (so the divisor is not 0), it says whether
the dividend is a multiple of the divisor. -/
theorem manualIsMultipleOf_sound {t : IT} (hs : t.signed = false) {ρ : Nat → Res} (hρ : Env t ρ) {zero : E → Bool}
    (hz : SoundZero t ρ zero) {op : Cmp} {l r a b : E} {neg c : Bool}
    (h : manualIsMultipleOf zero op l r = some (neg, a, b)) (hv : evalCmp t ρ op l r = .ok c) :
    ∃ x y, eval t ρ a = .ok x ∧ eval t ρ b = .ok y ∧ (c = !neg ↔ isMultipleOf x y) := by
  obtain ⟨vl, vr, hl, hr, rfl⟩ := cond_ok hv
  unfold manualIsMultipleOf at h
  simp only at h
  have rem : ∀ {e : E} {v : Int}, e.rem? = some (a, b) → eval t ρ e = .ok v →
      ∃ x y, eval t ρ a = .ok x ∧ eval t ρ b = .ok y ∧ 0 ≤ v ∧ (v = 0 ↔ isMultipleOf x y) := by
    intro e v he hv
    unfold E.rem? at he
    split at he
    · simp only [Option.some.injEq, Prod.mk.injEq] at he
      obtain ⟨rfl, rfl⟩ := he
      have h0 := eval_nonneg hs hρ hv
      obtain ⟨x, y, hx, hy, hrun⟩ := bin_ok hv
      refine ⟨x, y, hx, hy, h0, ?_⟩
      simp only [Op.run, IT.rem] at hrun
      split at hrun
      · simp at hrun
      · split at hrun
        · injection hrun with hrun
          rw [← hrun]
          exact ⟨fun h => Int.dvd_of_tmod_eq_zero h, fun h => Int.tmod_eq_zero_of_dvd h⟩
        · simp at hrun
    · simp at he
  have done : ∀ {e : E}, (e.rem?.map fun (x : E × E) => (decide (op ≠ .eq), x.1, x.2)) = some (neg, a, b) →
      e.rem? = some (a, b) ∧ neg = decide (op ≠ .eq) := by
    intro e h
    cases he : e.rem? with
    | none => simp [he] at h
    | some p =>
      simp only [he, Option.map_some, Option.some.injEq, Prod.mk.injEq] at h
      obtain ⟨rfl, rfl, rfl⟩ := h
      exact ⟨rfl, rfl⟩
  split at h
  · rename_i hc
    obtain ⟨hrem, rfl⟩ := done h
    obtain ⟨x, y, hx, hy, h0, hm⟩ := rem hrem hl
    refine ⟨x, y, hx, hy, ?_⟩
    have := hz _ _ hc.2.2 hr
    subst this
    rw [← hm]
    rcases hc.2.1 with rfl | rfl | rfl
    · simp [holds_int]
    · simp [← Bool.not_eq_true, holds_int]
    · simp [← Bool.not_eq_true, holds_int]; omega
  · split at h
    · rename_i hc
      obtain ⟨hrem, rfl⟩ := done h
      obtain ⟨x, y, hx, hy, h0, hm⟩ := rem hrem hr
      refine ⟨x, y, hx, hy, ?_⟩
      have := hz _ _ hc.2.2 hl
      subst this
      rw [← hm]
      rcases hc.2.1 with rfl | rfl | rfl
      · simp [holds_int]; omega
      · simp [← Bool.not_eq_true, holds_int]; omega
      · simp [← Bool.not_eq_true, holds_int]; omega
    · simp at h

example :
    let zero : E → Bool := fun e => e.isLit 0
    manualIsMultipleOf zero .gt (.bin .rem (.atom 0) (.atom 1)) (.lit 0) = some (true, .atom 0, .atom 1) ∧
    SoundZero ⟨false, 8⟩ (fun _ => .ok 3) zero := by
  refine ⟨by decide, ?_⟩
  intro e v h hv
  rw [isLit_eq h] at hv
  exact lit_ok hv

/-! ### verbose_bit_mask -/

/-- `trailing_zeros` of a pattern of `w` bits. -/
def trailingZeros : Nat → Nat → Nat
  | 0, _ => 0
  | w + 1, n => if n % 2 = 1 then 0 else trailingZeros w (n / 2) + 1

theorem le_trailing {w : Nat} : ∀ {n k : Nat}, k ≤ w → (k ≤ trailingZeros w n ↔ n % 2 ^ k = 0) := by
  induction w with
  | zero => intro n k h; have : k = 0 := by omega
            subst this; simp [trailingZeros, Nat.mod_one]
  | succ w ih =>
    intro n k h
    cases k with
    | zero => simp [Nat.mod_one]
    | succ k =>
      have e : n % 2 ^ (k + 1) = n % 2 + 2 * (n / 2 % 2 ^ k) := by
        rw [Nat.pow_succ, Nat.mul_comm, Nat.mod_mul]
      have := @ih (n / 2) k (by omega)
      rw [e]
      unfold trailingZeros
      split
      · omega
      · omega

/-- The number of significant bits. -/
def size (n : Nat) : Nat := if n = 0 then 0 else n.log2 + 1

theorem size_half {n : Nat} (h : n ≠ 0) : size n = size (n / 2) + 1 := by
  unfold size
  rw [if_neg h]
  by_cases h2 : 2 ≤ n
  · rw [if_neg (by omega), Nat.log2_def n, if_pos h2]
  · have : n = 1 := by omega
    subst this; decide

theorem count_le_size : ∀ {f n : Nat}, countOnes f n ≤ size n := by
  intro f
  induction f with
  | zero => intro n; simp [countOnes]
  | succ f ih =>
    intro n
    by_cases h : n = 0
    · subst h
      have := @ih 0
      simp [countOnes, size] at this ⊢; omega
    · rw [size_half h, countOnes]
      have := @ih (n / 2)
      omega

theorem ones_of_count : ∀ {f n : Nat}, countOnes f n = size n → n + 1 = 2 ^ countOnes f n := by
  intro f
  induction f with
  | zero =>
    intro n h
    have : n = 0 := by
      unfold size countOnes at h
      split at h <;> omega
    subst this; rfl
  | succ f ih =>
    intro n h
    by_cases h0 : n = 0
    · subst h0
      have : countOnes (f + 1) 0 = 0 := by rw [h]; rfl
      rw [this]
    · rw [size_half h0] at h
      have hc : countOnes (f + 1) n = n % 2 + countOnes f (n / 2) := rfl
      have hle := @count_le_size f (n / 2)
      have hn : n % 2 = 1 := by omega
      have := ih (n := n / 2) (by omega)
      rw [hc, hn, Nat.add_comm 1, Nat.pow_succ]
      omega

/-- **C34, `verbose_bit_mask`**: `x & n == 0` and `x.trailing_zeros() >= k` agree. -/
theorem verboseBitMask_sound {t : IT} (h0 : 0 < t.bits) (h128 : t.bits ≤ 128) {threshold n k : Nat} {x : Int}
    (h : verboseBitMask threshold n 0 = some k) (hn : t.In n) :
    t.and x n = 0 ↔ k ≤ trailingZeros t.bits (t.toBits x) := by
  unfold verboseBitMask at h
  split at h
  · rename_i hc
    obtain ⟨_, hc, hthr⟩ := hc
    injection h with h
    have nlt : n < 2 ^ t.bits := by
      have := hn.2
      have h1 := cast_two_pow t.bits
      have h2 := two_pow_succ h0
      have h3 := two_pow_pos (t.bits - 1)
      unfold IT.max at this
      split at this <;> omega
    have hsz : size n = countOnes 128 n := by
      have hle := @count_le_size 128 n
      have h128' : size n ≤ 128 := by
        unfold size
        split
        · omega
        · rename_i hne
          have : n.log2 < 128 := (Nat.log2_lt hne).2 (Nat.lt_of_lt_of_le nlt (Nat.pow_le_pow_right (by omega) h128))
          omega
      unfold leadingZeros at hc
      unfold size at *
      split at hc <;> rename_i hn0 <;> simp only [hn0, if_true, if_false] at * <;> omega
    have hpow := ones_of_count hsz.symm
    rw [h] at hpow
    have hkw : k ≤ t.bits := by
      have : 2 ^ k ≤ 2 ^ t.bits := by omega
      exact (Nat.pow_le_pow_iff_right (by omega)).1 this
    have hnb : t.toBits n = 2 ^ k - 1 := by
      have := t.toBits_cast n
      rw [Int.emod_eq_of_lt (by omega) (by rw [← cast_two_pow]; omega)] at this
      omega
    rw [le_trailing hkw, IT.and, hnb, Nat.and_two_pow_sub_one_eq_mod]
    have e := t.toBits_ofBits (t.toBits x % 2 ^ k)
    rw [Nat.mod_eq_of_lt (Nat.lt_of_le_of_lt (Nat.mod_le _ _) (t.toBits_lt x))] at e
    constructor
    · intro hz
      rw [hz] at e
      simpa [IT.toBits] using e.symm
    · intro hz
      rw [hz, IT.ofBits]
      have : ¬ (2 : Nat) ^ (t.bits - 1) ≤ 0 := by have := Nat.two_pow_pos (t.bits - 1); omega
      simp [this]
  · simp at h

example : verboseBitMask 1 15 0 = some 4 ∧ IT.In ⟨true, 32⟩ 15 ∧ verboseBitMask 1 14 0 = none := by
  refine ⟨by decide +kernel, by decide, by decide +kernel⟩

/-! ### manual_rem_euclid -/

/-- `check_for_unsigned_int_constant` gives the value of nonnegative constants. -/
def SoundUInt (t : IT) (ρ : Nat → Res) (constant : E → Option Nat) : Prop :=
  ∀ e c v, constant e = some c → eval t ρ e = .ok v → v = c

theorem rem_euclid_core {x c : Int} (hc : 0 < c) : (x.tmod c + c).tmod c = x % c := by
  have h1 := Int.tmod_lt_of_pos x hc
  have h2 : -c < x.tmod c := by
    rcases Int.le_total 0 x with h | h
    · have := Int.tmod_nonneg c h; omega
    · have := Int.tmod_lt_of_pos (-x) hc
      rw [Int.neg_tmod] at this; omega
  rw [Int.tmod_eq_emod_of_nonneg (by omega), Int.add_emod_right]
  have h3 := Int.mul_tdiv_add_tmod x c
  conv => rhs; rw [← h3]
  rw [Int.mul_add_emod_self_left]

/-- **C34, `manual_rem_euclid`**: `((x % c) + c) % c` is `x.rem_euclid(c)`, the remainder between 0 and `c`. -/
theorem manualRemEuclid_sound {t : IT} {ρ : Nat → Res} {constant : E → Option Nat} (hc : SoundUInt t ρ constant)
    {e x : E} {c : Nat} {v : Int} (h : manualRemEuclid constant e = some (x, c)) (hv : eval t ρ e = .ok v) :
    ∃ vx, eval t ρ x = .ok vx ∧ c ≠ 0 ∧ 0 ≤ v ∧ v < c ∧ ∃ q, vx = c * q + v := by
  have rem : ∀ {a b r : Int}, Op.run t .rem a b = .ok r → b ≠ 0 ∧ r = a.tmod b := by
    intro a b r h
    simp only [Op.run, IT.rem] at h
    split at h
    · simp at h
    · split at h
      · injection h with h; exact ⟨by assumption, h.symm⟩
      · simp at h
  unfold manualRemEuclid at h
  split at h
  · rename_i al ar ce
    split at h
    · rename_i c1 hc1
      simp only at h
      split at h
      · rename_i c2 i y heither
        split at h
        · rename_i hcond
          simp only [Option.some.injEq, Prod.mk.injEq] at h
          obtain ⟨rfl, rfl⟩ := h
          obtain ⟨rfl, hy⟩ := hcond
          obtain ⟨s, m, hs, hm, hrun⟩ := bin_ok hv
          obtain ⟨p, q, hp, hq, hadd⟩ := bin_ok hs
          obtain ⟨hm0, hvr⟩ := rem hrun
          have em := hc _ _ _ hc1 hm
          have hsum := (checked_ok hadd).1
          -- one operand is the constant, the other the inner remainder
          have key : ∃ vx, eval t ρ (.atom i) = .ok vx ∧ s = vx.tmod c1 + c1 := by
            cases hal : constant al with
            | some k =>
              simp only [hal, Option.some.injEq, Prod.mk.injEq] at heither
              obtain ⟨rfl, rfl⟩ := heither
              obtain ⟨vx, w, hx, hw, hr⟩ := bin_ok hq
              have := hc _ _ _ hal hp
              have := hc _ _ _ hy hw
              subst this
              exact ⟨vx, hx, by rw [hsum, (rem hr).2]; omega⟩
            | none =>
              simp only [hal] at heither
              cases har : constant ar with
              | none => simp [har] at heither
              | some k =>
                simp only [har, Option.map_some, Option.some.injEq, Prod.mk.injEq] at heither
                obtain ⟨rfl, rfl⟩ := heither
                obtain ⟨vx, w, hx, hw, hr⟩ := bin_ok hp
                have := hc _ _ _ har hq
                have := hc _ _ _ hy hw
                subst this
                exact ⟨vx, hx, by rw [hsum, (rem hr).2]; omega⟩
          obtain ⟨vx, hx, es⟩ := key
          have hpos : (0 : Int) < c1 := by omega
          have ev : v = vx % c1 := by rw [hvr, em, es, rem_euclid_core hpos]
          refine ⟨vx, hx, by omega, ?_, ?_, vx / c1, ?_⟩
          · rw [ev]; exact Int.emod_nonneg _ (by omega)
          · rw [ev]; exact Int.emod_lt_of_pos _ hpos
          · rw [ev]; exact (Int.mul_ediv_add_emod vx c1).symm
        · simp at h
      · simp at h
    · simp at h
  · simp at h

example :
    let constant : E → Option Nat := fun e => match e with | .lit n => some n | _ => none
    let e : E := .bin .rem (.bin .add (.bin .rem (.atom 0) (.lit 5)) (.lit 5)) (.lit 5)
    manualRemEuclid constant e = some (.atom 0, 5) ∧ eval ⟨true, 8⟩ (fun _ => .ok (-3)) e = .ok 2 ∧
    SoundUInt ⟨true, 8⟩ (fun _ => .ok (-3)) constant := by
  refine ⟨rfl, rfl, ?_⟩
  intro e c v h hv
  simp only at h
  split at h
  · injection h with h; subst h; exact lit_ok hv
  · simp at h

/-! ### manual_abs_diff -/

/-- The distance of two numbers (`abs_diff`). -/
def dist (a b : Int) : Int := if a ≤ b then b - a else a - b

/-- **C34, `manual_abs_diff`**: if the conditional does not overflow, it is the distance of the operands. -/
theorem manualAbsDiff_sound {t : IT} (h0 : 0 < t.bits) {ρ : Nat → Res} {op : Cmp} {l r thn els a b : E} {v : Int}
    (h : manualAbsDiff t.signed op l r thn els = some (a, b)) (hv : evalIf t ρ op l r thn els = .ok v) :
    ∃ x y, eval t ρ a = .ok x ∧ eval t ρ b = .ok y ∧ v = dist x y ∧ v = dist y x := by
  unfold evalIf at hv
  obtain ⟨c, hc, hv⟩ := bind_ok hv
  obtain ⟨vl, vr, hl, hr, rfl⟩ := cond_ok hc
  have sub : ∀ {e a b : E} {x y v : Int}, isSubExpr t.signed e a b = true → eval t ρ a = .ok x →
      eval t ρ b = .ok y → eval t ρ e = .ok v → y ≤ x → v = x - y := by
    intro e a b x y v h hx hy hv hle
    unfold isSubExpr at h
    have val : ∀ {w}, eval t ρ (.bin .sub a b) = .ok w → w = x - y ∧ t.In w := by
      intro w hw
      obtain ⟨p, q, hp, hq, hrun⟩ := bin_ok hw
      rw [hx] at hp
      rw [hy] at hq
      injection hp with hp
      injection hq with hq
      subst hp hq
      have := checked_ok hrun
      exact ⟨this.1, this.1 ▸ this.2⟩
    split at h
    · split at h
      · rename_i e'
        have := of_decide_eq_true h
        subst this
        simp only [eval] at hv
        obtain ⟨w, hw, hv⟩ := bind_ok hv
        have := val (w := w) (by simpa only [eval] using hw)
        injection hv with hv
        rw [← hv, t.toBits_cast, Int.emod_eq_of_lt (by omega)]
        · exact this.1
        · have h1 := this.2.2
          have h2 := two_pow_succ h0
          have h3 := two_pow_pos (t.bits - 1)
          unfold IT.max at h1
          split at h1 <;> omega
      · simp at h
    · have := of_decide_eq_true h
      subst this
      exact (val hv).1
  have both : ∀ {a b : E} {x y : Int} {c : Bool}, isSubExpr t.signed thn a b = true →
      isSubExpr t.signed els b a = true → eval t ρ a = .ok x → eval t ρ b = .ok y →
      (if c then eval t ρ thn else eval t ρ els) = .ok v → (c = true → y ≤ x) → (c = false → x ≤ y) →
      v = dist x y ∧ v = dist y x := by
    intro a b x y c h1 h2 hx hy hv ht hf
    unfold dist
    cases c
    · have := sub h2 hy hx (by simpa using hv) (hf rfl)
      have := hf rfl
      constructor <;> split <;> omega
    · have := sub h1 hx hy (by simpa using hv) (ht rfl)
      have := ht rfl
      constructor <;> split <;> omega
  unfold manualAbsDiff at h
  simp only at h
  cases op <;> simp only [reduceCtorEq] at h
  case gt | ge =>
    split at h
    · rename_i hsub
      simp only [Option.some.injEq, Prod.mk.injEq] at h
      obtain ⟨rfl, rfl⟩ := h
      refine ⟨vl, vr, hl, hr, both hsub.1 hsub.2 hl hr hv ?_ ?_⟩
      · intro h; rw [holds_int] at h; simp at h; omega
      · intro h; rw [← Bool.not_eq_true, holds_int] at h; simp at h; omega
    · simp at h
  case lt | le =>
    split at h
    · rename_i hsub
      simp only [Option.some.injEq, Prod.mk.injEq] at h
      obtain ⟨rfl, rfl⟩ := h
      refine ⟨vr, vl, hr, hl, both hsub.1 hsub.2 hr hl hv ?_ ?_⟩
      · intro h; rw [holds_int] at h; simp at h; omega
      · intro h; rw [← Bool.not_eq_true, holds_int] at h; simp at h; omega
    · simp at h

example :
    let thn : E := .castUnsigned (.bin .sub (.atom 0) (.atom 1))
    let els : E := .castUnsigned (.bin .sub (.atom 1) (.atom 0))
    let ρ : Nat → Res := fun i => if i = 0 then .ok (-3) else .ok 4
    manualAbsDiff true .gt (.atom 0) (.atom 1) thn els = some (.atom 0, .atom 1) ∧
    evalIf ⟨true, 8⟩ ρ .gt (.atom 0) (.atom 1) thn els = .ok 7 := ⟨by decide, rfl⟩

/-! ### manual_is_power_of_two -/

theorem count_zero : ∀ {f n : Nat}, n < 2 ^ f → (countOnes f n = 0 ↔ n = 0) := by
  intro f
  induction f with
  | zero => intro n h; simp at h; subst h; simp [countOnes]
  | succ f ih =>
    intro n h
    have hh : n / 2 < 2 ^ f := by rw [Nat.pow_succ] at h; omega
    have := @ih (n / 2) hh
    simp only [countOnes]
    omega

theorem count_one : ∀ {f n : Nat}, n < 2 ^ f → (countOnes f n = 1 ↔ ∃ k, n = 2 ^ k) := by
  intro f
  induction f with
  | zero =>
    intro n h
    simp at h
    subst h
    simp only [countOnes]
    constructor
    · intro h; simp at h
    · rintro ⟨k, h⟩; have := Nat.two_pow_pos k; omega
  | succ f ih =>
    intro n h
    have hh : n / 2 < 2 ^ f := by rw [Nat.pow_succ] at h; omega
    have h1 := @ih (n / 2) hh
    have h0 := @count_zero f (n / 2) hh
    simp only [countOnes]
    rcases Nat.mod_two_eq_zero_or_one n with hm | hm
    · rw [hm, Nat.zero_add, h1]
      constructor
      · rintro ⟨k, hk⟩; exact ⟨k + 1, by rw [Nat.pow_succ]; omega⟩
      · rintro ⟨k, hk⟩
        cases k with
        | zero => simp at hk; omega
        | succ k => exact ⟨k, by rw [Nat.pow_succ] at hk; omega⟩
    · rw [hm]
      constructor
      · intro h
        have : n / 2 = 0 := h0.1 (by omega)
        exact ⟨0, by simp; omega⟩
      · rintro ⟨k, hk⟩
        cases k with
        | zero => have := h0.2 (by simp at hk; omega); omega
        | succ k => rw [Nat.pow_succ] at hk; omega

theorem power_two_and {n : Nat} (h : n ≠ 0) : n &&& (n - 1) = 0 ↔ ∃ k, n = 2 ^ k :=
  Nat.and_sub_one_eq_zero_iff_isPowerOfTwo h

/-- **C34, `manual_is_power_of_two`**: if the comparison evaluates (with overflow checks `a - 1` panics for
`a = 0`), it says whether `a` is a power of two. Without overflow checks: `power_of_two_wrapping`. -/
theorem manualIsPowerOfTwo_sound {t : IT} (hs : t.signed = false) {ρ : Nat → Res} {l r a : E}
    {c : Bool} (h : manualIsPowerOfTwo l r = some a) (hin : ∀ v, eval t ρ a = .ok v → t.In v)
    (hv : evalCmp t ρ .eq l r = .ok c) :
    ∃ x, eval t ρ a = .ok x ∧ (c = true ↔ ∃ k : Nat, x = 2 ^ k) := by
  obtain ⟨vl, vr, hl, hr, rfl⟩ := cond_ok hv
  have nat : ∀ {x : Int}, t.In x → ((∃ k : Nat, t.toBits x = 2 ^ k) ↔ ∃ k : Nat, x = 2 ^ k) := by
    intro x hx
    have := toBits_unsigned hs hx
    constructor
    · rintro ⟨k, hk⟩; exact ⟨k, by rw [← this, hk]; simp⟩
    · rintro ⟨k, hk⟩
      refine ⟨k, ?_⟩
      have c := cast_two_pow k
      omega
  have ones : ∀ {e : E} {v : Int}, countOnesReceiver e = some a → eval t ρ e = .ok v →
      ∃ x, eval t ρ a = .ok x ∧ (v = 1 ↔ ∃ k : Nat, x = 2 ^ k) := by
    intro e v h hv
    unfold countOnesReceiver at h
    split at h
    · injection h with h
      subst h
      simp only [eval] at hv
      obtain ⟨x, hx, hv⟩ := bind_ok hv
      refine ⟨x, hx, ?_⟩
      injection hv with hv
      rw [← nat (hin _ hx), ← count_one (t.toBits_lt x)]
      omega
    · simp at h
  have minus : ∀ {e : E} {v : Int}, isAndMinusOne e = some a → eval t ρ e = .ok v →
      ∃ x, eval t ρ a = .ok x ∧ (v = 0 ↔ ∃ k : Nat, x = 2 ^ k) := by
    intro e v h hv
    have less : ∀ {g s : E}, isOneLess g s = some a → g = a ∧ s = .bin .sub a (.lit 1) := by
      intro g s h
      unfold isOneLess at h
      split at h
      · rename_i he; injection h with h; subst h; exact ⟨rfl, he⟩
      · simp at h
    have core : ∀ {x y : Int}, eval t ρ a = .ok x → eval t ρ (.bin .sub a (.lit 1)) = .ok y →
        ((t.toBits x &&& t.toBits y) = 0 ↔ ∃ k : Nat, x = 2 ^ k) := by
      intro x y hx hy
      obtain ⟨p, q, hp, hq, hrun⟩ := bin_ok hy
      rw [hx] at hp
      injection hp with hp
      subst hp
      have := lit_ok hq
      obtain ⟨e1, hyin⟩ := checked_ok hrun
      rw [← e1] at hyin
      have bx := toBits_unsigned hs (hin _ hx)
      have byy := toBits_unsigned hs hyin
      have hy0 : 0 ≤ y := by have := hyin.1; rwa [min_unsigned hs] at this
      have : t.toBits y = t.toBits x - 1 := by omega
      rw [this, power_two_and (by omega), nat (hin _ hx)]
    have zero : ∀ {n : Nat}, n < 2 ^ t.bits → (t.ofBits n = 0 ↔ n = 0) := by
      intro n hn
      rw [IT.ofBits]
      simp only [hs, Bool.false_eq_true, false_and, if_false, Nat.mod_eq_of_lt hn]
      omega
    unfold isAndMinusOne at h
    split at h
    · obtain ⟨x, y, hx, hy, hrun⟩ := bin_ok hv
      simp only [Op.run] at hrun
      injection hrun with hrun
      rw [← hrun, IT.and, zero (Nat.lt_of_le_of_lt Nat.and_le_left (t.toBits_lt _))]
      split at h
      · rename_i a' he
        injection h with h
        subst h
        obtain ⟨rfl, rfl⟩ := less he
        exact ⟨x, hx, core hx hy⟩
      · obtain ⟨rfl, rfl⟩ := less h
        rw [Nat.and_comm]
        exact ⟨y, hy, core hy hx⟩
    · simp at h
  have lits : ∀ {e : E} {n : Nat} {v : Int}, e.isLit n = true → eval t ρ e = .ok v → v = n := by
    intro e n v h hv
    rw [isLit_eq h] at hv
    exact lit_ok hv
  unfold manualIsPowerOfTwo at h
  split at h
  · rename_i a' he
    injection h with h
    subst h
    split at he
    · rename_i h1
      have := lits h1 hr
      obtain ⟨x, hx, hiff⟩ := ones he hl
      exact ⟨x, hx, by rw [holds_int, ← hiff, this]; simp⟩
    · simp at he
  · split at h
    · rename_i a' he
      injection h with h
      subst h
      split at he
      · rename_i h1
        have := lits h1 hl
        obtain ⟨x, hx, hiff⟩ := ones he hr
        exact ⟨x, hx, by rw [holds_int, ← hiff, this]; simp; omega⟩
      · simp at he
    · split at h
      · rename_i a' he
        injection h with h
        subst h
        split at he
        · rename_i h1
          have := lits h1 hr
          obtain ⟨x, hx, hiff⟩ := minus he hl
          exact ⟨x, hx, by rw [holds_int, ← hiff, this]; simp⟩
        · simp at he
      · split at h
        · rename_i h1
          have := lits h1 hl
          obtain ⟨x, hx, hiff⟩ := minus h hr
          exact ⟨x, hx, by rw [holds_int, ← hiff, this]; simp; omega⟩
        · simp at h

example : manualIsPowerOfTwo (.bin .bitAnd (.atom 0) (.bin .sub (.atom 0) (.lit 1))) (.lit 0) = some (.atom 0) ∧
    evalCmp ⟨false, 8⟩ (fun _ => .ok 64) .eq
      (.bin .bitAnd (.atom 0) (.bin .sub (.atom 0) (.lit 1))) (.lit 0) = .ok true := ⟨by decide, rfl⟩

/-- **C34 (violation in builds without overflow checks).** `0 & 0.wrapping_sub(1) == 0` is true, but 0 is not a power
of two. -/
theorem power_of_two_wrapping :
    let t : IT := ⟨false, 8⟩
    t.and 0 (t.wrap (0 - 1)) = 0 ∧ ¬ ∃ k : Nat, (0 : Int) = 2 ^ k := by
  refine ⟨by decide +kernel, ?_⟩
  rintro ⟨k, h⟩
  have := two_pow_pos k
  omega

/-! ### manual_ilog2 -/

theorem ilog_two : ∀ {f n : Nat}, n < 2 ^ f → ilogNat 2 f n = n.log2 := by
  intro f
  induction f with
  | zero => intro n h; simp at h; subst h; rfl
  | succ f ih =>
    intro n h
    unfold ilogNat
    rw [Nat.log2_def]
    have hh : n / 2 < 2 ^ f := by rw [Nat.pow_succ] at h; omega
    split
    · rw [if_neg (by omega)]
    · rw [if_pos (by omega), ih hh]

/-- **C34, `manual_ilog2`**: if the original does not panic, the operand is positive (so `ilog2` does not panic
either) and the value is the largest `k` with `2 ^ k ≤ x`. -/
theorem manualIlog2_sound {t : IT} (h8 : 8 ≤ t.bits) {ρ : Nat → Res} {e x : E} {v : Int}
    (h : manualIlog2 t.signed t.bits e = some x) (hin : ∀ w, eval t ρ x = .ok w → t.In w)
    (hv : eval t ρ e = .ok v) :
    ∃ vx : Nat, eval t ρ x = .ok vx ∧ ∃ k : Nat, v = k ∧ 2 ^ k ≤ vx ∧ vx < 2 ^ (k + 1) := by
  have fin : ∀ {n : Nat}, n ≠ 0 → 2 ^ n.log2 ≤ n ∧ n < 2 ^ (n.log2 + 1) := by
    intro n hn
    exact ⟨Nat.log2_self_le hn, Nat.lt_log2_self⟩
  unfold manualIlog2 at h
  split at h
  · rename_i lit y
    split at h
    · rename_i hc
      obtain ⟨hs, rfl⟩ := hc
      injection h with h
      subst h
      obtain ⟨p, q, hp, hq, hrun⟩ := bin_ok hv
      simp only [eval] at hq
      obtain ⟨w, hw, hq⟩ := bind_ok hq
      injection hq with hq
      have hwb := toBits_unsigned hs (hin _ hw)
      have := lit_ok hp
      obtain ⟨hsub, hin'⟩ := checked_ok hrun
      have h0 := hin'.1
      rw [min_unsigned hs] at h0
      have hne : t.toBits w ≠ 0 := by
        intro hz
        rw [hz, leadingZeros, if_pos rfl] at hq
        omega
      have hlt : (t.toBits w).log2 < t.bits := (Nat.log2_lt hne).2 (t.toBits_lt w)
      refine ⟨t.toBits w, by rw [hw, hwb], (t.toBits w).log2, ?_, fin hne⟩
      rw [leadingZeros, if_neg hne] at hq
      omega
    · simp at h
  · rename_i y b
    split at h
    · rename_i hb
      injection h with h
      subst h
      rw [isLit_eq hb] at hv
      simp only [eval] at hv
      obtain ⟨w, hw, hv⟩ := bind_ok hv
      obtain ⟨two, htwo, hv⟩ := bind_ok hv
      have : two = 2 := (checked_ok htwo).1
      subst this
      split at hv
      · simp at hv
      · rename_i hpos
        injection hv with hv
        have hwlt : w.toNat < 2 ^ t.bits := by
          have h1 := (hin _ hw).2
          have h2 := two_pow_succ (by omega : 0 < t.bits)
          have h3 := two_pow_pos (t.bits - 1)
          have h4 := cast_two_pow t.bits
          unfold IT.max at h1
          split at h1 <;> omega
        have e : w = (w.toNat : Int) := by omega
        refine ⟨w.toNat, by rw [hw, ← e], w.toNat.log2, ?_, fin (by omega)⟩
        rw [← hv]
        exact congrArg Int.ofNat (ilog_two hwlt)
    · simp at h
  · simp at h

example : manualIlog2 false 8 (.bin .sub (.lit 7) (.leadingZeros (.atom 0))) = some (.atom 0) ∧
    eval ⟨false, 8⟩ (fun _ => .ok 40) (.bin .sub (.lit 7) (.leadingZeros (.atom 0))) = .ok 5 :=
  ⟨by decide, rfl⟩

end Verif.IntLints
