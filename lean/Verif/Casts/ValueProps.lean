import Verif.Casts.TruncWitness

/-! C61: the lints about casts of integers whose value isn't known, taken together; casts to floating point numbers; casts which can't lose anything. -/

namespace Verif.Casts
open Verif.RInt

/-! ## Which types contain all values of another type -/

/-- All values of `frm` are values of `to`. -/
def contains (frm to : IT) : Bool :=
  match frm.signed, to.signed with
  | false, false => decide (frm.bits ≤ to.bits)
  | true, true => decide (frm.bits ≤ to.bits)
  | false, true => decide (frm.bits < to.bits)
  | true, false => false

theorem contains_sound {frm to : IT} (h : contains frm to = true) {v : Int} (hv : frm.In v) : to.In v := by
  obtain ⟨fs, fb⟩ := frm
  obtain ⟨ts, tb⟩ := to
  cases fs <;> cases ts <;> simp only [contains, decide_eq_true_eq] at h
  · rw [it_unsigned rfl] at hv ⊢
    have : (2 : Int) ^ fb ≤ 2 ^ tb := pow_mono h
    simp only at *
    omega
  · rw [it_unsigned rfl] at hv
    rw [it_signed rfl]
    have : (2 : Int) ^ fb ≤ 2 ^ (tb - 1) := pow_mono (by omega)
    simp only at *
    have := two_pow_pos (tb - 1)
    omega
  · cases h
  · rw [it_signed rfl] at hv ⊢
    have : (2 : Int) ^ (fb - 1) ≤ 2 ^ (tb - 1) := pow_mono (by omega)
    simp only at *
    omega

theorem pow_lt {a b : Nat} (h : a < b) : (2 : Int) ^ a < 2 ^ b := by
  have h1 : (2 : Int) ^ (a + 1) ≤ 2 ^ b := pow_mono h
  have h2 : (2 : Int) ^ (a + 1) = 2 ^ a * 2 := Int.pow_succ ..
  have := two_pow_pos a
  omega

theorem contains_complete {frm to : IT} (h0 : 0 < frm.bits) (ht : 0 < to.bits) (h : contains frm to = false) : ∃ v, frm.In v ∧ ¬to.In v := by
  obtain ⟨fs, fb⟩ := frm
  obtain ⟨ts, tb⟩ := to
  simp only at h0 ht
  have pf := two_pow_pos fb
  have pf1 := two_pow_pos (fb - 1)
  have pt := two_pow_pos tb
  cases fs <;> cases ts <;> simp only [contains, decide_eq_false_iff_not] at h
  · refine ⟨2 ^ tb, (it_unsigned rfl).2 ⟨by omega, ?_⟩, fun hc => ?_⟩
    · exact pow_lt (Nat.lt_of_not_le h)
    · have := ((it_unsigned rfl).1 hc).2
      simp only at this; omega
  · refine ⟨2 ^ fb - 1, (it_unsigned rfl).2 ⟨by omega, by simp only; omega⟩, fun hc => ?_⟩
    have := ((it_signed rfl).1 hc).2
    simp only at this
    have : (2 : Int) ^ (tb - 1) ≤ 2 ^ (fb - 1) := pow_mono (by omega)
    have := two_pow_succ h0
    omega
  · refine ⟨-1, (it_signed rfl).2 ⟨by simp only; omega, by simp only; omega⟩, fun hc => ?_⟩
    have := ((it_unsigned rfl).1 hc).1
    omega
  · refine ⟨2 ^ (tb - 1), (it_signed rfl).2 ⟨?_, ?_⟩, fun hc => ?_⟩
    · have := two_pow_pos (tb - 1); simp only; omega
    · exact pow_lt (show tb - 1 < fb - 1 by omega)
    · have := ((it_signed rfl).1 hc).2
      simp only at this; omega

/-- A cast keeps all values of the type. -/
def Keeps (q : Nat) (frm to : ITy) : Prop := ∀ v, (frm.it q).In v → (to.it q).wrap v = v

theorem std_pos {t : ITy} (h : t.Std) {q : Nat} (hq : 0 < q) : 0 < (t.it q).bits := by
  simp only [ITy.it, ITy.bits]
  cases hw : t.width with
  | none => exact hq
  | some n =>
    have := h n hw
    simp only [List.mem_cons, List.not_mem_nil, or_false] at this
    simp only [Option.getD_some]; omega

theorem keeps_iff {q : Nat} (hq : 0 < q) {frm to : ITy} (hf : frm.Std) (ht : to.Std) : Keeps q frm to ↔ contains (frm.it q) (to.it q) = true := by
  constructor
  · intro h
    refine Decidable.byContradiction fun hn => ?_
    obtain ⟨v, h1, h2⟩ := contains_complete (std_pos hf hq) (std_pos ht hq) (by simpa using hn)
    have := IT.wrap_in (to.it q) (std_pos ht hq) v
    rw [h v h1] at this
    exact h2 this
  · intro h v hv
    exact IT.wrap_of_in _ (std_pos ht hq) (contains_sound h hv)

/-! ## The three lints together -/

/-- None of the three lints is emitted for a cast of a variable. -/
def silent (K : E → Option Nat) (p : Nat) (k : Nat) (frm to : ITy) : Bool :=
  !truncates K p (.atom frm k) to && !losesSign K p (.atom frm k) to && decide (wraps p frm to = .no)

/-- The types of integers. -/
def allTypes : List ITy := [false, true].flatMap fun s => [none, some 8, some 16, some 32, some 64, some 128].map fun w => ⟨s, w⟩

theorem mem_allTypes {t : ITy} (h : t.Std) : t ∈ allTypes := by
  obtain ⟨s, w⟩ := t
  cases w with
  | none => cases s <;> decide
  | some n =>
    have := h n rfl
    simp only [List.mem_cons, List.not_mem_nil, or_false] at this
    rcases this with rfl | rfl | rfl | rfl | rfl <;> cases s <;> decide

/-- What the lints depend on for a variable. -/
def silentTy (p : Nat) (frm to : ITy) : Bool :=
  !truncLint p frm to (frm.bits p) && !(frm.signed && !to.signed) && decide (wraps p frm to = .no)

theorem silent_eq {K : E → Option Nat} {p : Nat} {k : Nat} {frm to : ITy} (hK : K (.atom frm k) = none) : silent K p k frm to = silentTy p frm to := by
  have hs : exprSign K p (.atom frm k) = .uncertain := by
    simp [exprSign, constSign, constSigned, constUnsigned, hK]
  have : losesSign K p (.atom frm k) to = (frm.signed && !to.signed) := by
    simp [losesSign, hs, E.ty, muldivPeel, addPeel, muldivSign, addSign]
  simp only [silent, silentTy, this]
  rfl

/-- **C61.** If none of the three lints is emitted for a cast of a variable, then the cast keeps every value, on targets with 32-bit and with 64-bit pointers,
except for casts of 128-bit integers to types as wide as a pointer. -/
theorem silent_keeps {K : E → Option Nat} {p q k : Nat} (hp : p = 32 ∨ p = 64) (hq : q = 32 ∨ q = 64) {frm to : ITy} (hf : frm.Std) (ht : to.Std)
    (hK : K (.atom frm k) = none) (h128 : to.ptrSized = true → frm.width ≠ some 128) (h : silent K p k frm to = true) : Keeps q frm to := by
  rw [keeps_iff (by omega) hf ht]
  rw [silent_eq hK] at h
  have table : ∀ frm ∈ allTypes, ∀ to ∈ allTypes, ∀ p ∈ [32, 64], ∀ q ∈ [32, 64], (to.ptrSized = true → frm.width ≠ some 128) → silentTy p frm to = true →
      contains (frm.it q) (to.it q) = true := by decide +kernel
  exact table frm (mem_allTypes hf) to (mem_allTypes ht) p (by simpa using hp) q (by simpa using hq) h128 h

/-- The exception: `u128 as isize` is silent. -/
theorem silent_loses : silent (litK 64) 64 0 (uN 128) ⟨true, none⟩ = true ∧ ¬Keeps 64 (uN 128) ⟨true, none⟩ := by
  refine ⟨by decide +kernel, fun h => absurd (h (2 ^ 64) (by decide)) (by decide +kernel)⟩

/-- **C61.** If one of the lints is emitted for a cast of a variable then there is a target (with 16-bit, 32-bit or 64-bit pointers) and a value which isn't
kept. -/
theorem reported_loses {K : E → Option Nat} {p k : Nat} (hp : p = 32 ∨ p = 64) {frm to : ITy} (hf : frm.Std) (ht : to.Std)
    (hK : K (.atom frm k) = none) (h : silent K p k frm to = false) : ∃ q, (q = 16 ∨ q = 32 ∨ q = 64) ∧ ¬Keeps q frm to := by
  rw [silent_eq hK] at h
  have table : ∀ frm ∈ allTypes, ∀ to ∈ allTypes, ∀ p ∈ [32, 64], silentTy p frm to = false → ∃ q ∈ [16, 32, 64], contains (frm.it q) (to.it q) = false := by
    decide +kernel
  obtain ⟨q, hq, hc⟩ := table frm (mem_allTypes hf) to (mem_allTypes ht) p (by simpa using hp) h
  have hq' : q = 16 ∨ q = 32 ∨ q = 64 := by simpa using hq
  refine ⟨q, hq', ?_⟩
  rw [keeps_iff (by omega) hf ht, hc]
  decide

/-- `u32 as i64` is silent, `u32 as isize` isn't (with 32-bit pointers it wraps). -/
example : silent (litK 64) 64 0 (uN 32) (iN 64) = true ∧ silent (litK 64) 64 0 (uN 32) ⟨true, none⟩ = false ∧ (uN 32).Std ∧ litK 64 (.atom (uN 32) 0) = none := by
  refine ⟨by decide +kernel, by decide +kernel, ?_, rfl⟩
  intro n h; cases h; decide

/-- **C61.** The lint about wrapping names a pointer width only if on targets with this width the two types have the same width: all values from half of the range
on change their sign. -/
theorem wraps_onPtr {p q : Nat} {frm to : ITy} (h : wraps p frm to = .onPtr q) :
    frm.bits q = to.bits q ∧ frm.signed = false ∧ to.signed = true := by
  unfold wraps at h
  split at h
  · cases h
  · next hs =>
    simp only [Bool.or_eq_true, Bool.not_eq_true', not_or, Bool.not_eq_true, Bool.not_eq_false] at hs
    refine ⟨?_, hs.1, hs.2⟩
    obtain ⟨fs, fw⟩ := frm
    obtain ⟨ts, tw⟩ := to
    rcases fw with _ | n <;> rcases tw with _ | m
    · cases h
    · replace h : (if m ∈ pointerSizes then Emit.onPtr m else .no) = .onPtr q := h
      by_cases hc : m ∈ pointerSizes
      · rw [if_pos hc] at h; cases h; rfl
      · rw [if_neg hc] at h; cases h
    · replace h : (if n ∈ pointerSizes then Emit.onPtr n else .no) = .onPtr q := h
      by_cases hc : n ∈ pointerSizes
      · rw [if_pos hc] at h; cases h; rfl
      · rw [if_neg hc] at h; cases h
    · replace h : (if n = m then Emit.always else .no) = .onPtr q := h
      by_cases hc : n = m
      · rw [if_pos hc] at h; cases h
      · rw [if_neg hc] at h; cases h

/-- **C61.** When the lint is emitted without naming a pointer width the types have the same width everywhere. -/
theorem wraps_always {p q : Nat} {frm to : ITy} (h : wraps p frm to = .always) : frm.bits q = to.bits q ∧ frm.signed = false ∧ to.signed = true := by
  unfold wraps at h
  split at h
  · cases h
  · next hs =>
    simp only [Bool.or_eq_true, Bool.not_eq_true', not_or, Bool.not_eq_true, Bool.not_eq_false] at hs
    refine ⟨?_, hs.1, hs.2⟩
    obtain ⟨fs, fw⟩ := frm
    obtain ⟨ts, tw⟩ := to
    rcases fw with _ | n <;> rcases tw with _ | m
    · rfl
    · replace h : (if m ∈ pointerSizes then Emit.onPtr m else .no) = .always := h
      by_cases hc : m ∈ pointerSizes
      · rw [if_pos hc] at h; cases h
      · rw [if_neg hc] at h; cases h
    · replace h : (if n ∈ pointerSizes then Emit.onPtr n else .no) = .always := h
      by_cases hc : n ∈ pointerSizes
      · rw [if_pos hc] at h; cases h
      · rw [if_neg hc] at h; cases h
    · replace h : (if n = m then Emit.always else .no) = .always := h
      by_cases hc : n = m
      · exact hc
      · rw [if_neg hc] at h; cases h

example : wraps 64 usize (iN 32) = .onPtr 32 ∧ wraps 64 (uN 16) ⟨true, none⟩ = .onPtr 16 ∧ wraps 64 (uN 32) (iN 32) = .always := by decide +kernel

/-! ## Floating point numbers -/

/-- The integer is exactly a floating point number with a significand of `m` bits (with the leading one) and an unlimited exponent. -/
def Exact (m : Nat) (v : Int) : Prop := ∃ (k : Int) (e : Nat), -(2 ^ m) < k ∧ k < 2 ^ m ∧ v = k * 2 ^ e

theorem exact_small {m : Nat} {v : Int} (h1 : -(2 ^ m) < v) (h2 : v < 2 ^ m) : Exact m v := ⟨v, 0, h1, h2, by simp⟩

/-- The first integer which isn't exact. -/
theorem not_exact (m : Nat) (hm : 0 < m) : ¬Exact m (2 ^ m + 1) := by
  rintro ⟨k, e, h1, h2, h3⟩
  cases e with
  | zero => simp at h3; omega
  | succ e =>
    have h4 : (2 : Int) ^ (e + 1) = 2 * 2 ^ e := by rw [Int.pow_succ, Int.mul_comm]
    have h5 := two_pow_succ hm
    rw [h4, ← Int.mul_assoc, Int.mul_comm k 2, Int.mul_assoc, h5] at h3
    omega

/-- The bits of the significand. -/
def NTy.significand : NTy → Option Nat
  | .f16 => some 11
  | .f32 => some 24
  | .f64 => some 53
  | .f128 => some 113
  | _ => none

theorem exact_iff {t : ITy} (ht : t.Std) {q m : Nat} (hm : 0 < m) (hmw : m ≠ t.bits q) (hm1 : m + 1 ≠ t.bits q) :
    (∀ v, (t.it q).In v → Exact m v) ↔ t.bits q ≤ m := by
  have hpm := two_pow_pos m
  constructor
  · intro h
    refine Decidable.byContradiction fun hn => not_exact m hm (h _ ?_)
    have h1 : (2 : Int) ^ (m + 1) ≤ 2 ^ (t.bits q - 1) := pow_mono (by omega)
    have h2 : (2 : Int) ^ (m + 1) ≤ 2 ^ (t.bits q) := pow_mono (by omega)
    have h3 : (2 : Int) ^ (m + 1) = 2 ^ m * 2 := Int.pow_succ ..
    have h4 : (2 : Int) ^ 1 ≤ 2 ^ m := pow_mono hm
    have h5 : (2 : Int) ^ 1 = 2 := rfl
    cases hs : t.signed with
    | false => rw [it_unsigned (by exact hs)]; simp only [ITy.it]; omega
    | true => rw [it_signed (by exact hs)]; simp only [ITy.it]; omega
  · intro h v hv
    cases hs : t.signed with
    | false =>
      rw [it_unsigned (by exact hs)] at hv
      have : (2 : Int) ^ (t.bits q) ≤ 2 ^ m := pow_mono h
      simp only [ITy.it] at hv
      exact exact_small (by omega) (by omega)
    | true =>
      rw [it_signed (by exact hs)] at hv
      have : (2 : Int) ^ (t.bits q - 1) < 2 ^ m := by
        by_cases h0 : t.bits q = 0
        · rw [h0]; exact pow_lt (by omega)
        · exact pow_lt (by omega)
      simp only [ITy.it] at hv
      exact exact_small (by omega) (by omega)

theorem std_bits {t : ITy} (h : t.Std) {q : Nat} (hq : q = 16 ∨ q = 32 ∨ q = 64) : t.bits q ∈ [8, 16, 32, 64, 128] := by
  simp only [ITy.bits]
  cases hw : t.width with
  | none => rcases hq with rfl | rfl | rfl <;> decide
  | some n => exact h n hw

/-- **C61.** `cast_precision_loss` is emitted for a cast of an integer to `f32` or `f64` if and only if some value of the type isn't represented exactly, on a
target with 32-bit or with 64-bit pointers. -/
theorem precision_loss {p : Nat} (hp : p = 32 ∨ p = 64) {t : ITy} (ht : t.Std) {f : NTy} (hf : f = .f32 ∨ f = .f64) {m : Nat} (hm : f.significand = some m) :
    losesPrecision p (.int t) f = true ↔ ∃ q, (q = 32 ∨ q = 64) ∧ ∃ v, (t.it q).In v ∧ ¬Exact m v := by
  have hm' : m = 24 ∨ m = 53 := by rcases hf with rfl | rfl <;> cases hm <;> decide
  have ex : ∀ q, (q = 32 ∨ q = 64) → ((∃ v, (t.it q).In v ∧ ¬Exact m v) ↔ m < t.bits q) := by
    intro q hq
    have hb := std_bits ht (q := q) (by omega)
    simp only [List.mem_cons, List.not_mem_nil, or_false] at hb
    have := exact_iff ht (q := q) (m := m) (by omega) (by omega) (by omega)
    rw [← Nat.not_le, ← this]
    constructor
    · rintro ⟨v, h1, h2⟩ h3
      exact h2 (h3 v h1)
    · intro h
      exact Classical.byContradiction fun hn => h fun v hv => Classical.byContradiction fun hne => hn ⟨v, hv, hne⟩
  have e : (∃ q, (q = 32 ∨ q = 64) ∧ ∃ v, (t.it q).In v ∧ ¬Exact m v) ↔ ∃ q, (q = 32 ∨ q = 64) ∧ m < t.bits q :=
    ⟨fun ⟨q, hq, h⟩ => ⟨q, hq, (ex q hq).1 h⟩, fun ⟨q, hq, h⟩ => ⟨q, hq, (ex q hq).2 h⟩⟩
  rw [e]
  clear e ex
  obtain ⟨s, w⟩ := t
  cases w with
  | none =>
    constructor
    · intro _
      exact ⟨64, .inr rfl, show m < 64 by omega⟩
    · intro _
      rcases hf with rfl | rfl <;> rfl
  | some n =>
    have hn := ht n rfl
    simp only [List.mem_cons, List.not_mem_nil, or_false] at hn
    have e : (∃ q, (q = 32 ∨ q = 64) ∧ m < ITy.bits q ⟨s, some n⟩) ↔ m < n := ⟨fun ⟨_, _, h⟩ => h, fun h => ⟨32, .inl rfl, h⟩⟩
    rw [e]
    rcases hf with rfl | rfl <;> cases hm
    · have : losesPrecision p (.int ⟨s, some n⟩) .f32 = decide (32 ≤ n) := rfl
      rw [this, decide_eq_true_eq]; omega
    · have : losesPrecision p (.int ⟨s, some n⟩) .f64 = decide (64 ≤ n) := rfl
      rw [this, decide_eq_true_eq]; omega

/-- `i32 as f32` is reported, `i32 as f64` isn't. -/
example : losesPrecision 64 (.int (iN 32)) .f32 = true ∧ losesPrecision 64 (.int (iN 32)) .f64 = false ∧ losesPrecision 64 (.int usize) .f64 = true := by decide

/-- What the target type of a lossless cast has to satisfy. -/
def Lossless (q : Nat) : NTy → NTy → Prop
  | .int f, .int t => Keeps q f t
  | .int f, t => ∃ m, t.significand = some m ∧ ∀ v, (f.it q).In v → Exact m v
  | .bool, .int t => (t.it q).In 0 ∧ (t.it q).In 1
  | .f32, .f64 => True
  | _, _ => False

/-- The integer types of a cast are the usual ones. -/
def NTy.Std : NTy → Prop
  | .int t => t.Std
  | _ => True

/-- **C61 (partial).** `cast_lossless` suggests `From` only for casts which lose nothing, if the target isn't `f16`. -/
theorem lossless_partial {p q : Nat} (hq : q = 16 ∨ q = 32 ∨ q = 64) {b : Bool} {f t : NTy} (hf : f.Std) (ht : t.Std) (h16 : t ≠ .f16) (hb : t ≠ .bool)
    (h : lossless p b f t = true) : Lossless q f t := by
  have small : ∀ (ty : ITy) (n m : Nat), ty.Std → ty.ptrSized = false → ty.bits p < n → (n = 32 ∧ 16 ≤ m ∨ n = 64 ∧ 32 ≤ m) → ∀ v, (ty.it q).In v → Exact m v := by
    intro ty n m hs hp hlt hm v hv
    have hbits : ty.bits q = ty.bits p := by
      obtain ⟨s, w⟩ := ty
      cases w with
      | none => cases hp
      | some k => rfl
    have hb := std_bits hs hq
    simp only [List.mem_cons, List.not_mem_nil, or_false] at hb
    have hle : ty.bits q ≤ m := by omega
    cases hs : ty.signed with
    | false =>
      rw [it_unsigned (by exact hs)] at hv
      have : (2 : Int) ^ (ty.bits q) ≤ 2 ^ m := pow_mono hle
      simp only [ITy.it] at hv
      have := two_pow_pos m
      exact exact_small (by omega) (by omega)
    | true =>
      rw [it_signed (by exact hs)] at hv
      have : (2 : Int) ^ (ty.bits q - 1) < 2 ^ m := pow_lt (by omega)
      simp only [ITy.it] at hv
      exact exact_small (by omega) (by omega)
  cases f with
  | int f =>
    cases t with
    | int t =>
      simp only [lossless, Bool.and_eq_true, Bool.not_eq_true', decide_eq_true_eq] at h
      show Keeps q f t
      rw [keeps_iff (by omega) hf ht]
      obtain ⟨fs, fw⟩ := f
      obtain ⟨ts, tw⟩ := t
      cases fw with
      | none => exact absurd h.1.1.1 (by simp [ITy.ptrSized])
      | some n =>
        cases tw with
        | none => exact absurd h.1.1.2 (by simp [ITy.ptrSized])
        | some k =>
          have hlt : n < k := h.1.2
          have hsg := h.2
          cases fs <;> cases ts <;> simp at hsg <;> refine decide_eq_true ?_ <;> simp only [ITy.it, ITy.bits, Option.getD_some] <;> omega
    | f16 => exact absurd rfl h16
    | f32 =>
      simp only [lossless, Bool.and_eq_true, Bool.not_eq_true', decide_eq_true_eq] at h
      exact ⟨24, rfl, small f 32 24 hf h.1 h.2 (.inl ⟨rfl, by decide⟩)⟩
    | f64 =>
      simp only [lossless, Bool.and_eq_true, Bool.not_eq_true', decide_eq_true_eq] at h
      exact ⟨53, rfl, small f 64 53 hf h.1 h.2 (.inr ⟨rfl, by decide⟩)⟩
    | f128 =>
      simp only [lossless, Bool.and_eq_true, Bool.not_eq_true', decide_eq_true_eq] at h
      exact ⟨113, rfl, small f 64 113 hf h.1 h.2 (.inr ⟨rfl, by decide⟩)⟩
    | bool => exact absurd rfl hb
  | bool =>
    cases t with
    | int t =>
      have hp := std_bits ht hq
      simp only [List.mem_cons, List.not_mem_nil, or_false] at hp
      have h1 := pow_lt (show 0 < t.bits q by omega)
      have h2 := pow_lt (show 0 < t.bits q - 1 by omega)
      simp only [Int.pow_zero] at h1 h2
      show (t.it q).In 0 ∧ (t.it q).In 1
      cases hs : t.signed with
      | false => rw [it_unsigned (by exact hs), it_unsigned (by exact hs)]; simp only [ITy.it]; omega
      | true => rw [it_signed (by exact hs), it_signed (by exact hs)]; simp only [ITy.it]; omega
    | _ => cases h
  | f32 =>
    cases t with
    | f64 => trivial
    | _ => cases h
  | _ => cases t <;> cases h

/-- `u8 as i16`, `i32 as f64` and `bool as u8` are reported. -/
example : lossless 64 true (.int (uN 8)) (.int (iN 16)) = true ∧ lossless 64 true (.int (iN 32)) .f64 = true ∧ lossless 64 true .bool (.int (uN 8)) = true ∧
    lossless 64 true (.int (iN 8)) (.int (uN 16)) = false ∧ (NTy.int (uN 8)).Std := by
  refine ⟨by decide, by decide, by decide, by decide, ?_⟩
  intro n h; cases h; decide

/-- For `f16` the claim is wrong: `u16 as f16` is reported as lossless, but 2049 isn't a number of `f16`. (`f16::from(x)`, which is suggested, exists only for
8-bit integers.) -/
theorem lossless_f16 : lossless 64 true (.int (uN 16)) .f16 = true ∧ ¬Lossless 64 (.int (uN 16)) .f16 := by
  refine ⟨by decide, ?_⟩
  rintro ⟨m, hm, h⟩
  cases hm
  exact not_exact 11 (by decide) (h (2 ^ 11 + 1) (by decide))

/-- And `i32 as f16` isn't reported as a loss of precision. -/
theorem precision_f16 : losesPrecision 64 (.int (iN 32)) .f16 = false ∧ ¬Exact 11 (2 ^ 11 + 1) ∧ ((iN 32).it 64).In (2 ^ 11 + 1) :=
  ⟨by decide, not_exact 11 (by decide), by decide⟩

end Verif.Casts
