import Verif.Casts.TruncProps

/-! C59: casts which lose bits although `cast_possible_truncation` is silent, and the exact behaviour for opaque operands. -/

namespace Verif.Casts
open Verif.RInt

/-- The value fits into the number of bits, read as a signed or as an unsigned number. -/
def Fits (n : Nat) (v : Int) : Prop := -(2 ^ (n - 1)) ≤ v ∧ v < 2 ^ n

instance (n : Nat) (v : Int) : Decidable (Fits n v) := inferInstanceAs (Decidable (_ ∧ _))

/-- The cast of `e` isn't reported, and for a well-typed `e` there is a value which doesn't fit. -/
def Missed (p : Nat) (e : E) (to : ITy) (v : Int) : Prop :=
  truncates (litK p) p e to = false ∧ e.Typed p ∧ Ev p e v ∧ ¬Fits (to.bits p) v

/-- **C59 (violation).** `x as usize` for `x: u128` is never reported. -/
theorem u128_to_usize : Missed 64 (.atom (uN 128) 0) usize (2 ^ 64) ∧ Missed 32 (.atom (uN 128) 0) usize (2 ^ 64) := by
  refine ⟨⟨by decide +kernel, ?_, .atom (by decide +kernel), by decide +kernel⟩, ⟨by decide +kernel, ?_, .atom (by decide +kernel), by decide +kernel⟩⟩ <;>
    exact ⟨by decide, by decide⟩

/-- **C59 (violation).** `(x >> 1) as usize` for `x: u64` isn't reported, though it can lose 31 bits on a target with 32-bit pointers. -/
theorem u64_to_usize32 : Missed 32 (.bin .shr (.atom (uN 64) 0) (.lit (iN 32) 1)) usize (2 ^ 32) := by
  refine ⟨by decide +kernel, ?_, ?_, by decide +kernel⟩
  · simp [E.Typed, ITy.Ok, ITy.bits, uN, iN, E.ty]; decide
  · exact .bin (x := 2 ^ 33) (y := 1) (.atom (by decide +kernel)) .lit (by rfl)

/-- **C59 (violation).** Any method with one argument is taken for one whose result isn't greater than the receiver: `(x % 16).pow(8) as u8` isn't reported. -/
theorem method_not_min :
    Missed 64 (.call1 (uN 64) .pow (.bin .rem (.atom (uN 64) 0) (.lit (uN 64) 16)) (.lit (uN 32) 8)) (uN 8) (15 ^ 8) := by
  refine ⟨by decide +kernel, ?_, ?_, by decide +kernel⟩
  · simp [E.Typed, ITy.Ok, ITy.bits, uN, E.ty, Meth.sameRes, Meth.sameArg]; decide
  · exact .call1 (x := 15) (y := 8) (.bin (x := 15) (y := 16) (.atom (by decide +kernel)) .lit (by rfl)) .lit ⟨by decide, by decide +kernel, by decide +kernel⟩

/-- **C59 (violation).** A cast inside of the operand is looked through with the width of the outer type: `((x >> 24) as u32) as u8` for `x: u64` isn't
reported, and loses bits even if the inner cast doesn't. -/
theorem cast_inside :
    Missed 64 (.cast (uN 32) (.bin .shr (.atom (uN 64) 0) (.lit (iN 32) 24))) (uN 8) 65536 ∧ (uN 32 |>.it 64).In 65536 := by
  refine ⟨⟨by decide +kernel, ?_, ?_, by decide +kernel⟩, by decide⟩
  · simp [E.Typed, ITy.Ok, ITy.bits, uN, iN, E.ty]; decide
  · exact .cast (v := 65536) (.bin (x := 2 ^ 40) (y := 24) (.atom (by decide +kernel)) .lit (by rfl))

/-- **C59 (violation).** The remainder of a signed number can be negative, so it needs one more bit than the divisor: `(x % 255) as i8` for `x: i64`
isn't reported, but -254 becomes 2. -/
theorem signed_remainder : Missed 64 (.bin .rem (.atom (iN 64) 0) (.lit (iN 64) 255)) (iN 8) (-254) ∧ (iN 8 |>.it 64).wrap (-254) = 2 := by
  refine ⟨⟨by decide +kernel, ?_, ?_, by decide +kernel⟩, by decide +kernel⟩
  · simp [E.Typed, ITy.Ok, ITy.bits, iN, E.ty]; decide
  · exact .bin (x := -254) (y := 255) (.atom (by decide +kernel)) .lit (by rfl)

/-- **C59 (violation).** A negative number with few bits is a mask with many bits: `((x >> 63) & 0xffff) as u8` for `x: i64` isn't reported, but 65535
becomes 255. -/
theorem mask_of_sign :
    Missed 64 (.bin .and (.bin .shr (.atom (iN 64) 0) (.lit (iN 32) 63)) (.lit (iN 64) 65535)) (uN 8) 65535 := by
  refine ⟨by decide +kernel, ?_, ?_, by decide +kernel⟩
  · simp [E.Typed, ITy.Ok, ITy.bits, iN, E.ty]; decide
  · exact .bin (x := -1) (y := 65535) (.bin (x := -1) (y := 63) (.atom (by decide +kernel)) .lit (by rfl)) .lit (by show (65535 : Int) = _; decide +kernel)

/-- **C59 (violation).** A value which fits only if it is read as unsigned isn't reported when the target is signed, and `cast_possible_wrap` is
silent as well, since the types have different widths: `(x % 200) as i8` for `x: u64`; 199 becomes -57. -/
theorem wrap_of_reduced : let e := E.bin .rem (.atom (uN 64) 0) (.lit (uN 64) 200)
    truncates (litK 64) 64 e (iN 8) = false ∧ wraps 64 e.ty (iN 8) = .no ∧ losesSign (litK 64) 64 e (iN 8) = false ∧
    Ev 64 e 199 ∧ (iN 8 |>.it 64).wrap 199 = -57 := by
  refine ⟨by decide +kernel, by decide +kernel, by decide +kernel, ?_, by decide +kernel⟩
  exact .bin (x := 199) (y := 200) (.atom (by decide +kernel)) .lit (by rfl)

/-! ## Opaque operands -/

theorem fits_of_in {t : IT} {n : Nat} (h : t.bits ≤ n) {v : Int} (hv : t.In v) : Fits n v := by
  cases hs : t.signed
  · have := (it_unsigned hs).1 hv
    have h1 := pow_mono h
    have := two_pow_pos (n - 1)
    exact ⟨by omega, by omega⟩
  · have := (it_signed hs).1 hv
    have h1 := pow_mono (show t.bits - 1 ≤ n - 1 by omega)
    have h2 := pow_mono (show t.bits - 1 ≤ n by omega)
    exact ⟨by omega, by omega⟩

theorem not_fits {t : IT} {n : Nat} (hn : 0 < n) (h : n < t.bits) : ∃ v, t.In v ∧ ¬Fits n v := by
  have hp := two_pow_pos (n - 1)
  have hp1 := two_pow_succ hn
  cases hs : t.signed
  · refine ⟨2 ^ n, (it_unsigned hs).2 ⟨by omega, ?_⟩, ?_⟩
    · have := Nat.pow_lt_pow_right (a := 2) (by decide) h
      exact_mod_cast this
    · unfold Fits; omega
  · refine ⟨-(2 ^ n), (it_signed hs).2 ⟨?_, ?_⟩, ?_⟩
    · have := pow_mono (show n ≤ t.bits - 1 by omega); omega
    · have := two_pow_pos (t.bits - 1); omega
    · unfold Fits; omega

/-- The widths of the fixed-size types. -/
def ITy.Std (t : ITy) : Prop := ∀ n, t.width = some n → n ∈ [8, 16, 32, 64, 128]

/-- **C59 (opaque operands).** For an operand about which nothing is known, other than a 128-bit one cast to a type of the width of a pointer, the lint is
emitted if and only if some value doesn't fit into the target type, on a target with 32-bit or with 64-bit pointers. -/
theorem truncation_opaque {K : E → Option Nat} {p : Nat} (hp : p = 32 ∨ p = 64) {ty to : ITy} (hs : ty.Std) (hst : to.Std) {k : Nat}
    (h128 : to.ptrSized = true → ty.width ≠ some 128) :
    truncates K p (.atom ty k) to = true ↔ ∃ q, (q = 32 ∨ q = 64) ∧ ∃ v, (ty.it q).In v ∧ ¬Fits (to.bits q) v := by
  have iffq : ∀ q, 0 < to.bits q → ((∃ v, (ty.it q).In v ∧ ¬Fits (to.bits q) v) ↔ to.bits q < ty.bits q) := by
    intro q hq
    constructor
    · rintro ⟨v, hv, hf⟩
      exact Decidable.byContradiction fun hc => hf (fits_of_in (by simp only [ITy.it]; omega) hv)
    · exact fun h => not_fits hq h
  obtain ⟨sg, w⟩ := ty
  obtain ⟨sg', w'⟩ := to
  have pos : ∀ q, (q = 32 ∨ q = 64) → 0 < ITy.bits q ⟨sg', w'⟩ := by
    intro q hq
    cases w' with
    | none => simp only [ITy.bits, Option.getD_none]; omega
    | some n =>
      have := hst n rfl
      simp only [List.mem_cons, List.not_mem_nil, or_false] at this
      simp only [ITy.bits, Option.getD_some]; omega
  have e : (∃ q, (q = 32 ∨ q = 64) ∧ ∃ v, ((⟨sg, w⟩ : ITy).it q).In v ∧ ¬Fits (ITy.bits q ⟨sg', w'⟩) v) ↔
      ∃ q, (q = 32 ∨ q = 64) ∧ ITy.bits q ⟨sg', w'⟩ < ITy.bits q ⟨sg, w⟩ := by
    constructor
    · rintro ⟨q, hq, h⟩
      exact ⟨q, hq, (iffq q (pos q hq)).1 h⟩
    · rintro ⟨q, hq, h⟩
      exact ⟨q, hq, (iffq q (pos q hq)).2 h⟩
  rw [e]
  clear e iffq pos
  simp only [truncates, reduce, E.ty, truncLint]
  cases w with
  | none =>
    cases w' with
    | none => simp [ITy.ptrSized, ITy.bits]
    | some m =>
      have := hst m rfl
      simp only [List.mem_cons, List.not_mem_nil, or_false] at this
      simp only [ITy.ptrSized, ITy.bits, Option.isNone_none, Option.isNone_some, Option.getD_none, Option.getD_some]
      refine ⟨fun h => ?_, fun h => decide_eq_true ?_⟩
      · replace h : m ≤ 32 := of_decide_eq_true h
        exact ⟨64, .inr rfl, show m < 64 by omega⟩
      · obtain ⟨q, hq, h⟩ := h
        replace h : m < q := h
        omega
  | some n =>
    have hn := hs n rfl
    simp only [List.mem_cons, List.not_mem_nil, or_false] at hn
    cases w' with
    | none =>
      have : n ≠ 128 := fun h => h128 rfl (by rw [h])
      simp only [ITy.ptrSized, ITy.bits, Option.isNone_none, Option.isNone_some, Option.getD_none, Option.getD_some]
      refine ⟨fun h => ?_, fun h => decide_eq_true ?_⟩
      · replace h : n = 64 := of_decide_eq_true h
        exact ⟨32, .inl rfl, show 32 < n by omega⟩
      · obtain ⟨q, hq, h⟩ := h
        replace h : q < n := h
        omega
    | some m =>
      simp only [ITy.ptrSized, ITy.bits, Option.isNone_some, Option.getD_some]
      exact ⟨fun h => ⟨32, .inl rfl, of_decide_eq_true h⟩, fun ⟨_, _, h⟩ => decide_eq_true h⟩

/-- `i64 as usize` and `usize as u32` are reported, `u32 as usize` and `usize as u64` aren't. -/
example : truncates (litK 64) 64 (.atom (iN 64) 0) usize = true ∧ truncates (litK 32) 32 (.atom usize 0) (uN 32) = true ∧
    truncates (litK 64) 64 (.atom (uN 32) 0) usize = false ∧ truncates (litK 64) 64 (.atom usize 0) (uN 64) = false ∧ (iN 64).Std ∧ usize.Std := by
  refine ⟨by decide +kernel, by decide +kernel, by decide +kernel, by decide +kernel, ?_, ?_⟩
  · intro n h; cases h; decide
  · intro n h; cases h

end Verif.Casts
