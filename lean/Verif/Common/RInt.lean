/-
Rust's primitive integer types and their run-time arithmetic, as defined by the Rust reference
(not by clippy): values are mathematical integers in the range of the type, operators panic on
overflow (overflow checks enabled), on division by zero and on out-of-range shift amounts.
This is a specification: nothing here comes from /repo.
-/

namespace Verif.RInt

/-- A primitive integer type: signedness and width in bits. -/
structure IT where
  signed : Bool
  bits : Nat
  deriving DecidableEq, Repr

/-- `T::MIN`. -/
def IT.min (t : IT) : Int := if t.signed then -(2 ^ (t.bits - 1) : Int) else 0

/-- `T::MAX`. -/
def IT.max (t : IT) : Int := if t.signed then 2 ^ (t.bits - 1) - 1 else 2 ^ t.bits - 1

/-- `v` is a value of the type. -/
def IT.In (t : IT) (v : Int) : Prop := t.min ≤ v ∧ v ≤ t.max

instance (t : IT) (v : Int) : Decidable (t.In v) := inferInstanceAs (Decidable (_ ∧ _))

/-- The bit pattern of a value, as a natural number below `2 ^ bits` (two's complement). -/
def IT.toBits (t : IT) (v : Int) : Nat := (v % 2 ^ t.bits).toNat

/-- The value of the type with the given bit pattern (only the low `bits` bits count). -/
def IT.ofBits (t : IT) (n : Nat) : Int :=
  let m := n % 2 ^ t.bits
  if t.signed ∧ 2 ^ (t.bits - 1) ≤ m then (m : Int) - 2 ^ t.bits else m

/-- Two's complement wrapping of a mathematical integer to the type. -/
def IT.wrap (t : IT) (v : Int) : Int := t.ofBits (v % 2 ^ t.bits).toNat

/-- Why a Rust evaluation stops. -/
inductive Panic | overflow | divByZero | shift
  deriving DecidableEq, Repr

abbrev Res := Except Panic Int

/-- The result of an arithmetic operation with overflow checks: the value if it fits. -/
def IT.checked (t : IT) (v : Int) : Res :=
  if t.In v then .ok v else .error .overflow

def IT.add (t : IT) (a b : Int) : Res := t.checked (a + b)
def IT.sub (t : IT) (a b : Int) : Res := t.checked (a - b)
def IT.mul (t : IT) (a b : Int) : Res := t.checked (a * b)
def IT.neg (t : IT) (a : Int) : Res := t.checked (-a)

/-- `a / b`: truncated division; `MIN / -1` overflows. -/
def IT.div (t : IT) (a b : Int) : Res :=
  if b = 0 then .error .divByZero else t.checked (a.tdiv b)

/-- `a % b`: truncated remainder; `MIN % -1` overflows although the remainder would be 0. -/
def IT.rem (t : IT) (a b : Int) : Res :=
  if b = 0 then .error .divByZero
  else if t.In (a.tdiv b) then .ok (a.tmod b) else .error .overflow

/-- `a << n`: `n` may be of any integer type; bits shifted out are lost. -/
def IT.shl (t : IT) (a n : Int) : Res :=
  if 0 ≤ n ∧ n < t.bits then .ok (t.wrap (a * 2 ^ n.toNat)) else .error .shift

/-- `a >> n`: arithmetic for signed types, logical for unsigned ones (both round down). -/
def IT.shr (t : IT) (a n : Int) : Res :=
  if 0 ≤ n ∧ n < t.bits then .ok (a / 2 ^ n.toNat) else .error .shift

def IT.and (t : IT) (a b : Int) : Int := t.ofBits (t.toBits a &&& t.toBits b)
def IT.or (t : IT) (a b : Int) : Int := t.ofBits (t.toBits a ||| t.toBits b)
def IT.xor (t : IT) (a b : Int) : Int := t.ofBits (t.toBits a ^^^ t.toBits b)

/-- `!a`: every bit flipped. -/
def IT.not (t : IT) (a : Int) : Int := t.ofBits (2 ^ t.bits - 1 - t.toBits a)

/-! ### Basic facts -/

theorem two_pow_pos (n : Nat) : 0 < (2 : Int) ^ n := by
  have := Nat.two_pow_pos n; exact_mod_cast this

theorem two_pow_succ {n : Nat} (h : 0 < n) : (2 : Int) ^ n = 2 * 2 ^ (n - 1) := by
  cases n with
  | zero => omega
  | succ k => simp [Int.pow_succ]; omega

theorem cast_two_pow (n : Nat) : ((2 ^ n : Nat) : Int) = (2 : Int) ^ n := by simp

theorem IT.toBits_lt (t : IT) (v : Int) : t.toBits v < 2 ^ t.bits := by
  have h1 := Int.emod_lt_of_pos v (two_pow_pos t.bits)
  have h0 := Int.emod_nonneg v (Int.ne_of_gt (two_pow_pos t.bits))
  have := cast_two_pow t.bits
  unfold IT.toBits; omega

theorem IT.toBits_cast (t : IT) (v : Int) : (t.toBits v : Int) = v % 2 ^ t.bits := by
  have h0 := Int.emod_nonneg v (Int.ne_of_gt (two_pow_pos t.bits))
  unfold IT.toBits; omega

theorem IT.ofBits_in (t : IT) (h : 0 < t.bits) (n : Nat) : t.In (t.ofBits n) := by
  have hp := two_pow_pos t.bits
  have hs := two_pow_succ h
  have hl := Nat.mod_lt n (Nat.two_pow_pos t.bits)
  have c := cast_two_pow t.bits
  have c' := cast_two_pow (t.bits - 1)
  unfold IT.In IT.min IT.max IT.ofBits
  dsimp only
  generalize n % 2 ^ t.bits = m at *
  cases hs' : t.signed
  · simp; omega
  · simp only [true_and]
    simp; split <;> omega

theorem IT.ofBits_emod (t : IT) (n : Nat) : t.ofBits n % 2 ^ t.bits = (n : Int) % 2 ^ t.bits := by
  unfold IT.ofBits
  dsimp only
  split
  · rw [Int.sub_emod, Int.emod_self]; simp
  · simp

theorem IT.toBits_ofBits (t : IT) (n : Nat) : t.toBits (t.ofBits n) = n % 2 ^ t.bits := by
  have h := t.toBits_cast (t.ofBits n)
  rw [t.ofBits_emod] at h
  have : ((n % 2 ^ t.bits : Nat) : Int) = (n : Int) % 2 ^ t.bits := by simp
  omega

theorem IT.emod_inj (t : IT) (h : 0 < t.bits) {a b : Int} (ha : t.In a) (hb : t.In b)
    (e : a % 2 ^ t.bits = b % 2 ^ t.bits) : a = b := by
  have hs := two_pow_succ h
  have hp := two_pow_pos (t.bits - 1)
  have h1 : (2 : Int) ^ t.bits ∣ a - b := Int.dvd_of_emod_eq_zero (by
    rw [Int.sub_emod, e]; simp)
  obtain ⟨k, hk⟩ := h1
  unfold IT.In IT.min IT.max at ha hb
  have hbound : -(2 ^ t.bits : Int) < a - b ∧ a - b < 2 ^ t.bits := by
    cases hs' : t.signed <;> simp [hs'] at ha hb <;> omega
  have hk0 : k = 0 := by
    have hp := two_pow_pos t.bits
    rcases Int.lt_trichotomy k 0 with h | h | h
    · have : (2 : Int) ^ t.bits * k ≤ 2 ^ t.bits * (-1) := Int.mul_le_mul_of_nonneg_left (by omega) (by omega)
      omega
    · exact h
    · have : (2 : Int) ^ t.bits * 1 ≤ 2 ^ t.bits * k := Int.mul_le_mul_of_nonneg_left (by omega) (by omega)
      omega
  rw [hk0] at hk; omega

theorem IT.ofBits_toBits (t : IT) (h : 0 < t.bits) {v : Int} (hv : t.In v) :
    t.ofBits (t.toBits v) = v := by
  apply t.emod_inj h (t.ofBits_in h _) hv
  rw [t.ofBits_emod, t.toBits_cast, Int.emod_emod]

theorem IT.wrap_eq (t : IT) (v : Int) : t.wrap v = t.ofBits (t.toBits v) := rfl

theorem IT.wrap_of_in (t : IT) (h : 0 < t.bits) {v : Int} (hv : t.In v) : t.wrap v = v :=
  t.ofBits_toBits h hv

theorem IT.wrap_in (t : IT) (h : 0 < t.bits) (v : Int) : t.In (t.wrap v) := t.ofBits_in h _

theorem IT.wrap_emod (t : IT) (v : Int) : t.wrap v % 2 ^ t.bits = v % 2 ^ t.bits := by
  rw [IT.wrap_eq, t.ofBits_emod, t.toBits_cast, Int.emod_emod]

theorem IT.ofBits_congr (t : IT) {a b : Nat} (h : a % 2 ^ t.bits = b % 2 ^ t.bits) :
    t.ofBits a = t.ofBits b := by
  unfold IT.ofBits; rw [h]

theorem IT.toBits_congr (t : IT) {a b : Int} (h : a % 2 ^ t.bits = b % 2 ^ t.bits) :
    t.toBits a = t.toBits b := by
  unfold IT.toBits; rw [h]

end Verif.RInt
