import Verif.IntLints.Model

/-! The meaning of the integer expressions of the idiom lints: Rust's operators with overflow checks and the
documented results of the standard library methods. Nothing here comes from /repo. -/

namespace Verif.IntLints
open Verif.RInt

/-- `x / y` rounded towards positive infinity (`div_ceil`). -/
def ceilDiv (x y : Int) : Int := -((-x).fdiv y)

/-- `midpoint`: the mean, rounded towards zero. -/
def midpoint (a b : Int) : Int := (a + b).tdiv 2

/-- `is_multiple_of`. -/
def isMultipleOf (a b : Int) : Prop := ∃ k, a = b * k

/-- `ilog(b)`: the number of times `n` can be divided by `b` before it gets below `b`. -/
def ilogNat (b : Nat) : Nat → Nat → Nat
  | 0, _ => 0
  | f + 1, n => if n < b then 0 else ilogNat b f (n / b) + 1

def Op.run (t : IT) : Op → Int → Int → Res
  | .add => t.add | .sub => t.sub | .mul => t.mul | .div => t.div | .rem => t.rem
  | .shl => t.shl | .shr => t.shr
  | .bitAnd => fun a b => .ok (t.and a b)
  | .bitOr => fun a b => .ok (t.or a b)
  | .bitXor => fun a b => .ok (t.xor a b)

/-- The value of an expression whose subexpressions have type `t`, or a panic. The results of
`leading_zeros`, `count_ones` and `ilog` are small numbers of type `u32`. -/
def eval (t : IT) (ρ : Nat → Res) : E → Res
  | .atom i => ρ i
  | .lit n => t.checked n
  | .neg e => (eval t ρ e).bind t.neg
  | .bin op l r => (eval t ρ l).bind fun a => (eval t ρ r).bind fun b => op.run t a b
  | .nextMultipleOf x y => (eval t ρ x).bind fun a => (eval t ρ y).bind fun b =>
      if b = 0 then .error .divByZero else t.checked (b * ceilDiv a b)
  | .leadingZeros x => (eval t ρ x).bind fun a => .ok (leadingZeros t.bits (t.toBits a))
  | .countOnes x => (eval t ρ x).bind fun a => .ok (countOnes t.bits (t.toBits a))
  | .ilog x b => (eval t ρ x).bind fun a => (eval t ρ b).bind fun b =>
      if a ≤ 0 ∨ b < 2 then .error .overflow else .ok (ilogNat b.toNat t.bits a.toNat)
  | .castUnsigned x => (eval t ρ x).bind fun a => .ok (t.toBits a)

/-- All variables hold values of the type. -/
def Env (t : IT) (ρ : Nat → Res) : Prop := ∀ i v, ρ i = .ok v → t.In v

/-! ### Facts -/

theorem bind_ok {α β : Type} {x : Except Panic α} {f : α → Except Panic β} {v : β} (h : x.bind f = .ok v) :
    ∃ a, x = .ok a ∧ f a = .ok v := by
  cases x with
  | error e => simp [Except.bind] at h
  | ok a => exact ⟨a, rfl, h⟩

theorem checked_ok {t : IT} {a v : Int} (h : t.checked a = .ok v) : v = a ∧ t.In a := by
  unfold IT.checked at h
  split at h
  · exact ⟨by injection h with h; exact h.symm, by assumption⟩
  · simp at h

theorem bin_ok {t : IT} {ρ : Nat → Res} {op : Op} {l r : E} {v : Int} (h : eval t ρ (.bin op l r) = .ok v) :
    ∃ a b, eval t ρ l = .ok a ∧ eval t ρ r = .ok b ∧ op.run t a b = .ok v := by
  simp only [eval] at h
  obtain ⟨a, ha, h⟩ := bind_ok h
  obtain ⟨b, hb, h⟩ := bind_ok h
  exact ⟨a, b, ha, hb, h⟩

theorem lit_ok {t : IT} {ρ : Nat → Res} {n : Nat} {v : Int} (h : eval t ρ (.lit n) = .ok v) : v = n :=
  (checked_ok h).1

theorem isLit_eq {e : E} {n : Nat} (h : e.isLit n = true) : e = .lit n := by simpa [E.isLit] using h

theorem min_unsigned {t : IT} (h : t.signed = false) : t.min = 0 := by simp [IT.min, h]
theorem max_unsigned {t : IT} (h : t.signed = false) : t.max = 2 ^ t.bits - 1 := by simp [IT.max, h]

/-- Unsigned values are their own bit patterns. -/
theorem toBits_unsigned {t : IT} (h : t.signed = false) {v : Int} (hv : t.In v) : (t.toBits v : Int) = v := by
  rw [t.toBits_cast]
  have h1 := hv.1
  have h2 := hv.2
  rw [min_unsigned h] at h1
  rw [max_unsigned h] at h2
  exact Int.emod_eq_of_lt h1 (by omega)

/-- Expressions of an unsigned type are never negative. -/
theorem eval_nonneg {t : IT} (hs : t.signed = false) {ρ : Nat → Res} (hρ : Env t ρ) :
    ∀ {e : E} {v : Int}, eval t ρ e = .ok v → 0 ≤ v := by
  have inn : ∀ {v : Int}, t.In v → 0 ≤ v := by
    intro v h; have := h.1; rwa [min_unsigned hs] at this
  have bits : ∀ n : Nat, 0 ≤ t.ofBits n := by
    intro n; simp [IT.ofBits, hs]; exact Int.emod_nonneg _ (Int.ne_of_gt (two_pow_pos _))
  intro e
  induction e with
  | atom i => intro v h; exact inn (hρ i v h)
  | lit n => intro v h; rw [lit_ok h]; omega
  | neg e ih =>
    intro v h
    simp only [eval] at h
    obtain ⟨a, _, h⟩ := bind_ok h
    obtain ⟨rfl, h'⟩ := checked_ok h
    exact inn h'
  | bin op l r ihl ihr =>
    intro v h
    obtain ⟨a, b, ha, hb, h⟩ := bin_ok h
    have ha := ihl ha
    have hb := ihr hb
    cases op <;> simp only [Op.run] at h
    case add | sub | mul => obtain ⟨rfl, h'⟩ := checked_ok h; exact inn h'
    case div =>
      unfold IT.div at h
      split at h
      · simp at h
      · obtain ⟨rfl, h'⟩ := checked_ok h; exact inn h'
    case rem =>
      unfold IT.rem at h
      split at h
      · simp at h
      · split at h
        · injection h with h; subst h; exact Int.tmod_nonneg _ ha
        · simp at h
    case shl =>
      unfold IT.shl at h
      split at h
      · injection h with h; subst h; exact bits _
      · simp at h
    case shr =>
      unfold IT.shr at h
      split at h
      · injection h with h; subst h; exact Int.ediv_nonneg ha (Int.le_of_lt (two_pow_pos _))
      · simp at h
    case bitAnd | bitOr | bitXor => injection h with h; subst h; exact bits _
  | nextMultipleOf x y _ _ =>
    intro v h
    simp only [eval] at h
    obtain ⟨a, _, h⟩ := bind_ok h
    obtain ⟨b, _, h⟩ := bind_ok h
    split at h
    · simp at h
    · obtain ⟨rfl, h'⟩ := checked_ok h; exact inn h'
  | leadingZeros x _ | countOnes x _ | castUnsigned x _ =>
    intro v h
    simp only [eval] at h
    obtain ⟨a, _, h⟩ := bind_ok h
    injection h with h; omega
  | ilog x b _ _ =>
    intro v h
    simp only [eval] at h
    obtain ⟨a, _, h⟩ := bind_ok h
    obtain ⟨b, _, h⟩ := bind_ok h
    split at h
    · simp at h
    · injection h with h; omega

end Verif.IntLints
