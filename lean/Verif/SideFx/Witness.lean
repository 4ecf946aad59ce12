import Verif.SideFx.Props

/-!
# `arithmetic_side_effects`: examples and counterexamples
-/

set_option linter.unusedSimpArgs false

namespace Verif.SideFx.Witness

open Verif.RInt

/-- A 64-bit machine. -/
def p64 : Platform := ⟨64, 64⟩

/-- No options. -/
def plain : Conf := ⟨[], [], []⟩

/-- An evaluator that knows literals. -/
def lits (P : Platform) : Ex → Option Nat
  | .lit _ n (.int s) => if (s.it P).In n then some n else none
  | _ => none

def locals : Ex → Bool
  | .lit _ _ _ => true
  | _ => false

def fallback : Ty → Int
  | .nonZero _ => 1
  | _ => 0

def quietOps : List Str := [str!"f32", str!"f64", str!"std::string::String"]

def quietNegs : List Str := [str!"f32", str!"f64", str!"std::num::Saturating", str!"std::num::Wrapping"]

/-- Variables have the given values, and other operators panic unless they are those of floats or
strings. -/
def st (f : Nat → Int) : State where
  loc := f
  other _ t := fallback t
  userOp _ ta _ t _ _ := if ta.name ∈ quietOps then .ok (fallback t) else .error .overflow
  userNeg t _ := if t.name ∈ quietNegs then .ok (fallback t) else .error .overflow

theorem fallback_in {P : Platform} (hP : 8 ≤ P.target) (t : Ty) : HasTy P t (fallback t) := by
  have hb : ∀ s : ITy, 1 ≤ (s.it P).bits - 1 := by
    rintro ⟨b, w⟩
    cases w <;> simp only [ITy.it, Width.bits] <;> omega
  have h1 : ∀ s : ITy, (2 : Int) ≤ 2 ^ ((s.it P).bits - 1) := by
    intro s
    have := Nat.pow_le_pow_right (n := 2) (by decide) (hb s)
    have h : (2 ^ ((s.it P).bits - 1) : Int) = ((2 ^ ((s.it P).bits - 1) : Nat) : Int) := by simp
    rw [h]
    have : 2 ^ 1 ≤ 2 ^ ((s.it P).bits - 1) := this
    omega
  have h2 : ∀ s : ITy, (2 : Int) ≤ 2 ^ (s.it P).bits := by
    intro s
    have := Nat.pow_le_pow_right (n := 2) (j := (s.it P).bits) (by decide) (Nat.le_trans (hb s) (Nat.sub_le _ _))
    have h : (2 ^ (s.it P).bits : Int) = ((2 ^ (s.it P).bits : Nat) : Int) := by simp
    rw [h]
    omega
  cases t with
  | int s =>
    simp only [HasTy, fallback, IT.In, IT.min, IT.max]
    have := h1 s; have := h2 s
    constructor <;> split <;> omega
  | nonZero s =>
    simp only [HasTy, fallback, IT.In, IT.min, IT.max]
    have := h1 s; have := h2 s
    refine ⟨⟨?_, ?_⟩, by decide⟩ <;> split <;> omega
  | wrapLike => trivial
  | f32 => trivial
  | f64 => trivial
  | adt n => trivial

theorem st_typed {P : Platform} (hP : 8 ≤ P.target) {Γ : Nat → Ty} {f : Nat → Int} (h : ∀ x, HasTy P (Γ x) (f x)) :
    Typed P Γ (st f) where
  loc := h
  other _ t := fallback_in hP t
  userOp _ ta _ t _ _ v hv := by
    simp only [st] at hv
    split at hv <;> cases hv
    exact fallback_in hP t
  userNeg t _ v hv := by
    simp only [st] at hv
    split at hv <;> cases hv
    exact fallback_in hP t

theorem st_trusts (f : Nat → Int) : Trusts plain (st f) where
  bin op ta tb t a b h := by
    have : ta.name ∈ quietOps := by
      rcases h with ⟨p, hp, _⟩ | h | h | h | h | h
      · cases hp
      · cases h
      · cases h
      · rw [h.1]; decide +kernel
      · rcases h.2 with h | h <;> rw [h] <;> decide +kernel
      · cases h
    exact ⟨fallback t, by simp only [st, if_pos this]⟩
  neg t a h := by
    have : t.name ∈ quietNegs := by
      rcases h with h | h | h
      · cases h
      · cases h
      · exact h
    exact ⟨fallback t, by simp only [st, if_pos this]⟩

theorem plain_noInts : NoInts plain where
  int ta tb s h hl := by
    rcases hl with ⟨p, hp, _⟩ | h' | h' | h' | h' | h'
    · cases hp
    · cases h'
    · cases h'
    · obtain rfl := (native_int h).1
      obtain ⟨b, w⟩ := s
      revert h'
      cases b <;> cases w <;> simp only [Ty.name, ITy.name] <;> exact fun h => absurd h.1 (by decide +kernel)
    · obtain rfl := (native_int h).1
      obtain ⟨b, w⟩ := s
      revert h'
      cases b <;> cases w <;> simp only [Ty.name, ITy.name] <;>
        exact fun h => h.2.elim (fun h => absurd h (by decide +kernel)) (fun h => absurd h (by decide +kernel))
    · cases h'
  wrap ta tb h hl := by
    rcases hl with ⟨p, hp, _⟩ | h' | h' | h' | h' | h'
    · cases hp
    · cases h'
    · cases h'
    · obtain rfl := native_wrap h
      exact absurd h'.1 (by decide +kernel)
    · obtain rfl := native_wrap h
      exact h'.2.elim (fun h => absurd h (by decide +kernel)) (fun h => absurd h (by decide +kernel))
    · cases h'
  neg s hl := by
    rcases hl with h | h | h
    · cases h
    · cases h
    · obtain ⟨b, w⟩ := s
      revert h
      cases b <;> cases w <;> simp only [Ty.name, ITy.name] <;> exact fun h => absurd h (by decide +kernel)

theorem lits_sound {P : Platform} (Γ : Nat → Ty) : ConstSound P Γ (lits P) := by
  intro e n h
  unfold lits at h
  split at h
  next sp m s =>
    split at h <;> cases h
    next hin =>
      refine ⟨n, s, fun _ _ _ => rfl, rfl, ?_⟩
      have h0 := hin.1
      have hlt : (n : Int) < 2 ^ (s.it P).bits := by
        have h1 := hin.2
        unfold IT.max at h1
        have hpos : (1 : Int) ≤ 2 ^ ((s.it P).bits - 1) := by
          have := Nat.one_le_two_pow (n := (s.it P).bits - 1)
          have h : (2 ^ ((s.it P).bits - 1) : Int) = ((2 ^ ((s.it P).bits - 1) : Nat) : Int) := by simp
          rw [h]; omega
        have hle : (2 : Int) ^ ((s.it P).bits - 1) ≤ 2 ^ (s.it P).bits := by
          have := Nat.pow_le_pow_right (n := 2) (by decide) (Nat.sub_le (s.it P).bits 1)
          have h : (2 ^ ((s.it P).bits - 1) : Int) = ((2 ^ ((s.it P).bits - 1) : Nat) : Int) := by simp
          have h' : (2 ^ (s.it P).bits : Int) = ((2 ^ (s.it P).bits : Nat) : Int) := by simp
          rw [h, h']; omega
        split at h1 <;> omega
      unfold IT.toBits
      rw [Int.emod_eq_of_lt (by omega) hlt]
      simp
  next => cases h

theorem locals_sound {P : Platform} (Γ : Nat → Ty) : LocalSound P Γ locals := by
  intro e h
  cases e with
  | lit sp n t => exact ⟨n, fun _ _ _ => rfl⟩
  | _ => cases h

/-- A body without a report in which an expression panics. -/
def Panics (P : Platform) (Γ : Nat → Ty) (body e : Ex) : Prop :=
  WF P Γ body ∧ reports P plain (lits P) locals body = [] ∧ e ∈ runtime false body ∧
    ∃ ρ, Typed P Γ ρ ∧ Trusts plain ρ ∧ Past P Γ e ρ ∧ ∃ err, eval P ρ e = .error err

def i8 : Ty := .int ⟨true, .w8⟩
def i32 : Ty := .int ⟨true, .w32⟩
def u8 : Ty := .int ⟨false, .w8⟩
def u32 : Ty := .int ⟨false, .w32⟩
def u64 : Ty := .int ⟨false, .w64⟩
def usize : Ty := .int ⟨false, .size⟩

/-- `x * -1` -/
def mulNeg : Ex := .bin 1 false .mul i8 (.loc 2 0 i8) (.un 3 .neg i8 (.lit 4 1 i8))

/-- `x / -1` -/
def divNeg : Ex := .bin 1 false .div i8 (.loc 2 0 i8) (.un 3 .neg i8 (.lit 4 1 i8))

/-- `0 - x` -/
def zeroSub : Ex := .bin 1 false .sub i8 (.lit 2 0 i8) (.loc 3 0 i8)

/-- `x << y` -/
def shift : Ex := .bin 1 false .shl i8 (.loc 2 0 i8) (.loc 3 1 i8)

/-- `10.wrapping_div(y)` -/
def constRecv : Ex := .method 1 (.divLike 0) i8 (.lit 2 10 i8) (.cons (.loc 3 0 i8) .nil)

/-- `LazyLock::new(|| x + y)` in a static -/
def lazySum : Ex := .bin 1 false .add i8 (.loc 2 0 i8) (.loc 3 1 i8)

def lazyStatic : Ex := .constItem 7 i8 (.node 6 i8 (.cons (.fnItem 5 i8 lazySum) .nil))

/-- `1usize + x as usize` for `x: u32` -/
def hostSize : Ex := .bin 1 false .add usize (.lit 2 1 usize) (.conv 3 false usize (.loc 4 0 u32))

def wrapperTy : Ty := .adt (str!"Wrapper")

/-- `1u64 + Wrapper::from(x)` for `x: u8` -/
def userAdd : Ex := .bin 1 false .add u64 (.lit 2 1 u64) (.conv 3 true wrapperTy (.loc 4 0 u8))

/-- `x * -1` overflows for `i8::MIN`: the literal is taken for `1`. -/
theorem mul_minus_one : Panics p64 (fun _ => i8) mulNeg mulNeg := by
  refine ⟨by simp [WF, WFL, methTyped, litTyped, opTyped, native, isLit, Ex.ty, mulNeg, i8, IT.In],
    by decide +kernel, by simp [runtime, runtimeL, mulNeg, mulNeg], st (fun _ => -128), ?_, st_trusts _, by simp [Past, mulNeg], ?_⟩
  · exact st_typed (by decide) (by intro x; simp only [HasTy, i8]; decide +kernel)
  · exact ⟨.overflow, rfl⟩

/-- `x / -1` overflows for `i8::MIN`. -/
theorem div_minus_one : Panics p64 (fun _ => i8) divNeg divNeg := by
  refine ⟨by simp [WF, WFL, methTyped, litTyped, opTyped, native, isLit, Ex.ty, divNeg, i8],
    by decide +kernel, by simp [runtime, runtimeL, divNeg, divNeg], st (fun _ => -128), ?_, st_trusts _, by simp [Past, divNeg], ?_⟩
  · exact st_typed (by decide) (by intro x; simp only [HasTy, i8]; decide +kernel)
  · exact ⟨.overflow, rfl⟩

/-- `0 - x` overflows for `i8::MIN`. -/
theorem zero_sub : Panics p64 (fun _ => i8) zeroSub zeroSub := by
  refine ⟨by simp [WF, WFL, methTyped, litTyped, opTyped, native, isLit, Ex.ty, zeroSub, i8] <;> decide +kernel,
    by decide +kernel, by simp [runtime, runtimeL, zeroSub, zeroSub], st (fun _ => -128), ?_, st_trusts _, by simp [Past, zeroSub], ?_⟩
  · exact st_typed (by decide) (by intro x; simp only [HasTy, i8]; decide +kernel)
  · exact ⟨.overflow, rfl⟩

/-- `x << y` overflows for `y = 100`. -/
theorem shift_any : Panics p64 (fun _ => i8) shift shift := by
  refine ⟨by simp [WF, WFL, methTyped, litTyped, opTyped, native, isLit, Ex.ty, shift, i8],
    by decide +kernel, by simp [runtime, runtimeL, shift, shift], st (fun _ => 100), ?_, st_trusts _, by simp [Past, shift], ?_⟩
  · exact st_typed (by decide) (by intro x; simp only [HasTy, i8]; decide +kernel)
  · exact ⟨.shift, rfl⟩

/-- `10.wrapping_div(y)` divides by zero. -/
theorem const_receiver : Panics p64 (fun _ => i8) constRecv constRecv := by
  refine ⟨by simp [WF, WFL, methTyped, litTyped, opTyped, native, isLit, Ex.ty, constRecv, i8] <;> decide +kernel,
    by decide +kernel, by simp [runtime, runtimeL, constRecv, constRecv], st (fun _ => 0), ?_, st_trusts _, by simp [Past, constRecv], ?_⟩
  · exact st_typed (by decide) (by intro x; simp only [HasTy, i8]; decide +kernel)
  · exact ⟨.divByZero, rfl⟩

/-- A closure in a static is not looked at. -/
theorem lazy_static : Panics p64 (fun _ => i8) lazyStatic lazySum := by
  refine ⟨by simp [WF, WFL, methTyped, litTyped, opTyped, native, isLit, Ex.ty, lazyStatic, i8, lazySum],
    by decide +kernel, by simp [runtime, runtimeL, lazyStatic, lazySum], st (fun _ => 100), ?_, st_trusts _, by simp [Past, lazySum], ?_⟩
  · exact st_typed (by decide) (by intro x; simp only [HasTy, i8]; decide +kernel)
  · exact ⟨.overflow, rfl⟩

/-- The maximum of `usize` is that of the machine clippy runs on. -/
theorem host_size : Panics ⟨64, 32⟩ (fun _ => u32) hostSize hostSize := by
  refine ⟨by simp [WF, WFL, methTyped, litTyped, opTyped, native, isLit, Ex.ty, hostSize, usize, u32] <;> decide +kernel,
    by decide +kernel, by simp [runtime, runtimeL, hostSize, hostSize], st (fun _ => 4294967295), ?_, st_trusts _, by simp [Past, hostSize], ?_⟩
  · exact st_typed (by decide) (by intro x; simp only [HasTy, u32]; decide +kernel)
  · exact ⟨.overflow, rfl⟩

/-- An operator of a user is let through because its operand comes from a small integer. -/
theorem user_operator : Panics p64 (fun _ => u8) userAdd userAdd := by
  refine ⟨by simp [WF, WFL, methTyped, litTyped, opTyped, native, isLit, Ex.ty, userAdd, u64, u8, wrapperTy] <;> decide +kernel,
    by decide +kernel, by simp [runtime, runtimeL, userAdd, userAdd], st (fun _ => 0), ?_, st_trusts _, by simp [Past, userAdd], ?_⟩
  · exact st_typed (by decide) (by intro x; simp only [HasTy, u8]; decide +kernel)
  · exact ⟨.overflow, rfl⟩

/-- The same is safe where clippy runs on the machine the program is for: the hypotheses of
`silent_safe_partial` hold. -/
example : p64.Usual ∧ NoInts plain ∧ ConstSound p64 (fun _ => u32) (lits p64) ∧
    LocalSound p64 (fun _ => u32) locals ∧ reports p64 plain (lits p64) locals hostSize = [] ∧
    WF p64 (fun _ => u32) hostSize ∧ Tame p64 (fun _ => u32) (lits p64) locals hostSize ∧
    hostSize ∈ runtime false hostSize ∧
    Typed p64 (fun _ => u32) (st fun _ => 4294967295) ∧ Trusts plain (st fun _ => 4294967295) ∧
    Past p64 (fun _ => u32) hostSize (st fun _ => 4294967295) := by
  refine ⟨⟨rfl, by decide⟩, plain_noInts, lits_sound _, locals_sound _, by decide +kernel, ?_, ?_,
    by simp [runtime, hostSize], st_typed (by decide) (by intro x; simp only [HasTy, u32]; decide +kernel),
    st_trusts _, by simp [Past, hostSize]⟩
  · simp [WF, litTyped, opTyped, native, Ex.ty, hostSize, usize, u32] <;> decide +kernel
  · simp only [hostSize, Tame, and_true]
    exact ⟨fun h => absurd h (by decide +kernel), fun _ => by decide +kernel, fun _ h => (by cases h),
      fun _ h => (by simp at h), fun h => (by simp at h), fun h => (by simp [native, Ex.ty, usize] at h)⟩

/-- `x + y` is reported, and so is the second of two statements. -/
example : reports p64 plain (lits p64) locals (.node 9 i8 (.cons lazySum (.cons mulNeg (.cons
    (.bin 10 false .add i8 (.loc 11 0 i8) (.loc 12 1 i8)) .nil)))) = [1, 10] := by decide +kernel

/-- A report at an argument, and what follows it. -/
example : reports p64 plain (lits p64) locals (.node 9 i8 (.cons
    (.method 1 (.divLike 0) i8 (.loc 2 0 i8) (.cons (.loc 3 1 i8) .nil)) (.cons
    (.bin 10 false .add i8 (.loc 11 0 i8) (.loc 12 1 i8)) .nil))) = [3, 10] := by decide +kernel

/-- The receiver of a call with a report at its argument is not looked at:
`(x + y).wrapping_div(z)`. -/
example : reports p64 plain (lits p64) locals
    (.method 1 (.divLike 0) i8 (.bin 10 false .add i8 (.loc 11 0 i8) (.loc 12 1 i8)) (.cons (.loc 3 1 i8) .nil)) =
      [3] := by decide +kernel

/-- `x / 3`, as in `div_literal_quiet`. -/
example : check p64 plain (lits p64) locals (.bin 1 false .div i8 (.loc 2 0 i8) (.lit 3 3 i8)) = none :=
  div_literal_quiet 1 false .div i8 (.loc 2 0 i8) 3 3 ⟨true, .w8⟩ ⟨true, .w8⟩ (.inl rfl) rfl rfl (by decide +kernel)
    (by decide)

/-- Operands of an operation without a report: `(x + y) / 3`. -/
example : reports p64 plain (lits p64) locals (.bin 20 false .div i8 lazySum (.lit 21 3 i8)) = [1] := by
  decide +kernel

end Verif.SideFx.Witness
