import Verif.Casts.Model

/-!
# The values of expressions, independent of the lints

`p` is the pointer width of the target. Operators and methods have the meaning of the Rust reference and of the standard library; arithmetic which
overflows panics, so it has no value.
-/

namespace Verif.Casts
open Verif.RInt

/-- The type as signedness and number of bits. -/
def ITy.it (p : Nat) (t : ITy) : IT := ⟨t.signed, t.bits p⟩

/-- The value of `x op y`. -/
def Op.run (t : IT) : Op → Int → Int → Int → Prop
  | .add, x, y, v => t.add x y = .ok v
  | .mul, x, y, v => t.mul x y = .ok v
  | .div, x, y, v => t.div x y = .ok v
  | .rem, x, y, v => t.rem x y = .ok v
  | .and, x, y, v => v = t.and x y
  | .shr, x, y, v => t.shr x y = .ok v
  | .other, _, _, v => t.In v

/-- The value of `x.m()`; for `Option` and `Result` this is the value inside of it, if there is one. -/
def Meth.run0 (t : IT) : Meth → Int → Int → Prop
  | .signum, x, v => v = x.sign
  | .checkedAbs, x, v => v = x.natAbs ∧ t.In v
  | .saturatingAbs, x, v => v = Min.min (x.natAbs : Int) t.max
  | .isqrt, x, v => 0 ≤ x ∧ 0 ≤ v ∧ v * v ≤ x ∧ x < (v + 1) * (v + 1)
  | .checkedIsqrt, x, v => 0 ≤ x ∧ 0 ≤ v ∧ v * v ≤ x ∧ x < (v + 1) * (v + 1)
  | .unwrap, x, v => v = x
  | .unwrapUnchecked, x, v => v = x
  | .intoOk, x, v => v = x
  | _, _, v => t.In v

/-- The value of `x.m(y)`. -/
def Meth.run1 (t : IT) : Meth → Int → Int → Int → Prop
  | .min, x, y, v => v = Min.min x y
  | .pow, x, y, v => 0 ≤ y ∧ v = x ^ y.toNat ∧ t.In v
  | .checkedPow, x, y, v => 0 ≤ y ∧ v = x ^ y.toNat ∧ t.In v
  | .saturatingPow, x, y, v => 0 ≤ y ∧ v = Max.max t.min (Min.min (x ^ y.toNat) t.max)
  | .remEuclid, x, y, v => y ≠ 0 ∧ v = x % y
  | .checkedRemEuclid, x, y, v => y ≠ 0 ∧ v = x % y
  | .wrappingRemEuclid, x, y, v => y ≠ 0 ∧ v = x % y
  | _, _, _, v => t.In v

/-- The value of `x.m(y, z)`. -/
def Meth.run2 (t : IT) : Meth → Int → Int → Int → Int → Prop
  | .clamp, x, lo, hi, v => lo ≤ hi ∧ v = Max.max lo (Min.min x hi)
  | _, _, _, _, v => t.In v

/-- `e` can evaluate to `v`. An opaque expression can have every value of its type. -/
inductive Ev (p : Nat) : E → Int → Prop
  | atom {ty i v} : (ty.it p).In v → Ev p (.atom ty i) v
  | lit {ty v} : Ev p (.lit ty v) v
  | cast {ty e v} : Ev p e v → Ev p (.cast ty e) ((ty.it p).wrap v)
  | block {e v} : Ev p e v → Ev p (.block e) v
  | locl {e v} : Ev p e v → Ev p (.locl e) v
  | bin {op a b x y v} : Ev p a x → Ev p b y → op.run (a.ty.it p) x y v → Ev p (.bin op a b) v
  | call0 {ty m a x v} : Ev p a x → m.run0 (ty.it p) x v → Ev p (.call0 ty m a) v
  | call1 {ty m a b x y v} : Ev p a x → Ev p b y → m.run1 (ty.it p) x y v → Ev p (.call1 ty m a b) v
  | expect {ty a v} : Ev p a v → Ev p (.call1 ty .expect a .str) v
  | call2 {ty m a b c x y z v} : Ev p a x → Ev p b y → Ev p c z → m.run2 (ty.it p) x y z v → Ev p (.call2 ty m a b c) v

/-- The widths of Rust's integer types. -/
def ITy.Ok (p : Nat) (t : ITy) : Prop := 8 ≤ t.bits p ∧ t.bits p ≤ 128

/-- The methods whose argument is of the type of the receiver. -/
def Meth.sameArg : Meth → Bool
  | .min | .remEuclid | .checkedRemEuclid | .wrappingRemEuclid => true
  | _ => false

/-- The methods whose result is of the type of the receiver. -/
def Meth.sameRes : Meth → Bool
  | .other _ => false
  | _ => true

/-- The number of arguments of a method. -/
def Meth.arity : Meth → Option Nat
  | .signum | .checkedAbs | .saturatingAbs | .isqrt | .checkedIsqrt | .unwrap | .unwrapUnchecked | .intoOk => some 0
  | .min | .pow | .saturatingPow | .checkedPow | .remEuclid | .checkedRemEuclid | .wrappingRemEuclid | .expect => some 1
  | .clamp => some 2
  | .other _ => none

/-- The type checker accepts the expression. -/
def E.Typed (p : Nat) : E → Prop
  | .atom t _ => t.Ok p
  | .lit t v => t.Ok p ∧ (t.it p).In v
  | .str => True
  | .cast t e => t.Ok p ∧ e.Typed p
  | .block e => e.Typed p
  | .locl e => e.Typed p
  | .bin op a b => a.Typed p ∧ b.Typed p ∧ a.ty.Ok p ∧ (op ≠ .shr → op ≠ .other → a.ty = b.ty)
  | .call0 t m a => t.Ok p ∧ a.Typed p ∧ (m.sameRes = true → a.ty = t) ∧ (m = .signum → t.signed = true) ∧ (∀ n, m.arity = some n → n = 0)
  | .call1 t m a b => t.Ok p ∧ a.Typed p ∧ b.Typed p ∧ (m.sameRes = true → a.ty = t) ∧ (m.sameArg = true → b.ty = t) ∧
      (isPow m = true → b.ty.signed = false) ∧ (m = .expect → b = .str) ∧ (∀ n, m.arity = some n → n = 1)
  | .call2 t m a b c => t.Ok p ∧ a.Typed p ∧ b.Typed p ∧ c.Typed p ∧ (m.sameRes = true → a.ty = t) ∧ (m = .clamp → b.ty = t ∧ c.ty = t) ∧
      (∀ n, m.arity = some n → n = 2)

/-- The constant evaluator is right about the expressions it knows (what C18 proves of it), and knows nothing about a string. -/
def Right (p : Nat) (K : E → Option Nat) : Prop :=
  K .str = none ∧ ∀ e c v, K e = some c → e.Typed p → Ev p e v → c = (e.ty.it p).toBits v

/-- A constant evaluator which only knows literals. -/
def litK (p : Nat) : E → Option Nat
  | .lit t v => some ((t.it p).toBits v)
  | _ => none

theorem litK_right (p : Nat) : Right p (litK p) := by
  refine ⟨rfl, fun e c v h ht he => ?_⟩
  cases e <;> simp [litK] at h
  cases he
  exact h.symm

end Verif.Casts
