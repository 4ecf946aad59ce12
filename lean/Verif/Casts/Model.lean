import Verif.Consts.Model

/-!
# Lints about numeric casts

Model of `/repo/clippy_lints/src/casts/{utils,cast_possible_truncation,cast_sign_loss,cast_possible_wrap,cast_precision_loss,
cast_lossless}.rs`. Spans, macros and `#[cfg]`-dependent types aren't modelled. The constant evaluator is a parameter `K`: it gives the bits
(a `u128`) of an integer expression whose value it knows.
-/

namespace Verif.Casts
open Verif.RInt

/-- An integer type; `none` is the width of `isize` and `usize`. -/
structure ITy where
  signed : Bool
  width : Option Nat
deriving DecidableEq, Repr

/-- `int_ty_to_nbits` for an integer type, /repo/clippy_lints/src/casts/utils.rs:6-13; `p` is the pointer width of the target. -/
def ITy.bits (p : Nat) (t : ITy) : Nat := t.width.getD p

/-- `is_isize_or_usize`, /repo/clippy_utils/src/ty/mod.rs:457-459. -/
def ITy.ptrSized (t : ITy) : Bool := t.width.isNone

/-- The binary operators the lints know; the rest is `other`. -/
inductive Op | add | mul | div | rem | and | shr | other
deriving DecidableEq, Repr

/-- The names of methods the lints know (cast_possible_truncation.rs:59, 67, 76, cast_sign_loss.rs:23-40). -/
inductive Meth
  | min | clamp | signum
  | pow | saturatingPow | checkedPow
  | checkedAbs | saturatingAbs | isqrt | checkedIsqrt | remEuclid | checkedRemEuclid | wrappingRemEuclid
  | unwrap | unwrapUnchecked | expect | intoOk
  | other (i : Nat)
deriving DecidableEq, Repr

/-- Expressions, as far as the lints look at them. `atom` is any other expression; `locl` is a path to an immutable local which has the given
initializer; `str` is an expression which isn't an integer. For an expression of type `Option<T>` or `Result<T, _>` the type is `T`. -/
inductive E
  | atom (ty : ITy) (i : Nat)
  | lit (ty : ITy) (v : Int)
  | str
  | cast (ty : ITy) (e : E)
  | block (e : E)
  | locl (e : E)
  | bin (op : Op) (a b : E)
  | call0 (ty : ITy) (m : Meth) (a : E)
  | call1 (ty : ITy) (m : Meth) (a b : E)
  | call2 (ty : ITy) (m : Meth) (a b c : E)
deriving DecidableEq, Repr

/-- The type of an expression (`typeck_results().expr_ty`). -/
def E.ty : E → ITy
  | .atom t _ => t
  | .lit t _ => t
  | .str => ⟨true, some 8⟩
  | .cast t _ => t
  | .block e => e.ty
  | .locl e => e.ty
  | .bin _ a _ => a.ty
  | .call0 t _ _ => t
  | .call1 t _ _ _ => t
  | .call2 t _ _ _ _ => t

/-! ## `cast_possible_truncation` -/

/-- `128 - c.leading_zeros()`. -/
def bitLen (c : Nat) : Nat := if c = 0 then 0 else c.log2 + 1

/-- `u64::MAX` -/
def u64Max : Nat := 2 ^ 64 - 1

/-- `get_constant_bits`, cast_possible_truncation.rs:25-27. -/
def constBits (K : E → Option Nat) (e : E) : Option Nat := (K e).map bitLen

/-- `constant_int(cx, right).map_or(0, |s| u64::try_from(s).unwrap_or_default())`, cast_possible_truncation.rs:52. -/
def shiftBits (K : E → Option Nat) (e : E) : Nat :=
  match K e with
  | none => 0
  | some s => if s ≤ u64Max then s else 0

/-- `apply_reductions`, cast_possible_truncation.rs:29-84: the width of the values of the expression, at most. `expr_or_init`
(/repo/clippy_utils/src/lib.rs:170-179) goes from a path to an immutable local to its initializer. -/
def reduce (K : E → Option Nat) (n : Nat) (signed : Bool) : E → Nat
  | .locl e => reduce K n signed e
  | .cast _ e => reduce K n signed e
  | .block e => reduce K n signed e
  | .bin .div a b => reduce K n signed a - (if signed then 0 else ((constBits K b).map (· - 1)).getD 0)
  | .bin .rem a b => Nat.min ((constBits K b).getD u64Max) (reduce K n signed a)
  | .bin .and a b =>
    Nat.min (Nat.min (Nat.min ((constBits K b).getD u64Max) ((constBits K a).getD u64Max)) (reduce K n signed b)) (reduce K n signed a)
  | .bin .shr a b => reduce K n signed a - shiftBits K b
  | .bin _ _ _ => n
  | .call1 _ m a b =>
    if signed then n
    else Nat.min (reduce K n signed a) ((if m = .min then constBits K b else none).getD u64Max)
  | .call2 _ m _ lo hi =>
    if m = .clamp then
      match constBits K lo, constBits K hi with
      | some l, some h => Nat.max l h
      | _, _ => n
    else n
  | .call0 _ m _ => if m = .signum then 0 else n
  | .atom _ _ => n
  | .lit _ _ => n
  | .str => n

/-- `should_lint` of `check` for a cast of an integer of `from` (reduced) bits, cast_possible_truncation.rs:103-114. -/
def truncLint (p : Nat) (frm to : ITy) (reduced : Nat) : Bool :=
  match frm.ptrSized, to.ptrSized with
  | true, true => to.bits p < reduced
  | false, false => to.bits p < reduced
  | true, false => to.bits p ≤ 32
  | false, true => reduced = 64

/-- `check` for a cast between integer types, cast_possible_truncation.rs:94-121: whether the lint is emitted for `e as to`. -/
def truncates (K : E → Option Nat) (p : Nat) (e : E) (to : ITy) : Bool :=
  truncLint p e.ty to (reduce K (e.ty.bits p) e.ty.signed e)

/-! ## `cast_sign_loss` -/

/-- `Sign`, cast_sign_loss.rs:138-143. -/
inductive Sign | pos | neg | uncertain
deriving DecidableEq, Repr

/-- `METHODS_RET_POSITIVE`, cast_sign_loss.rs:23-31. -/
def retPositive : Meth → Bool
  | .checkedAbs | .saturatingAbs | .isqrt | .checkedIsqrt | .remEuclid | .checkedRemEuclid | .wrappingRemEuclid => true
  | _ => false

/-- `METHODS_POW`, cast_sign_loss.rs:37. -/
def isPow : Meth → Bool
  | .pow | .saturatingPow | .checkedPow => true
  | _ => false

/-- `METHODS_UNWRAP`, cast_sign_loss.rs:40. -/
def isUnwrap : Meth → Bool
  | .unwrap | .unwrapUnchecked | .expect | .intoOk => true
  | _ => false

/-- `get_const_signed_int_eval`, cast_sign_loss.rs:108-121, with `sext` of /repo/clippy_utils/src/lib.rs:1655-1658. -/
def constSigned (K : E → Option Nat) (p : Nat) (e : E) : Option Int :=
  if e.ty.signed then (K e).map (Consts.sextW (e.ty.bits p)) else none

/-- `get_const_unsigned_int_eval`, cast_sign_loss.rs:123-136. -/
def constUnsigned (K : E → Option Nat) (e : E) : Option Nat :=
  if e.ty.signed then none else K e

/-- The first part of `expr_sign`, cast_sign_loss.rs:147-152. -/
def constSign (K : E → Option Nat) (p : Nat) (e : E) : Option Sign :=
  match constSigned K p e with
  | some v => some (if 0 ≤ v then .pos else .neg)
  | none => if (constUnsigned K e).isSome then some .pos else none

/-- A method call: its name and its receiver. -/
def E.call? : E → Option (Meth × E)
  | .call0 _ m a => some (m, a)
  | .call1 _ m a _ => some (m, a)
  | .call2 _ m a _ _ => some (m, a)
  | _ => none

/-- One round of the loop of `expr_sign`, cast_sign_loss.rs:159-167: `method_chain_args(expr, &[found_name])` is the call of the method of that
name, and its receiver has to be a method call as well. -/
def peelStep (name : Meth) (e : E) : Option (Meth × E) :=
  if isUnwrap name then
    match e.call? with
    | some (m, r) => if m = name then r.call? else none
    | none => none
  else none

/-- The loop of `expr_sign`, cast_sign_loss.rs:159-167: the name of the method below the calls of `unwrap` and so on. The fuel is never used up,
since the expression gets smaller. -/
def peelLoop : Nat → Meth → E → Meth
  | 0, name, _ => name
  | f + 1, name, e =>
    match peelStep name e with
    | some (m, r) => peelLoop f m r
    | none => name

/-- A bound of the number of rounds. -/
def E.size : E → Nat
  | .atom _ _ | .lit _ _ | .str => 1
  | .cast _ e | .block e | .locl e => e.size + 1
  | .bin _ a b => a.size + b.size + 1
  | .call0 _ _ a => a.size + 1
  | .call1 _ _ a b => a.size + b.size + 1
  | .call2 _ _ a b c => a.size + b.size + c.size + 1

/-- The match of `pow_call_result_sign`, cast_sign_loss.rs:192-213, for the sign of the base and the value of the exponent. -/
def powSign (base : Sign) (exponent : Option Nat) : Sign :=
  match base, exponent.map (· % 2 == 0) with
  | .pos, _ => .pos
  | _, some true => .pos
  | .neg, some false => .neg
  | .neg, none => .uncertain
  | .uncertain, none => .uncertain
  | .uncertain, some false => .uncertain

/-- `expr_sign`, cast_sign_loss.rs:145-178. Note that the arguments and the receiver are those of the outer call. -/
def exprSign (K : E → Option Nat) (p : Nat) : E → Sign
  | .call0 t m a =>
    match constSign K p (.call0 t m a) with
    | some s => s
    | none => if retPositive (peelLoop (E.size (.call0 t m a)) m (.call0 t m a)) then .pos else .uncertain
  | .call1 t m a b =>
    match constSign K p (.call1 t m a b) with
    | some s => s
    | none =>
      if isPow (peelLoop (E.size (.call1 t m a b)) m (.call1 t m a b)) then powSign (exprSign K p a) (constUnsigned K b)
      else if retPositive (peelLoop (E.size (.call1 t m a b)) m (.call1 t m a b)) then .pos else .uncertain
  | .call2 t m a b c =>
    match constSign K p (.call2 t m a b c) with
    | some s => s
    | none => if retPositive (peelLoop (E.size (.call2 t m a b c)) m (.call2 t m a b c)) then .pos else .uncertain
  | e => (constSign K p e).getD .uncertain

/-- `exprs_with_muldiv_binop_peeled`, cast_sign_loss.rs:290-329. -/
def muldivPeel : E → List E
  | .bin .mul a b => muldivPeel a ++ muldivPeel b
  | .bin .div a b => muldivPeel a ++ muldivPeel b
  | .bin .rem a _ => [a]
  | .bin .shr a _ => [a]
  | e => [e]

/-- `exprs_with_add_binop_peeled`, cast_sign_loss.rs:339-363. -/
def addPeel : E → List E
  | .bin .add a b => addPeel a ++ addPeel b
  | e => [e]

/-- The end of `expr_muldiv_sign`, cast_sign_loss.rs:224-242, for the signs of the operands. -/
def muldivSign (l : List Sign) : Sign :=
  if l.contains .uncertain then .uncertain
  else if l.count .neg % 2 = 1 then .neg else .pos

/-- The end of `expr_add_sign`, cast_sign_loss.rs:256-278. -/
def addSign (l : List Sign) : Sign :=
  if l.contains .uncertain then .uncertain
  else if l.count .neg = 0 then .pos
  else if l.count .pos = 0 then .neg
  else .uncertain

/-- `should_lint` for two integer types, cast_sign_loss.rs:79-101. -/
def losesSign (K : E → Option Nat) (p : Nat) (e : E) (to : ITy) : Bool :=
  e.ty.signed && !to.signed && exprSign K p e ≠ .pos && muldivSign ((muldivPeel e).map (exprSign K p)) ≠ .pos &&
    addSign ((addPeel e).map (exprSign K p)) ≠ .pos

/-! ## `cast_possible_wrap` -/

/-- `EmitState`, cast_possible_wrap.rs:14-20. -/
inductive Emit | no | always | onPtr (p : Nat)
deriving DecidableEq, Repr

/-- `ALLOWED_POINTER_SIZES`, cast_possible_wrap.rs:12. -/
def pointerSizes : List Nat := [16, 32, 64]

/-- `check`, cast_possible_wrap.rs:47-83. -/
def wraps (p : Nat) (frm to : ITy) : Emit :=
  if frm.signed || !to.signed then .no
  else
    match frm.ptrSized, to.ptrSized with
    | true, true => .always
    | true, false => if to.bits p ∈ pointerSizes then .onPtr (to.bits p) else .no
    | false, true => if frm.bits p ∈ pointerSizes then .onPtr (frm.bits p) else .no
    | false, false => if frm.bits p = to.bits p then .always else .no

/-! ## `cast_precision_loss` and `cast_lossless` -/

/-- The types of numbers and `bool`. -/
inductive NTy
  | int (t : ITy) | f16 | f32 | f64 | f128 | bool
deriving DecidableEq, Repr

/-- `check` of cast_precision_loss.rs:9-22. -/
def losesPrecision (p : Nat) : NTy → NTy → Bool
  | .int t, .f32 => t.ptrSized || decide (32 ≤ t.bits p)
  | .int t, .f64 => t.ptrSized || decide (64 ≤ t.bits p)
  | _, _ => false

/-- `should_lint` of cast_lossless.rs:79-109, outside of a const context; `fromBool` says that the MSRV has `From<bool>`. -/
def lossless (p : Nat) (fromBool : Bool) : NTy → NTy → Bool
  | .int f, .int t => !f.ptrSized && !t.ptrSized && decide (f.bits p < t.bits p) && !(f.signed && !t.signed)
  | .int f, .f32 => !f.ptrSized && decide (f.bits p < 32)
  | .int f, _ => !f.ptrSized && decide (f.bits p < 64)
  | .bool, .int _ => fromBool
  | .f32, .f64 => true
  | _, _ => false

/-! ## `cast_enum_truncation` -/

/-- `EnumValue`, /repo/clippy_utils/src/ty/mod.rs:921-924. -/
inductive EnumValue | unsigned (x : Nat) | signed (x : Int)
deriving DecidableEq, Repr

/-- `VariantDiscr` of rustc, with the value `read_explicit_enum_value` (/repo/clippy_utils/src/ty/mod.rs:936-946) gives for an explicit one. -/
inductive Discr | explicit (v : Option EnumValue) | relative (x : Nat)
deriving DecidableEq, Repr

/-- `i128::MIN` -/
def i128Min : Int := -(2 ^ 127)
/-- `i128::MAX` -/
def i128Max : Int := 2 ^ 127 - 1

/-- `enum_value_nbits`, /repo/clippy_lints/src/casts/utils.rs:15-22. -/
def enumValueBits : EnumValue → Nat
  | .unsigned x => bitLen x
  | .signed x => if x < 0 then bitLen (-(x + 1)).toNat + 1 else bitLen x.toNat

/-- The state of the fold of `enum_ty_to_nbits`, utils.rs:25-29. -/
structure Fold where
  explicit : Int
  start : Int
  last : Int
deriving DecidableEq, Repr

/-- One variant, utils.rs:29-48. -/
def foldStep (s : Fold) : Discr → Fold
  | .relative x =>
    if s.explicit + x ≤ i128Max then { s with last := max s.last (s.explicit + x) } else { s with start := i128Min }
  | .explicit (some (.signed x)) => { explicit := x, start := min s.start x, last := max s.last x }
  | .explicit (some (.unsigned x)) =>
    if (x : Int) ≤ i128Max then { s with explicit := x, last := max s.last x } else { s with start := i128Min }
  | .explicit none => s

/-- The end of `enum_ty_to_nbits`, utils.rs:50-61. -/
def foldBits (s : Fold) : Nat :=
  if s.start > s.last then 0
  else Nat.max (if s.start < 0 then bitLen (-(s.start + 1)).toNat + 1 else 0) (if s.last > 0 then bitLen s.last.toNat else 0)

/-- `enum_ty_to_nbits`, utils.rs:24-62. -/
def enumBits (vs : List Discr) : Nat := foldBits (vs.foldl foldStep ⟨0, 0, i128Min⟩)

/-- `EnumValue + u32`, /repo/clippy_utils/src/ty/mod.rs:926-934; the overflow of 128 bits isn't modelled. -/
def EnumValue.add (n : Nat) : EnumValue → EnumValue
  | .unsigned x => .unsigned (x + n)
  | .signed x => .signed (x + n)

/-- `get_discriminant_value`, /repo/clippy_utils/src/ty/mod.rs:949-958; `none` is a panic. -/
def discriminantValue (vs : List Discr) (i : Nat) : Option EnumValue :=
  match vs[i]? with
  | none => none
  | some (.explicit v) => v
  | some (.relative x) =>
    if i < x then none
    else
      match vs[i - x]? with
      | none => none
      | some (.explicit v) => v.map (EnumValue.add x)
      | some (.relative _) => some (.unsigned x)

/-- `check` for a cast of an enum, cast_possible_truncation.rs:135-141: `frmPtr` says that the type of the discriminant is as wide as a pointer. -/
def enumTruncates (p : Nat) (frmPtr : Bool) (nbits : Nat) (to : ITy) : Bool :=
  match frmPtr, to.ptrSized with
  | _, false => decide (to.bits p < nbits)
  | false, true => decide (32 < nbits)
  | true, true => false

end Verif.Casts
