import Verif.Common.RInt

/-
Model of clippy's constant evaluator on integer and boolean expressions
(`clippy_utils/src/consts.rs`, and `sext`/`unsext`/`clip` of `clippy_utils/src/lib.rs`).

Machine integers of the host program are represented by `Int` (`i128`) and `Nat` (`u128`);
every operation that can wrap is wrapped explicitly.
-/

namespace Verif.Consts
open Verif.RInt

/-- `rustc_middle::ty::IntTy`. -/
inductive IntTy | i8 | i16 | i32 | i64 | i128 | isize
  deriving DecidableEq, Repr

/-- `rustc_middle::ty::UintTy`. -/
inductive UintTy | u8 | u16 | u32 | u64 | u128 | usize
  deriving DecidableEq, Repr

/-- The compilation session: the pointer width (in bits) of the target being compiled for, and of
the host clippy itself was compiled for (`isize::BITS` in clippy's own code). -/
structure Sess where
  target : Nat
  host : Nat
  deriving DecidableEq, Repr

/-- `int_bits` (clippy_utils/src/lib.rs:1649-1651): the width on the target. -/
def IntTy.targetBits (S : Sess) : IntTy → Nat
  | .i8 => 8 | .i16 => 16 | .i32 => 32 | .i64 => 64 | .i128 => 128 | .isize => S.target

def UintTy.targetBits (S : Sess) : UintTy → Nat
  | .u8 => 8 | .u16 => 16 | .u32 => 32 | .u64 => 64 | .u128 => 128 | .usize => S.target

/-- `IntTypeBounds::bits` for `IntTy` (consts.rs:115-124): `Isize` uses the host's `isize`. -/
def IntTy.bits (S : Sess) : IntTy → Nat
  | .i8 => 8 | .i16 => 16 | .i32 => 32 | .i64 => 64 | .i128 => 128 | .isize => S.host

/-- `IntTypeBounds::bits` for `UintTy` (consts.rs:92-101). -/
def UintTy.bits (S : Sess) : UintTy → Nat
  | .u8 => 8 | .u16 => 16 | .u32 => 32 | .u64 => 64 | .u128 => 128 | .usize => S.host

/-- `IntTypeBounds::min_max` for `IntTy` (consts.rs:105-114). -/
def IntTy.minMax (S : Sess) (t : IntTy) : Int × Int :=
  (-(2 ^ (t.bits S - 1)), 2 ^ (t.bits S - 1) - 1)

/-- `IntTypeBounds::min_max` for `UintTy` (consts.rs:82-91). -/
def UintTy.minMax (S : Sess) (t : UintTy) : Nat × Nat := (0, 2 ^ t.bits S - 1)

/-- `IntTypeBounds::ensure_fits` (consts.rs:75-78). -/
def IntTy.ensureFits (S : Sess) (t : IntTy) (n : Int) : Option Int :=
  if (t.minMax S).1 ≤ n ∧ n ≤ (t.minMax S).2 then some n else none

def UintTy.ensureFits (S : Sess) (t : UintTy) (n : Nat) : Option Nat :=
  if (t.minMax S).1 ≤ n ∧ n ≤ (t.minMax S).2 then some n else none

/-- The machine types `i128` and `u128` clippy computes in. -/
def I128 : IT := ⟨true, 128⟩
def U128 : IT := ⟨false, 128⟩

/-- `sext` (lib.rs:1655-1658): `((u as i128) << amt) >> amt`, `amt = 128 - bits`. -/
def sextW (w : Nat) (u : Nat) : Int :=
  I128.wrap (I128.wrap u * 2 ^ (128 - w)) / 2 ^ (128 - w)

/-- `unsext` (lib.rs:1662-1665): `((u as u128) << amt) >> amt`. -/
def unsextW (w : Nat) (x : Int) : Nat :=
  (x % 2 ^ 128).toNat * 2 ^ (128 - w) % 2 ^ 128 / 2 ^ (128 - w)

/-- `clip` (lib.rs:1668-1672): `(u << amt) >> amt`. -/
def clipW (w : Nat) (u : Nat) : Nat := u * 2 ^ (128 - w) % 2 ^ 128 / 2 ^ (128 - w)

def sext (S : Sess) (u : Nat) (t : IntTy) : Int := sextW (t.targetBits S) u
def unsext (S : Sess) (x : Int) (t : IntTy) : Nat := unsextW (t.targetBits S) x
def clip (S : Sess) (u : Nat) (t : UintTy) : Nat := clipW (t.targetBits S) u

/-! `i128::checked_*` and `u128::checked_*` of the host's standard library. -/

def i128Checked (x : Int) : Option Int := if I128.In x then some x else none
def u128Checked (x : Int) : Option Nat := if 0 ≤ x ∧ x < 2 ^ 128 then some x.toNat else none
def i128Div (a b : Int) : Option Int := if b = 0 then none else i128Checked (a.tdiv b)
def i128Rem (a b : Int) : Option Int :=
  if b = 0 then none else if I128.In (a.tdiv b) then some (a.tmod b) else none
def i128Shl (a : Int) (n : Nat) : Option Int := if n < 128 then some (I128.wrap (a * 2 ^ n)) else none
def i128Shr (a : Int) (n : Nat) : Option Int := if n < 128 then some (a / 2 ^ n) else none
def u128Div (a b : Nat) : Option Nat := if b = 0 then none else some (a / b)
def u128Rem (a b : Nat) : Option Nat := if b = 0 then none else some (a % b)
def u128Shl (a n : Nat) : Option Nat := if n < 128 then some (a * 2 ^ n % 2 ^ 128) else none
def u128Shr (a n : Nat) : Option Nat := if n < 128 then some (a / 2 ^ n) else none

/-- Types of the modelled expressions and constants.  (Floats, pointers, structs and byte strings
are not modelled.) -/
inductive Ty
  | int (t : IntTy) | uint (t : UintTy) | bool | char | str
  | tuple (ts : List Ty) | array (t : Ty) | ref (t : Ty)

/-- `Constant` (consts.rs:32-68) without floats, byte strings, raw pointers, structs and errors. -/
inductive Constant
  | int (n : Nat) | bool (b : Bool) | char (c : Nat) | str (s : List Nat)
  | vec (cs : List Constant) | tuple (cs : List Constant)
  | rep (c : Constant) (n : Nat) | ref (c : Constant)

/-- The binary operators (`rustc_hir::BinOpKind`). -/
inductive BinOp
  | add | sub | mul | div | rem | and | or | bitXor | bitAnd | bitOr | shl | shr
  | eq | ne | lt | le | ge | gt
  deriving DecidableEq, Repr

/-- `constant_not` (consts.rs:724-738). -/
def constantNot (S : Sess) (o : Constant) (ty : Ty) : Option Constant :=
  match o with
  | .bool b => some (.bool (!b))
  | .int v =>
    let v : Nat := 2 ^ 128 - 1 - v
    match ty with
    | .int t => some (.int (unsext S (I128.wrap v) t))
    | .uint t => some (.int (clip S v t))
    | _ => none
  | _ => none

/-- `constant_negate` (consts.rs:740-762). -/
def constantNegate (S : Sess) (o : Constant) (ty : Ty) : Option Constant :=
  match o with
  | .int v =>
    match ty with
    | .int t =>
      let v := sext S v t
      if v = (t.minMax S).1 then none
      else (i128Checked (-v)).map fun v => .int (unsext S v t)
    | _ => none
  | _ => none

/-- The signed integer half of `binop` (consts.rs:988-1028); `l` and `r` are the raw constants. -/
def binopInt (S : Sess) (op : BinOp) (t : IntTy) (l r : Nat) : Option Constant :=
  let min := (t.minMax S).1
  let bits : Int := t.bits S
  let l := sext S l t
  let r := sext S r t
  if (op = .div ∨ op = .rem) ∧ l = min ∧ r = -1 then none
  else
    let zext := fun n : Int => Constant.int (unsext S n t)
    match op with
    | .add => ((i128Checked (l + r)).bind (t.ensureFits S)).map zext
    | .sub => ((i128Checked (l - r)).bind (t.ensureFits S)).map zext
    | .mul => ((i128Checked (l * r)).bind (t.ensureFits S)).map zext
    | .div => if r ≠ 0 then (i128Div l r).map zext else none
    | .rem => if r ≠ 0 then (i128Rem l r).map zext else none
    | .shr => if r < bits ∧ 0 ≤ r then (i128Shr l r.toNat).map zext else none
    | .shl => if r < bits ∧ 0 ≤ r then (i128Shl l r.toNat).map zext else none
    | .bitXor => some (zext (I128.xor l r))
    | .bitOr => some (zext (I128.or l r))
    | .bitAnd => some (zext (I128.and l r))
    | .eq => some (.bool (l = r))
    | .ne => some (.bool (l ≠ r))
    | .lt => some (.bool (l < r))
    | .le => some (.bool (l ≤ r))
    | .ge => some (.bool (l ≥ r))
    | .gt => some (.bool (l > r))
    | .and | .or => none

/-- The unsigned integer half of `binop` (consts.rs:1029-1056). -/
def binopUint (S : Sess) (op : BinOp) (t : UintTy) (l r : Nat) : Option Constant :=
  let bits := t.bits S
  let mask := (2 ^ 128 - 1) / 2 ^ (128 - bits)
  match op with
  | .add => ((u128Checked ((l : Int) + r)).bind (t.ensureFits S)).map .int
  | .sub => ((u128Checked ((l : Int) - r)).bind (t.ensureFits S)).map .int
  | .mul => ((u128Checked ((l : Int) * r)).bind (t.ensureFits S)).map .int
  | .div => (u128Div l r).map .int
  | .rem => (u128Rem l r).map .int
  | .shr => if r < bits then (u128Shr l r).map fun x => .int (x &&& mask) else none
  | .shl => if r < bits then (u128Shl l r).map fun x => .int (x &&& mask) else none
  | .bitXor => some (.int (l ^^^ r))
  | .bitOr => some (.int (l ||| r))
  | .bitAnd => some (.int (l &&& r))
  | .eq => some (.bool (l = r))
  | .ne => some (.bool (l ≠ r))
  | .lt => some (.bool (l < r))
  | .le => some (.bool (l ≤ r))
  | .ge => some (.bool (l ≥ r))
  | .gt => some (.bool (l > r))
  | .and | .or => none

/-- The last arm of `binop` (consts.rs:1088-1098). -/
def binopBool (op : BinOp) (l : Constant) (r : Option Constant) : Option Constant :=
  match op, l, r with
  | .and, .bool false, _ => some (.bool false)
  | .or, .bool true, _ => some (.bool true)
  | .and, .bool true, some r => some r
  | .or, .bool false, some r => some r
  | .bitXor, .bool l, some (.bool r) => some (.bool (l ^^ r))
  | .bitAnd, .bool l, some (.bool r) => some (.bool (l && r))
  | .bitOr, .bool l, some (.bool r) => some (.bool (l || r))
  | _, _, _ => none

/-- `binop` on evaluated operands (consts.rs:983-1100); `ty` is the type of the left operand.
The float arms are not modelled. -/
def binop (S : Sess) (op : BinOp) (ty : Ty) (l : Constant) (r : Option Constant) :
    Option Constant :=
  match l, r with
  | .int l, some (.int r) =>
    match ty with
    | .int t => binopInt S op t l r
    | .uint t => binopUint S op t l r
    | _ => none
  | l, r => binopBool op l r

/-- Modelled expressions.  `lit`: an integer literal with the type inferred for it; `negLit`: a minus
sign directly in front of a literal (for the compiler `-128i8` is a literal, not a negation); `path`: a
local variable or a constant item (`other` expressions the evaluator gives up on, such as calls
or blocks with statements, behave like variables); `block`: `{ e }` without statements;
`ite`: `if` with an `else` branch. -/
inductive Expr
  | lit (n : Nat) (ty : Ty)
  | negLit (n : Nat) (ty : Ty)
  | boolLit (b : Bool)
  | path (x : String) (ty : Ty)
  | not (e : Expr)
  | neg (e : Expr)
  | bin (op : BinOp) (l r : Expr)
  | ite (c t e : Expr)
  | block (e : Expr)

def BinOp.isCmp : BinOp → Bool
  | .eq | .ne | .lt | .le | .ge | .gt => true
  | _ => false

/-- The type checker's `expr_ty`. -/
def Expr.ty : Expr → Ty
  | .lit _ ty => ty
  | .negLit _ ty => ty
  | .boolLit _ => .bool
  | .path _ ty => ty
  | .not e => e.ty
  | .neg e => e.ty
  | .bin op l _ => if op.isCmp then .bool else l.ty
  | .ite _ t _ => t.ty
  | .block e => e.ty

/-- `ConstEvalCtxt::expr` (consts.rs:622-691) on the modelled expressions, with `ifthenelse`
(970-981) and `block` (937-968; the locality tracking is not modelled).  `consts` gives the value
of the paths the compiler can evaluate (`qpath`, 616-619). -/
def eval (S : Sess) (consts : String → Option Constant) : Expr → Option Constant
  | .lit n _ => some (.int n)
  | .negLit n ty => constantNegate S (.int n) ty
  | .boolLit b => some (.bool b)
  | .path x _ => consts x
  | .not e => (eval S consts e).bind fun o => constantNot S o e.ty
  | .neg e => (eval S consts e).bind fun o => constantNegate S o e.ty
  | .bin op l r => (eval S consts l).bind fun l' => binop S op l.ty l' (eval S consts r)
  | .ite c t e =>
    match eval S consts c with
    | some (.bool b) => if b then eval S consts t else eval S consts e
    | _ => none
  | .block e => eval S consts e

/-- `FullInt` (consts.rs:459-463). -/
inductive FullInt | s (i : Int) | u (n : Nat)
  deriving DecidableEq, Repr

/-- `cmp_s_u` (consts.rs:487-489). -/
def cmpSU (s : Int) (u : Nat) : Ordering := if 0 ≤ s then compare s.toNat u else .lt

/-- `FullInt::cmp` (consts.rs:484-497). -/
def FullInt.cmp : FullInt → FullInt → Ordering
  | .s a, .s b => compare a b
  | .u a, .u b => compare a b
  | .s a, .u b => cmpSU a b
  | .u a, .s b => (cmpSU b a).swap

/-- `Constant::int_value` (consts.rs:267-277). -/
def intValue (S : Sess) (c : Constant) (ty : Ty) : Option FullInt :=
  match c, ty with
  | .int n, .int t => some (.s (sext S n t))
  | .int n, .uint _ => some (.u n)
  | _, _ => none

/-- `eval_int` (consts.rs:500-517) on an expression that is a literal, a negated literal or any
other expression of integer type. -/
def evalInt (S : Sess) (consts : String → Option Constant) : Expr → Option FullInt
  | .lit n _ => some (.u n)
  | .negLit n _ => some (.s (I128.wrap (-(I128.wrap n))))
  | e =>
    match e.ty with
    | .int t => (eval S consts e).bind fun c => intValue S c (.int t)
    | .uint t => (eval S consts e).bind fun c => intValue S c (.uint t)
    | _ => none

/-- The element type of arrays (`Ty::builtin_index`); slices are not distinguished. -/
def Ty.index : Ty → Option Ty
  | .array t => some t
  | _ => none

mutual
/-- `Constant::partial_cmp` (consts.rs:209-264); outer `none`: the `bug!` (compiler panic) of line
216, inner `none`: "no ordering". -/
def partialCmp (S : Sess) (ty : Ty) : Constant → Constant → Option (Option Ordering)
  | .str l, .str r => some (some (compare l r))
  | .char l, .char r => some (some (compare l r))
  | .int l, .int r =>
    match ty with
    | .int t => some (some (compare (sext S l t) (sext S r t)))
    | .uint _ => some (some (compare l r))
    | _ => none
  | .bool l, .bool r => some (some (compare l r))
  | .tuple l, .tuple r =>
    if l.length = r.length then
      match ty with
      | .tuple ts => if ts.length = l.length then cmpTuple S ts l r else some none
      | _ => some none
    else some none
  | .vec l, .vec r =>
    match ty with
    | .array t => cmpVec S t l r
    | _ => some none
  | .rep lv ls, .rep rv rs =>
    match ty with
    | .array t =>
      match partialCmp S t lv rv with
      | some (some .eq) => some (some (compare ls rs))
      | x => x
    | _ => some none
  | .ref l, .ref r =>
    match ty with
    | .ref t => partialCmp S t l r
    | _ => some none
  | _, _ => some none

/-- The `zip`/`map`/`find` chain of the tuple arm (consts.rs:222-230); iterators are lazy, so the
elements after the first difference are not compared. -/
def cmpTuple (S : Sess) : List Ty → List Constant → List Constant → Option (Option Ordering)
  | t :: ts, l :: ls, r :: rs =>
    match partialCmp S t l r with
    | some (some .eq) => cmpTuple S ts ls rs
    | x => x
  | _, l, r => some (some (compare l.length r.length))

/-- The same for arrays (consts.rs:231-237). -/
def cmpVec (S : Sess) (t : Ty) : List Constant → List Constant → Option (Option Ordering)
  | l :: ls, r :: rs =>
    match partialCmp S t l r with
    | some (some .eq) => cmpVec S t ls rs
    | x => x
  | l, r => some (some (compare l.length r.length))
end

/-- `IntTy::normalize(pointer_width)`; the width after normalisation (16, 32 or 64 bit targets). -/
def IntTy.normBits (S : Sess) (t : IntTy) : Nat := t.targetBits S

/-- `Constant::new_numeric_min` (consts.rs:297-316), integer arms. -/
def newNumericMin (S : Sess) : Ty → Option Constant
  | .uint _ => some (.int 0)
  | .int t => some (.int (U128.toBits (-(2 ^ (t.targetBits S - 1)))))
  | _ => none

/-- `Constant::new_numeric_max` (consts.rs:318-344), integer arms. -/
def newNumericMax (S : Sess) : Ty → Option Constant
  | .uint t => some (.int (2 ^ t.targetBits S - 1))
  | .int t => some (.int (U128.toBits (2 ^ (t.targetBits S - 1) - 1)))
  | _ => none

/-- `Constant::is_numeric_min` (consts.rs:346-365), integer arms: the stored bits are compared
as an `i128` (`x.cast_signed() == limit`). -/
def isNumericMin (S : Sess) : Constant → Ty → Bool
  | .int x, .uint _ => x = 0
  | .int x, .int t => I128.wrap x = -(2 ^ (t.targetBits S - 1))
  | _, _ => false

/-- `Constant::is_numeric_max` (consts.rs:367-396), integer arms. -/
def isNumericMax (S : Sess) : Constant → Ty → Bool
  | .int x, .uint t => x = 2 ^ t.targetBits S - 1
  | .int x, .int t => I128.wrap x = 2 ^ (t.targetBits S - 1) - 1
  | _, _ => false

/-- `ExtremeType` (clippy_lints/src/operators/absurd_extreme_comparisons.rs:49-52). -/
inductive Extreme | minimum | maximum
  deriving DecidableEq, Repr

/-- `detect_extreme_expr` on an evaluated expression
(absurd_extreme_comparisons.rs:121-141). -/
def detectExtreme (S : Sess) (ty : Ty) (c : Constant) : Option Extreme :=
  match ty, c with
  | .bool, .bool false => some .minimum
  | .bool, .bool true => some .maximum
  | .uint t, .int i =>
    if i = 0 then some .minimum
    else if clip S (2 ^ 128 - 1) t = i then some .maximum else none
  | .int t, .int i =>
    if i = unsext S (-(2 ^ 127) / 2 ^ (128 - t.targetBits S)) t then some .minimum
    else if i = unsext S ((2 ^ 127 - 1) / 2 ^ (128 - t.targetBits S)) t then some .maximum
    else none
  | _, _ => none

end Verif.Consts
