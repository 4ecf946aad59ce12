import Verif.Consts.Model

/-
Specification for constant evaluation: Rust's type rules and run-time semantics for the modelled
expressions, written from the Rust reference on top of `Verif.RInt`, and what it means for one of
clippy's constants to stand for a run-time value.
-/

namespace Verif.Consts
open Verif.RInt

/-- Run-time values. -/
inductive Val | int (v : Int) | bool (b : Bool)
  deriving DecidableEq, Repr

/-- Why an evaluation does not give a value: a panic, or (never for well-typed programs) a type
error. -/
inductive Stop | panic (p : Panic) | stuck
  deriving DecidableEq, Repr

/-- The integer type a type is on the target. -/
def Ty.it (S : Sess) : Ty → Option IT
  | .int t => some ⟨true, t.targetBits S⟩
  | .uint t => some ⟨false, t.targetBits S⟩
  | _ => none

def lift (r : Res) : Except Stop Val :=
  match r with
  | .ok v => .ok (.int v)
  | .error p => .error (.panic p)

/-- Operators on two integers; `t` is the type of the left operand. -/
def runInt (op : BinOp) (t : IT) (a b : Int) : Except Stop Val :=
  match op with
  | .add => lift (t.add a b)
  | .sub => lift (t.sub a b)
  | .mul => lift (t.mul a b)
  | .div => lift (t.div a b)
  | .rem => lift (t.rem a b)
  | .shl => lift (t.shl a b)
  | .shr => lift (t.shr a b)
  | .bitXor => .ok (.int (t.xor a b))
  | .bitAnd => .ok (.int (t.and a b))
  | .bitOr => .ok (.int (t.or a b))
  | .eq => .ok (.bool (a = b))
  | .ne => .ok (.bool (a ≠ b))
  | .lt => .ok (.bool (a < b))
  | .le => .ok (.bool (a ≤ b))
  | .ge => .ok (.bool (a ≥ b))
  | .gt => .ok (.bool (a > b))
  | .and | .or => .error .stuck

/-- Strict operators on two booleans (`false < true`). -/
def runBool (op : BinOp) (a b : Bool) : Except Stop Val :=
  match op with
  | .bitXor => .ok (.bool (a ^^ b))
  | .bitAnd => .ok (.bool (a && b))
  | .bitOr => .ok (.bool (a || b))
  | .eq => .ok (.bool (a = b))
  | .ne => .ok (.bool (a ≠ b))
  | .lt => .ok (.bool (!a && b))
  | .le => .ok (.bool (!a || b))
  | .ge => .ok (.bool (a || !b))
  | .gt => .ok (.bool (a && !b))
  | _ => .error .stuck

def runStrict (S : Sess) (op : BinOp) (ty : Ty) : Val → Val → Except Stop Val
  | .int a, .int b =>
    match ty.it S with
    | some t => runInt op t a b
    | none => .error .stuck
  | .bool a, .bool b => runBool op a b
  | _, _ => .error .stuck

def runNot (S : Sess) (ty : Ty) : Val → Except Stop Val
  | .int a => match ty.it S with
    | some t => .ok (.int (t.not a))
    | none => .error .stuck
  | .bool b => .ok (.bool (!b))

def runNeg (S : Sess) (ty : Ty) : Val → Except Stop Val
  | .int a => match ty.it S with
    | some t => lift (t.neg a)
    | none => .error .stuck
  | .bool _ => .error .stuck

/-- Run-time evaluation: left to right, `&&` and `||` short-circuit, overflow checks on. -/
def run (S : Sess) (env : String → Val) : Expr → Except Stop Val
  | .lit n _ => .ok (.int n)
  | .negLit n _ => .ok (.int (-n))
  | .boolLit b => .ok (.bool b)
  | .path x _ => .ok (env x)
  | .not e => (run S env e).bind (runNot S e.ty)
  | .neg e => (run S env e).bind (runNeg S e.ty)
  | .bin .and l r => (run S env l).bind fun
    | .bool false => .ok (.bool false)
    | .bool true => run S env r
    | _ => .error .stuck
  | .bin .or l r => (run S env l).bind fun
    | .bool true => .ok (.bool true)
    | .bool false => run S env r
    | _ => .error .stuck
  | .bin op l r => (run S env l).bind fun a => (run S env r).bind fun b => runStrict S op l.ty a b
  | .ite c t e => (run S env c).bind fun
    | .bool true => run S env t
    | .bool false => run S env e
    | _ => .error .stuck
  | .block e => run S env e

/-- The constant `c` of type `ty` stands for the value `v`: integers are kept as their bit pattern,
padded with zeros to 128 bits. -/
def Rep (S : Sess) (ty : Ty) (c : Constant) (v : Val) : Prop :=
  match c, v with
  | .int n, .int x => ∃ t, ty.it S = some t ∧ t.In x ∧ n = t.toBits x
  | .bool b, .bool b' => ty = .bool ∧ b = b'
  | _, _ => False

/-- The value belongs to the type. -/
def HasTy (S : Sess) (ty : Ty) : Val → Prop
  | .int x => ∃ t, ty.it S = some t ∧ t.In x
  | .bool _ => ty = .bool

def BinOp.isShift : BinOp → Bool
  | .shl | .shr => true
  | _ => false

def BinOp.isArith : BinOp → Bool
  | .add | .sub | .mul | .div | .rem => true
  | _ => false

/-- Rust's typing rules for the operator `op` on operands of types `l` and `r`. -/
def BinOp.Typed (S : Sess) (op : BinOp) (l r : Ty) : Prop :=
  if op.isShift then (l.it S).isSome ∧ (r.it S).isSome
  else if op.isArith then l = r ∧ (l.it S).isSome
  else match op with
    | .and | .or => l = .bool ∧ r = .bool
    | _ => l = r ∧ ((l.it S).isSome ∨ l = .bool)

/-- The expression is well typed (literals are in the range of their type), and the compiler's value for each path agrees with the value it
has at run time. -/
def WT (S : Sess) (consts : String → Option Constant) (env : String → Val) : Expr → Prop
  | .lit n ty => ∃ t, ty.it S = some t ∧ t.In n
  | .negLit n ty => ∃ t, ty.it S = some t ∧ t.signed = true ∧ t.In (-n)
  | .boolLit _ => True
  | .path x ty => HasTy S ty (env x) ∧ ∀ c, consts x = some c → Rep S ty c (env x)
  | .not e => WT S consts env e ∧ ((e.ty.it S).isSome ∨ e.ty = .bool)
  | .neg e => WT S consts env e ∧ (e.ty.it S).isSome
  | .bin op l r => WT S consts env l ∧ WT S consts env r ∧ op.Typed S l.ty r.ty
  | .ite c t e => WT S consts env c ∧ WT S consts env t ∧ WT S consts env e ∧ c.ty = .bool ∧ t.ty = e.ty
  | .block e => WT S consts env e

/-- The machine clippy runs on has the pointer width of the target, which is one Rust supports. -/
def Sess.Native (S : Sess) : Prop := S.host = S.target ∧ (S.target = 16 ∨ S.target = 32 ∨ S.target = 64)

end Verif.Consts
