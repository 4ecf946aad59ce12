import Verif.Common.RInt
import Verif.Common.Text

/-!
# Expressions, as the lint about arithmetic sees them

Every node has a span, here a number.  Types are given without references, because the lint looks
through them everywhere.
-/

namespace Verif.SideFx

open Verif.RInt

/-- The widths of integers. -/
inductive Width where
  | w8 | w16 | w32 | w64 | w128 | size
  deriving DecidableEq

/-- Integer types. -/
structure ITy where
  signed : Bool
  w : Width
  deriving DecidableEq

/-- The machine clippy runs on and the machine the program is for. -/
structure Platform where
  host : Nat
  target : Nat

/-- The number of bits, given that of `usize`. -/
def Width.bits (size : Nat) : Width → Nat
  | .w8 => 8
  | .w16 => 16
  | .w32 => 32
  | .w64 => 64
  | .w128 => 128
  | .size => size

/-- The type on the machine the program is for. -/
def ITy.it (P : Platform) (t : ITy) : IT := ⟨t.signed, t.w.bits P.target⟩

inductive Ty where
  | int (t : ITy)
  /-- `NonZero<t>`. -/
  | nonZero (t : ITy)
  /-- `Wrapping` and `Saturating`. -/
  | wrapLike
  | f32 | f64
  /-- Another type, with its name before the first `<`. -/
  | adt (name : Str)
  deriving DecidableEq

inductive UnOp where
  | neg | not | deref
  deriving DecidableEq

inductive BinOp where
  | add | sub | mul | div | rem | shl | shr
  /-- Comparisons, `&`, `|`, `^`, `&&`, `||`. -/
  | other (n : Nat)
  deriving DecidableEq

/-- Methods, by their names. -/
inductive Meth where
  | get
  /-- `add`, `add_assign` and so on. -/
  | sugar (asg : Bool) (op : BinOp)
  /-- `saturating_div`, `wrapping_div`, `wrapping_rem`, `wrapping_rem_euclid`. -/
  | divLike (n : Nat)
  | other (n : Nat)
  deriving DecidableEq

mutual

inductive Ex where
  /-- An integer literal. -/
  | lit (sp : Nat) (n : Nat) (t : Ty)
  /-- A variable. -/
  | loc (sp : Nat) (x : Nat) (t : Ty)
  /-- A variable of an immutable `let` with an initializer, which is here as well. -/
  | bound (sp : Nat) (x : Nat) (t : Ty) (init : Ex)
  | un (sp : Nat) (op : UnOp) (t : Ty) (e : Ex)
  /-- `&e` -/
  | ref (sp : Nat) (e : Ex)
  /-- `T::from(e)` (`isFrom`) or `e as T`. -/
  | conv (sp : Nat) (isFrom : Bool) (t : Ty) (e : Ex)
  /-- `a op b` or `a op= b`. -/
  | bin (sp : Nat) (asg : Bool) (op : BinOp) (t : Ty) (a b : Ex)
  | method (sp : Nat) (m : Meth) (t : Ty) (r : Ex) (args : Exs)
  /-- Any other expression: control flow, calls, constants, structs. -/
  | node (sp : Nat) (t : Ty) (es : Exs)
  /-- The body of a constant or static inside of another body, or of a `const` block. -/
  | constItem (sp : Nat) (t : Ty) (e : Ex)
  /-- The body of a closure or function inside of another body. -/
  | fnItem (sp : Nat) (t : Ty) (e : Ex)

inductive Exs where
  | nil
  | cons (e : Ex) (es : Exs)

end

/-- The type, without references. -/
def Ex.ty : Ex → Ty
  | .lit _ _ t => t
  | .loc _ _ t => t
  | .bound _ _ t _ => t
  | .un _ _ t _ => t
  | .ref _ e => e.ty
  | .conv _ _ t _ => t
  | .bin _ _ _ t _ _ => t
  | .method _ _ t _ _ => t
  | .node _ t _ => t
  | .constItem _ t _ => t
  | .fnItem _ t _ => t

def Ex.span : Ex → Nat
  | .lit sp _ _ => sp
  | .loc sp _ _ => sp
  | .bound sp _ _ _ => sp
  | .un sp _ _ _ => sp
  | .ref sp _ => sp
  | .conv sp _ _ _ => sp
  | .bin sp _ _ _ _ _ => sp
  | .method sp _ _ _ _ => sp
  | .node sp _ _ => sp
  | .constItem sp _ _ => sp
  | .fnItem sp _ _ => sp

/-- The names of integer types. -/
def ITy.name (t : ITy) : Str :=
  match t.signed, t.w with
  | true, .w8 => str!"i8"
  | true, .w16 => str!"i16"
  | true, .w32 => str!"i32"
  | true, .w64 => str!"i64"
  | true, .w128 => str!"i128"
  | true, .size => str!"isize"
  | false, .w8 => str!"u8"
  | false, .w16 => str!"u16"
  | false, .w32 => str!"u32"
  | false, .w64 => str!"u64"
  | false, .w128 => str!"u128"
  | false, .size => str!"usize"

/-- `ty.to_string().split('<').next()`.  `Wrapping` stands for `Saturating` as well; both are
treated alike. -/
def Ty.name : Ty → Str
  | .int t => t.name
  | .nonZero _ => str!"std::num::NonZero"
  | .wrapLike => str!"std::num::Wrapping"
  | .f32 => str!"f32"
  | .f64 => str!"f64"
  | .adt n => n

/-- The three options, `/repo/clippy_lints/src/operators/arithmetic_side_effects.rs:32-49`. -/
structure Conf where
  unary : List Str
  binary : List (Str × Str)
  allowed : List Str

end Verif.SideFx
