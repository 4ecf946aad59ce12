import Verif.Flow.EagerModel

/-!
# What the evaluation of an expression can do

Specification for C41, independent of the classification.
-/

namespace Verif.Eager

open Verif.RInt (IT)

/-- What can happen besides computing a value. -/
inductive Effect
  | panic
  | sideEffect
  | diverge
  | jump
  /-- undefined behaviour, if evaluated where the program would not -/
  | ub
deriving DecidableEq, Repr

/-- One of the methods named `is_empty`, `len` or `as_...` of the types of the standard library. -/
def FnInfo.stdAccessor (f : FnInfo) : Bool :=
  f.inherent && f.stdCrate && (f.name == str!"is_empty" || f.name == str!"len" || (str!"as_").isPrefixOf f.name)

/-- A program: the constant evaluator, the integer values each expression can have at run time and the effects each
function can have. The assumptions are that the constant evaluator is right and that promotable constant functions and
the safe accessors of the standard library are harmless. -/
structure World where
  eval : EExpr → Option Cst
  vals : EExpr → Int → Prop
  fx : FnInfo → Effect → Prop
  evalRight : ∀ e c v, eval e = some c → vals e v → c = .int v
  promotableHarmless : ∀ f eff, f.promotable = true → ¬ fx f eff
  accessorHarmless : ∀ f eff, f.stdAccessor = true → f.isUnsafe = false → ¬ fx f eff

/-- `op` panics for these operands of type `t`. -/
def BOp.panics (op : BOp) (t : IT) (x y : Int) : Prop :=
  match op with
  | .add => ¬ t.In (x + y)
  | .sub => ¬ t.In (x - y)
  | .mul => ¬ t.In (x * y)
  | .div | .rem => y = 0 ∨ (x = t.min ∧ y = -1)
  | .shl | .shr => y < 0 ∨ t.bits ≤ y
  | .bit | .cmp | .logic => False

/-- What the operation at the root of the expression can do by itself. -/
def Local (w : World) (k : Kind) (args : List EExpr) (eff : Effect) : Prop :=
  match k with
  | .autoderef | .derefCustom | .callOther => True
  | .index _ => True
  | .ctor _ | .struct _ | .pure | .stmts | .derefRef => False
  | .path _ u | .field u => u = true ∧ eff = .ub
  | .call f _ | .method f _ => w.fx f eff
  | .neg t => match t with
    | .int t => eff = .panic ∧ ∃ a v, args[0]? = some a ∧ w.vals a v ∧ ¬ t.In (-v)
    | .other => True
    | _ => False
  | .not t => t = .other
  | .derefRaw => eff = .ub
  | .bin op l r => match l, r with
    | .int t, .int _ => eff = .panic ∧
        ∃ a b x y, args[0]? = some a ∧ args[1]? = some b ∧ w.vals a x ∧ w.vals b y ∧ op.panics t x y
    | _, _ => l.prim = false ∨ r.prim = false
  | .jump => eff = .jump
  | .loop => eff = .diverge
  | .assign => eff = .sideEffect

/-- The evaluation of the expression can have the effect: its own operation can, or that of a part. -/
inductive Can (w : World) : EExpr → Effect → Prop
  | here {k args eff} : Local w k args eff → Can w (.node k args) eff
  | part {k args e eff} : e ∈ args → Can w e eff → Can w (.node k args) eff

/-- The compiler rejects the operation because it panics for constant operands. -/
def LocalRejected (w : World) (k : Kind) (args : List EExpr) : Prop :=
  match k with
  | .neg (.int t) => ∃ a v, args[0]? = some a ∧ w.eval a = some (.int v) ∧ ¬ t.In (-v)
  | .bin op (.int t) (.int _) => ∃ b y, args[1]? = some b ∧ w.eval b = some (.int y) ∧
      ((∀ x, t.In x → op.panics t x y) ∨ ∃ a x, args[0]? = some a ∧ w.eval a = some (.int x) ∧ op.panics t x y)
  | _ => False

/-- The subexpressions of an expression. -/
inductive Sub : EExpr → EExpr → Prop
  | refl {e} : Sub e e
  | part {p e k args} : e ∈ args → Sub p e → Sub p (.node k args)

/-- The compiler rejects an operation somewhere in the expression. -/
def Rejected (w : World) (e : EExpr) : Prop := ∃ k args, Sub (.node k args) e ∧ LocalRejected w k args

/-- No read of a union field or a `static mut` and no call of an unsafe accessor of the standard library. -/
def Kind.safeRead : Kind → Bool
  | .path _ u | .field u => !u
  | .call f _ | .method f _ => !(f.stdAccessor && f.isUnsafe)
  | _ => true

/-- The same for all subexpressions. -/
def SafeReads (e : EExpr) : Prop := ∀ k args, Sub (.node k args) e → k.safeRead = true

/-- The expression contains a jump out of it, so it cannot be moved into a closure. -/
def HasJump (e : EExpr) : Prop := ∃ args, Sub (.node .jump args) e

/-- The parts of such an expression are not looked at: it is automatically dereferenced, or a call that can be evaluated at
compile time. -/
def Kind.opaque : Kind → Bool
  | .autoderef => true
  | .call f c => !f.promotable && c
  | .method _ c => c
  | _ => false

end Verif.Eager
