import Verif.Common.RInt
import Verif.Common.Text

/-!
# Eager or lazy evaluation

Model of `/repo/clippy_utils/src/eager_or_lazy.rs`.
-/

namespace Verif.Eager

open Verif.RInt (IT)

/-- `EagernessSuggestion`, eager_or_lazy.rs:26-37. -/
inductive Eag
  | eager
  | noChange
  | lazy
  | force
deriving DecidableEq, Repr

/-- The derived order, eager_or_lazy.rs:26. -/
def Eag.rank : Eag → Nat
  | .eager => 0
  | .noChange => 1
  | .lazy => 2
  | .force => 3

/-- `BitOr`, eager_or_lazy.rs:38-43. -/
def Eag.or (a b : Eag) : Eag := if a.rank ≤ b.rank then b else a

/-- What is known about the called function. `inherent` is `impl_of_assoc` being present, `stdCrate` the crate being one
of `std`, `core`, `alloc` and `proc_macro`; `adtGeneric` and `boolSig` are the two conditions at eager_or_lazy.rs:74-84
and :94; `promotable` is `is_promotable_const_fn`; `isUnsafe` is not looked at by the code. -/
structure FnInfo where
  inherent : Bool
  name : Str
  stdCrate : Bool
  adtGeneric : Bool
  boolSig : Bool
  promotable : Bool
  isUnsafe : Bool
deriving DecidableEq, Repr

/-- `fn_eagerness`, eager_or_lazy.rs:51-103. -/
def fnEagerness (f : FnInfo) (haveArg : Bool) : Eag :=
  if !f.inherent then .lazy
  else if (f.name == str!"is_empty" || f.name == str!"len" || (str!"as_").isPrefixOf f.name) && haveArg then
    if f.stdCrate then .eager else .noChange
  else if f.adtGeneric && f.boolSig then .noChange
  else .lazy

/-- The type of an operand. -/
inductive OpTy
  | int (t : IT)
  | float
  | bool
  | char
  | other
deriving DecidableEq, Repr

/-- `is_primitive`. -/
def OpTy.prim : OpTy → Bool
  | .other => false
  | _ => true

/-- Binary operators; `bit` is `&`, `|` and `^`, `cmp` the comparisons, `logic` is `&&` and `||`. -/
inductive BOp
  | add | sub | mul | div | rem | shl | shr | bit | cmp | logic
deriving DecidableEq, Repr

/-- The kinds of expressions, with the facts about types the code asks for.

* `autoderef` is an expression with an overloaded dereference among its adjustments; its argument is the expression
  without the adjustment.
* `ctor` is a call of a constructor, `call` of another function named by a path (`constEval` is `is_const_evaluatable`
  of the whole call), `callOther` of anything else. The path of the callee is not among the arguments.
* `path` is a path; `unsafeRead` says that it is a `static mut`. `field` has the same flag for fields of unions. The
  code looks at neither.
* `index` has the flag whether the index is `Copy` and not a reference.
* `pure` stands for literals, constant blocks, arrays, tuples, casts, type ascriptions, `let` conditions, `if`, `match`,
  borrows, array repetitions, blocks without statements, `offset_of!`; closures are `pure` without arguments, as their
  bodies are not visited.
* `jump` is `break`, `continue`, `return`, `become`, `yield` and inline assembly. -/
inductive Kind
  | autoderef
  | ctor (drop : Bool)
  | call (f : FnInfo) (constEval : Bool)
  | callOther
  | method (f : FnInfo) (constEval : Bool)
  | struct (drop : Bool)
  | path (drop unsafeRead : Bool)
  | index (copyIdx : Bool)
  | neg (t : OpTy)
  | not (t : OpTy)
  | derefRef
  | derefRaw
  | derefCustom
  | bin (op : BOp) (l r : OpTy)
  | jump
  | loop
  | pure
  | field (unsafeRead : Bool)
  | assign
  | stmts
deriving DecidableEq, Repr

/-- An expression and its direct parts. -/
inductive EExpr
  | node (k : Kind) (args : List EExpr)
deriving Repr

/-- The constants `ConstEvalCtxt::eval` returns: integers and others. -/
inductive Cst
  | int (v : Int)
  | other
deriving DecidableEq, Repr

/-- `c.int_value(..)`. -/
def Cst.int? : Cst → Option Int
  | .int v => some v
  | .other => none

/-- `eval` of the `i`-th part. -/
def evalArg (eval : EExpr → Option Cst) (args : List EExpr) (i : Nat) : Option Cst := args[i]?.bind eval

/-- What the arms of the big `match` do about a binary operator, eager_or_lazy.rs:228-268 and :283-285. -/
def binStep (op : BOp) (l r : OpTy) (left right : Option Cst) (s : Eag) : Eag :=
  if (op = .shl ∨ op = .shr) ∧ right = none then s.or .noChange
  else if (op = .div ∨ op = .rem) ∧
      (right.bind Cst.int? = none ∨ (left = none ∧ right.bind Cst.int? = some (-1))) then s.or .noChange
  else if (op = .add ∨ op = .sub ∨ op = .mul) ∧ l ≠ .float ∧ (left = none ∨ right = none) then s.or .noChange
  else if l.prim ∧ r.prim then s
  else .lazy

/-- The `match` on the kind of the expression, eager_or_lazy.rs:143-310: the new state, and whether the parts are visited
(`true`) or the function returns (`false`). -/
def step (eval : EExpr → Option Cst) (k : Kind) (args : List EExpr) (s : Eag) : Eag × Bool :=
  match k with
  | .autoderef => (s.or .noChange, false)
  | .ctor drop | .struct drop | .path drop _ => if drop then (.force, false) else (s, true)
  | .call f constEval =>
    if f.promotable then (s, true)
    else if constEval then (s.or .noChange, false)
    else (s.or (fnEagerness f (!args.isEmpty)), true)
  | .callOther => (.lazy, true)
  | .method f constEval =>
    if constEval then (s.or .noChange, false) else (s.or (fnEagerness f true), true)
  | .index copyIdx => (if copyIdx then s.or .noChange else .lazy, true)
  | .neg t =>
    (if evalArg eval args 0 = none then s.or .noChange
     else match t with
      | .bool | .int _ => s
      | _ => .lazy, true)
  | .not t => (match t with
      | .bool | .int _ => s
      | _ => .lazy, true)
  | .derefRef => (s, true)
  | .derefRaw | .derefCustom => (s.or .noChange, true)
  | .bin op l r => (binStep op l r (evalArg eval args 0) (evalArg eval args 1) s, true)
  | .jump => (.force, false)
  | .loop => (.lazy, true)
  | .pure | .field _ => (s, true)
  | .assign | .stmts => (s.or .noChange, true)

mutual
/-- `visit_expr`, eager_or_lazy.rs:124-312. -/
def visit (eval : EExpr → Option Cst) : Eag → EExpr → Eag
  | s, .node k args =>
    if s = .force then s
    else if (step eval k args s).2 then visitAll eval (step eval k args s).1 args else (step eval k args s).1

/-- `walk_expr`: the parts in order. -/
def visitAll (eval : EExpr → Option Cst) : Eag → List EExpr → Eag
  | s, [] => s
  | s, e :: es => visitAll eval (visit eval s e) es
end

/-- `expr_eagerness`, eager_or_lazy.rs:117-321. -/
def eagerness (eval : EExpr → Option Cst) (e : EExpr) : Eag := visit eval .eager e

/-- `switch_to_eager_eval`, eager_or_lazy.rs:324-326. -/
def switchToEager (eval : EExpr → Option Cst) (e : EExpr) : Bool := eagerness eval e = .eager

/-- `switch_to_lazy_eval`, eager_or_lazy.rs:329-331. -/
def switchToLazy (eval : EExpr → Option Cst) (e : EExpr) : Bool := eagerness eval e = .lazy

end Verif.Eager
