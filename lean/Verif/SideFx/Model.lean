import Verif.SideFx.Syntax

/-!
# Model: `arithmetic_side_effects`

`/repo/clippy_lints/src/operators/arithmetic_side_effects.rs`.  Code from procedural macros and
places where the lint is allowed are left out.
-/

namespace Verif.SideFx

/-- The set of types for unary operators,
`/repo/clippy_lints/src/operators/arithmetic_side_effects.rs:32-33` and `:48`. -/
def Conf.allowedUnary (c : Conf) : List Str :=
  [str!"f32", str!"f64", str!"std::num::Saturating", str!"std::num::Wrapping"] ++ c.unary ++ c.allowed

/-- The pairs of types for binary operators,
`/repo/clippy_lints/src/operators/arithmetic_side_effects.rs:34-47`. -/
def Conf.allowedBinary (c : Conf) : List (Str × Str) :=
  [(str!"f32", str!"f32"), (str!"f64", str!"f64"), (str!"std::string::String", str!"str"),
    (str!"std::string::String", str!"std::string::String")] ++ c.binary ++
    c.allowed.map (fun s => (s, str!"*")) ++ c.allowed.map (fun s => (str!"*", s))

/-- `has_allowed_binary`, `/repo/clippy_lints/src/operators/arithmetic_side_effects.rs:69-86`. -/
def Conf.hasBinary (c : Conf) (l r : Ty) : Bool :=
  c.allowedBinary.contains (l.name, r.name) || c.allowedBinary.contains (l.name, str!"*") ||
    c.allowedBinary.contains (str!"*", r.name)

/-- `has_allowed_unary`, `/repo/clippy_lints/src/operators/arithmetic_side_effects.rs:90-94`. -/
def Conf.hasUnary (c : Conf) (t : Ty) : Bool := c.allowedUnary.contains t.name

/-- `peel_hir_expr_unary`, `/repo/clippy_utils/src/lib.rs:2265-2273`. -/
def peelUnary : Ex → Ex
  | .un _ _ _ e => peelUnary e
  | e => e

/-- `peel_hir_expr_refs`, `/repo/clippy_utils/src/lib.rs:2277-2287`. -/
def peelRefs : Ex → Ex × Nat
  | .ref _ e => ((peelRefs e).1, (peelRefs e).2 + 1)
  | e => (e, 0)

/-- `expr_or_init`, `/repo/clippy_utils/src/lib.rs:170-179`. -/
def exprOrInit : Ex → Ex
  | .bound _ _ _ e => exprOrInit e
  | e => e

/-- The operand that is looked at, `/repo/clippy_lints/src/operators/arithmetic_side_effects.rs:153-156`. -/
def actual (e : Ex) : Ex := exprOrInit (peelRefs e).1

/-- `find_original_primitive_ty`, `/repo/clippy_lints/src/operators/arithmetic_side_effects.rs:332-340`. -/
def originalTy : Ex → Option Ty
  | .conv _ _ _ e => some e.ty
  | _ => none

/-- `max_int_num`, `/repo/clippy_lints/src/operators/arithmetic_side_effects.rs:435-445`; `usize` is
that of the machine clippy runs on. -/
def maxInt (P : Platform) : Ty → Option Nat
  | .int t => if t.signed then none else some (2 ^ t.w.bits P.host - 1)
  | _ => none

/-- `is_integer`, `/repo/clippy_lints/src/operators/arithmetic_side_effects.rs:366-368`. -/
def isInteger : Ty → Bool
  | .int _ => true
  | _ => false

/-- `is_non_zero_u`, `/repo/clippy_lints/src/operators/arithmetic_side_effects.rs:370-380`. -/
def isNonZeroU : Ty → Bool
  | .nonZero t => !t.signed
  | _ => false

def isDivRem (op : BinOp) : Bool := op == .div || op == .rem

/-- `has_specific_allowed_type_and_operation`,
`/repo/clippy_lints/src/operators/arithmetic_side_effects.rs:343-363`. -/
def specific (l : Ty) (op : BinOp) (r : Ty) : Bool :=
  if isNonZeroU r && isDivRem op then true
  else if l == .wrapLike then !isDivRem op
  else false

/-- `checked_add` and `checked_mul` of `u128`,
`/repo/clippy_lints/src/operators/arithmetic_side_effects.rs:401-407`. -/
def combine (op : BinOp) (a b : Nat) : Option Nat :=
  match op with
  | .add => if a + b < 2 ^ 128 then some (a + b) else none
  | .mul => if a * b < 2 ^ 128 then some (a * b) else none
  | _ => none

/-- The last `match`, `/repo/clippy_lints/src/operators/arithmetic_side_effects.rs:408-415`. -/
def fits (P : Platform) (n : Nat) : Ty → Bool
  | .int ⟨false, .w16⟩ => n < 2 ^ 16
  | .int ⟨false, .w32⟩ => n < 2 ^ 32
  | .int ⟨false, .w64⟩ => n < 2 ^ 64
  | .int ⟨false, .w128⟩ => true
  | .int ⟨false, .size⟩ => n < 2 ^ P.host
  | _ => false

def isShift (op : BinOp) : Bool := op == .shl || op == .shr

def isArith : BinOp → Bool
  | .other _ => false
  | _ => true

/-- `NonZeroU*.get()`, `/repo/clippy_lints/src/operators/arithmetic_side_effects.rs:159-163`. -/
def isNonZeroGet : Ex → Bool
  | .method _ .get _ r .nil => isNonZeroU r.ty
  | _ => false

section
variable (P : Platform) (conf : Conf) (const? : Ex → Option Nat) (local? : Ex → Bool)

/-- `literal_integer`, `/repo/clippy_lints/src/operators/arithmetic_side_effects.rs:422-433`; `const?`
is the constant evaluator, which gives bit patterns. -/
def literalInteger (e : Ex) : Option Nat :=
  match peelUnary e with
  | .lit _ n _ => some n
  | _ => const? e

/-- `is_safe_due_to_smaller_source_type`,
`/repo/clippy_lints/src/operators/arithmetic_side_effects.rs:386-416`. -/
def smaller (op : BinOp) (e0 : Ex) (t0 : Ty) (e1 : Ex) : Bool :=
  match literalInteger const? e0, (originalTy e1).bind (maxInt P) with
  | some n0, some n1 => (combine op n0 n1).any fun r => fits P r t0
  | _, _ => false

/-- The `match` on the literals, `/repo/clippy_lints/src/operators/arithmetic_side_effects.rs:183-207`:
is the operation let through? -/
def literalsOk (op : BinOp) (l r : Option Nat) (refs : Bool) : Bool :=
  match l, r with
  | none, some n =>
    (isDivRem op && n != 0) || ((op == .add || op == .sub) && n == 0) ||
      (op == .mul && (n == 0 || n == 1))
  | some n, none => ((op == .add || op == .sub) && n == 0) || (op == .mul && (n == 0 || n == 1))
  | some _, some _ => !refs
  | none, none => false

/-- The tests on integers, `/repo/clippy_lints/src/operators/arithmetic_side_effects.rs:178-208`. -/
def intsOk (op : BinOp) (a b : Ex) : Bool :=
  isInteger (actual a).ty && isInteger (actual b).ty &&
    (isShift op || literalsOk op (literalInteger const? (actual a)) (literalInteger const? (actual b))
      ((peelRefs a).2 != 0 || (peelRefs b).2 != 0))

/-- `manage_bin_ops`, `/repo/clippy_lints/src/operators/arithmetic_side_effects.rs:130-210`: is the
operation reported?  `local?` says that the constant evaluator finds a value without other items. -/
def manageBin (e : Ex) (op : BinOp) (a b : Ex) : Bool :=
  if local? e then false
  else if !isArith op then false
  else if op == .sub && isNonZeroGet (actual a) && literalInteger const? (actual b) == some 1 then false
  else if conf.hasBinary (actual a).ty (actual b).ty || specific (actual a).ty op (actual b).ty ||
      smaller P const? op (actual a) (actual a).ty (actual b) ||
      smaller P const? op (actual b) (actual b).ty (actual a) then false
  else if intsOk const? op a b then false
  else true

/-- `manage_unary_ops`, `/repo/clippy_lints/src/operators/arithmetic_side_effects.rs:243-265`. -/
def manageNeg (t : Ty) (e : Ex) : Bool :=
  if (const? e).isSome then false
  else if conf.hasUnary t then false
  else if (literalInteger const? (peelRefs e).1).isSome then false
  else true

/-- `manage_sugar_methods`, `/repo/clippy_lints/src/operators/arithmetic_side_effects.rs:107-126`:
the operators that have a method. -/
def sugarOp : BinOp → Bool
  | .add => true
  | .div => true
  | .mul => true
  | .rem => true
  | .sub => true
  | _ => false

/-- `manage_method_call`, `/repo/clippy_lints/src/operators/arithmetic_side_effects.rs:214-241`, where
there is an argument: the span of the report. -/
def manageMethod (e : Ex) (sp : Nat) (m : Meth) (r arg : Ex) : Option Nat :=
  if local? r then none
  else if !isInteger r.ty then none
  else match m with
  | .sugar _ op => if sugarOp op && manageBin P conf const? local? e op r arg then some sp else none
  | .divLike _ =>
    match literalInteger const? (peelRefs arg).1 with
    | none => some arg.span
    | some n => if n = 0 then some arg.span else none
  | _ => none

/-- The `match` in `check_expr`, `/repo/clippy_lints/src/operators/arithmetic_side_effects.rs:279-293`. -/
def check : Ex → Option Nat
  | .bin sp asg op t a b =>
    if manageBin P conf const? local? (.bin sp asg op t a b) op a b then some sp else none
  | .un sp .neg t e => if manageNeg conf const? t e then some sp else none
  | .method sp m t r (.cons arg es) =>
    manageMethod P conf const? local? (.method sp m t r (.cons arg es)) sp m r arg
  | _ => none

/-- What has been reported, and `expr_span`. -/
abbrev Out := List Nat × Option Nat

/-- `check_expr` with `should_skip_expr`,
`/repo/clippy_lints/src/operators/arithmetic_side_effects.rs:267-278`; `inConst`: the expression is
inside of `const_span`. -/
def enter (inConst : Bool) (o : Out) (e : Ex) : Out :=
  if inConst || o.2.isSome then o
  else match check P conf const? local? e with
  | some s => (o.1 ++ [s], some s)
  | none => o

/-- `check_expr_post`, `/repo/clippy_lints/src/operators/arithmetic_side_effects.rs:323-327`. -/
def leave (sp : Nat) (o : Out) : Out := if o.2 = some sp then (o.1, none) else o

mutual

/-- The walk over a body.  The body of a constant sets `const_span`,
`/repo/clippy_lints/src/operators/arithmetic_side_effects.rs:296-321`, and everything inside of it
is skipped. -/
def visit (c : Bool) (o : Out) : Ex → Out
  | .lit sp n t => leave sp (enter P conf const? local? c o (.lit sp n t))
  | .loc sp x t => leave sp (enter P conf const? local? c o (.loc sp x t))
  | .bound sp x t i => leave sp (enter P conf const? local? c o (.bound sp x t i))
  | .un sp op t e => leave sp (visit c (enter P conf const? local? c o (.un sp op t e)) e)
  | .ref sp e => leave sp (visit c (enter P conf const? local? c o (.ref sp e)) e)
  | .conv sp f t e => leave sp (visit c (enter P conf const? local? c o (.conv sp f t e)) e)
  | .bin sp asg op t a b =>
    if asg then leave sp (visit c (visit c (enter P conf const? local? c o (.bin sp asg op t a b)) b) a)
    else leave sp (visit c (visit c (enter P conf const? local? c o (.bin sp asg op t a b)) a) b)
  | .method sp m t r args =>
    leave sp (visitL c (visit c (enter P conf const? local? c o (.method sp m t r args)) r) args)
  | .node sp t es => leave sp (visitL c (enter P conf const? local? c o (.node sp t es)) es)
  | .constItem sp t e => leave sp (visit true (enter P conf const? local? c o (.constItem sp t e)) e)
  | .fnItem sp t e => leave sp (visit c (enter P conf const? local? c o (.fnItem sp t e)) e)

def visitL (c : Bool) (o : Out) : Exs → Out
  | .nil => o
  | .cons e es => visitL c (visit c o e) es

end

/-- The spans reported in a body. -/
def reports (body : Ex) : List Nat := (visit P conf const? local? false ([], none) body).1

end

end Verif.SideFx
