import Verif.Lazily.Syntax

/-!
# Model: is an expression cheap?

`/repo/clippy_utils/src/eager_or_lazy.rs`.
-/

namespace Verif.Lazily

/-- `EagernessSuggestion`, `/repo/clippy_utils/src/eager_or_lazy.rs:26-37`, in order. -/
inductive Eag where
  | eager | noChange | lazy | force
  deriving DecidableEq

/-- The order of the constants. -/
def Eag.rank : Eag → Nat
  | .eager => 0
  | .noChange => 1
  | .lazy => 2
  | .force => 3

/-- `|`, `/repo/clippy_utils/src/eager_or_lazy.rs:38-48`: the greater one. -/
def Eag.join (a b : Eag) : Eag := if a.rank ≤ b.rank then b else a

/-- `fn_eagerness`, `/repo/clippy_utils/src/eager_or_lazy.rs:50-103`; `oneArg` says that there is an
argument. -/
def fnEagerness (i : FnInfo) (oneArg : Bool) : Eag :=
  if !i.inImpl then .lazy
  else if i.accessor && oneArg then (if i.std then .eager else .noChange)
  else if i.cheapTest then .noChange
  else .lazy

/-- `is_primitive`. -/
def isPrimitive : Ty → Bool
  | .adt => false
  | _ => true

def Exs.isNil : Exs → Bool
  | .nil => true
  | _ => false

mutual

/-- `is_const_evaluatable`, `/repo/clippy_utils/src/visitors.rs:402-414`, with its helper,
`/repo/clippy_utils/src/visitors.rs:325-400`. -/
def constEval : Ex → Bool
  | .plain _ es => constEvalL es
  | .closure _ => false
  | .union _ e => constEval e
  | .path r _ _ => r == .const || r == .ctor
  | .ctor _ _ es => constEvalL es
  | .promo _ es => constEvalL es
  | .call _ i es => i.constFn && constEvalL es
  | .callVal _ _ => false
  | .method _ i e es => i.constFn && constEval e && constEvalL es
  | .index slice _ a i => slice && constEval a && constEval i
  | .neg t e => isPrimitive t && constEval e
  | .not t e => isPrimitive t && constEval e
  | .deref d e => d == .raw && constEval e
  | .bin _ ta tb _ a b => isPrimitive ta && isPrimitive tb && constEval a && constEval b
  | .leave _ _ => false
  | .lp _ => false
  | .branch _ c a rest => constEval c && constEval a && constEvalL rest
  | .block e => constEval e
  | .stmts es e => constEvalL es && constEval e
  | .assign _ _ => false
  | .adj e => constEval e

def constEvalL : Exs → Bool
  | .nil => true
  | .cons e es => constEval e && constEvalL es

end

section
variable (const? : Ex → Option V)

/-- `int_value`. -/
def intValue : V → Option Int
  | .num n => some n
  | .obj _ => none

/-- The divisor is not known, or it is `-1` and the dividend is not known. -/
def divUnknown : Option V → Option Int → Bool
  | _, none => true
  | none, some c => c == -1
  | some _, some _ => false

/-- What an operator contributes, `/repo/clippy_utils/src/eager_or_lazy.rs:228-268`. -/
def binEag (op : BinOp) (ta tb t : Ty) (a b : Ex) : Option Eag :=
  if (op == .shl || op == .shr) && (const? b).isNone then some .noChange
  else if (op == .div || op == .rem) && divUnknown (const? a) ((const? b).bind intValue) then some .noChange
  else if (op == .add || op == .sub || op == .mul) && !(t == .float) &&
      ((const? a).isNone || (const? b).isNone) then some .noChange
  else if isPrimitive ta && isPrimitive tb then none
  else some .lazy

/-- Is this one of the types for which `!` and a constant's `-` are cheap? -/
def intOrBool : Ty → Bool
  | .int _ _ => true
  | .bool => true
  | _ => false

mutual

/-- `visit_expr`, `/repo/clippy_utils/src/eager_or_lazy.rs:124-312`; `const?` is the constant
evaluator of C05 to C08. -/
def visit (acc : Eag) (e : Ex) : Eag :=
  if acc = .force then .force
  else match e with
  | .adj _ => acc.join .noChange
  | .ctor drops _ es => if drops then .force else visitL acc es
  | .promo _ es => visitL acc es
  | .call f i es =>
    if constEval (.call f i es) then acc.join .noChange
    else visitL (acc.join (fnEagerness i !es.isNil)) es
  | .callVal f es => visitL (visit .lazy f) es
  | .method f i e es =>
    if constEval (.method f i e es) then acc.join .noChange
    else visitL (visit (acc.join (fnEagerness i true)) e) es
  | .path r drops _ => if r == .ctor && drops then .force else acc
  | .index _ copyIdx a i =>
    visit (visit (if copyIdx then acc.join .noChange else .lazy) a) i
  | .neg t e =>
    if (const? e).isNone then visit (acc.join .noChange) e
    else if intOrBool t then visit acc e
    else visit .lazy e
  | .deref .user e => visit (acc.join .noChange) e
  | .deref .builtin e => visit acc e
  | .deref .raw e => visit (acc.join .noChange) e
  | .not t e => if intOrBool t then visit acc e else visit .lazy e
  | .bin op ta tb t a b =>
    match binEag const? op ta tb t a b with
    | none => visit (visit acc a) b
    | some .lazy => visit (visit .lazy a) b
    | some x => visit (visit (acc.join x) a) b
  | .leave _ _ => .force
  | .lp e => visit .lazy e
  | .plain _ es => visitL acc es
  | .closure _ => acc
  | .union _ e => visit acc e
  | .branch _ c a rest => visitL (visit (visit acc c) a) rest
  | .block e => visit acc e
  | .stmts es e => visit (visitL (acc.join .noChange) es) e
  | .assign l r => visit (visit (acc.join .noChange) l) r

def visitL (acc : Eag) : Exs → Eag
  | .nil => acc
  | .cons e es => visitL (visit acc e) es

end

/-- `switch_to_eager_eval`, `/repo/clippy_utils/src/eager_or_lazy.rs:323-326`. -/
def switchToEager (e : Ex) : Bool := visit const? .eager e == .eager

/-- `switch_to_lazy_eval`, `/repo/clippy_utils/src/eager_or_lazy.rs:328-331`. -/
def switchToLazy (e : Ex) : Bool := visit const? .eager e == .lazy

end

mutual

/-- `contains_return`, `/repo/clippy_utils/src/lib.rs:1116-1125`. -/
def containsReturn : Ex → Bool
  | .leave isRet es => isRet || containsReturnL es
  | .plain _ es => containsReturnL es
  | .closure _ => false
  | .union _ e => containsReturn e
  | .path _ _ _ => false
  | .ctor _ _ es => containsReturnL es
  | .promo _ es => containsReturnL es
  | .call _ _ es => containsReturnL es
  | .callVal f es => containsReturn f || containsReturnL es
  | .method _ _ e es => containsReturn e || containsReturnL es
  | .index _ _ a i => containsReturn a || containsReturn i
  | .neg _ e => containsReturn e
  | .not _ e => containsReturn e
  | .deref _ e => containsReturn e
  | .bin _ _ _ _ a b => containsReturn a || containsReturn b
  | .lp e => containsReturn e
  | .branch _ c a rest => containsReturn c || containsReturn a || containsReturnL rest
  | .block e => containsReturn e
  | .stmts es e => containsReturnL es || containsReturn e
  | .assign l r => containsReturn l || containsReturn r
  | .adj e => containsReturn e

def containsReturnL : Exs → Bool
  | .nil => false
  | .cons e es => containsReturn e || containsReturnL es

end

/-- The tests of `check_or_fn_call` on its argument,
`/repo/clippy_lints/src/methods/or_fun_call.rs:272-274`. -/
def orFunCall (const? : Ex → Option V) (arg : Ex) : Bool :=
  switchToLazy const? arg && !containsReturn arg

/-- The edit of `unnecessary_lazy_eval::check`,
`/repo/clippy_lints/src/methods/unnecessary_lazy_eval.rs:36-42`: the argument is written without
its closure.  The methods are `and_then`, `get_or_insert_with`, `ok_or_else`, `or_else`, `then` and
`unwrap_or_else`.  `paramsUsed` says that the closure uses its parameters. -/
def unLazy (const? : Ex → Option V) (paramsUsed : Bool) (body : Ex) : Option Ex :=
  if paramsUsed then none
  else if switchToEager const? body then some body
  else none

end Verif.Lazily
