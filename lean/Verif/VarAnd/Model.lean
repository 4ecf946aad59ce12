import Verif.VarAnd.Spec

/-! Model of `clippy_lints/src/methods/manual_is_variant_and.rs`. -/

namespace Verif.VarAnd.Model

open Verif.VarAnd

/-- `MapFunc::try_from` (`clippy_lints/src/methods/manual_is_variant_and.rs:134-144`). -/
def isMapFunc : Func → Bool
  | .closure _ => true
  | .path _ => true
  | .notPath _ => true
  | .other _ => false

/-- `MapFunc::sugg` (`clippy_lints/src/methods/manual_is_variant_and.rs:146-169`): the function, or the inverted one. `|x| !path(x)` is the
closure with this body. -/
def sugg (invert : Bool) : Func → Func
  | .closure b => .closure (if invert then .not b else b)
  | .path k => if invert then .notPath k else .path k
  | .notPath k => .closure (if invert then .not (.not (.expr k)) else .not (.expr k))
  | .other k => .other k

/-- `emit_lint` (`clippy_lints/src/methods/manual_is_variant_and.rs:171-212`); the version of the compiler is new enough. -/
def emit (fl : Flavor) (r : Nat) (f : Func) (ne b : Bool) : Expr :=
  match fl, ne with
  | .option, false => .isGoodAnd .option r (sugg (!b) f)
  | .option, true => .isNoneOr r (sugg b f)
  | .result, false => .isGoodAnd .result r (sugg (!b) f)
  | .result, true => .not (.isGoodAnd .result r (sugg (!b) f))

/-- `check_or` (`clippy_lints/src/methods/manual_is_variant_and.rs:242-302`). -/
def checkOr : Expr → Expr → Option Expr
  | .isNone n, .isGoodAnd .option s f => if n = s ∧ isMapFunc f then some (.isNoneOr s (sugg false f)) else none
  | .isGoodAnd .option s f, .isNone n => if n = s ∧ isMapFunc f then some (.isNoneOr s (sugg false f)) else none
  | _, _ => none

/-- What is suggested for an expression: `check_map` (`clippy_lints/src/methods/manual_is_variant_and.rs:214-240`), which doesn't ask which
constructor is called, `check_map_unwrap_or_default` (`:48-99`), `check_is_some_is_none` (`:304-342`), `check_ok_is_some_and` (`:344-372`) and
`check_or`. -/
def check : Expr → Option Expr
  | .mapCmp fl r f ne _ b => if isMapFunc f then some (emit fl r f ne b) else none
  | .mapDefault fl r f => some (.isGoodAnd fl r f)
  | .filterIs r f isSome =>
    if isMapFunc f then some (if isSome then .refGoodAnd r (sugg (!isSome) f) else .refNoneOr r (sugg (!isSome) f)) else none
  | .okIsSomeAnd r f => some (.isGoodAnd .result r f)
  | .or a b => checkOr a b
  | .isNone _ | .isGoodAnd _ _ _ | .refGoodAnd _ _ | .isNoneOr _ _ | .refNoneOr _ _ | .not _ => none

end Verif.VarAnd.Model
