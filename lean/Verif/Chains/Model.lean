import Verif.Chains.Spec

/-! Models of `clippy_lints/src/methods/{obfuscated_if_else,map_unwrap_or,manual_option_zip}.rs` and `clippy_lints/src/option_if_let_else.rs`. -/

namespace Verif.Chains.Model

open Verif.Chains

variable {V : Type}

/-- `switch_to_eager_eval` for the argument of `then` (`clippy_lints/src/methods/obfuscated_if_else.rs:24`): closures and paths are always eager
(`clippy_utils/src/eager_or_lazy.rs:191-196`, `:298`). -/
def thenEager (eager : Nat → Bool) : Then → Bool
  | .value k => eager k
  | .closure _ => true
  | .path _ => true

/-- `unwrap_eager` (`clippy_lints/src/methods/obfuscated_if_else.rs:25`). -/
def unwrapEager (eager : Nat → Bool) : Unwrap → Bool
  | .or k => eager k
  | .orElse _ => true
  | .orElsePath _ => true
  | .orElseOther k => eager k
  | .orDefault => true

/-- `if_then` (`clippy_lints/src/methods/obfuscated_if_else.rs:33-40`). -/
def ifThen : Then → Option Block
  | .value k => some (.code k)
  | .closure k => some (.code k)
  | .path _ => none

/-- `els` (`clippy_lints/src/methods/obfuscated_if_else.rs:42-55`). -/
def els : Unwrap → Option Block
  | .or k => some (.code k)
  | .orElse k => some (.code k)
  | .orElsePath k => some (.call k)
  | .orElseOther _ => none
  | .orDefault => some .dflt

/-- `obfuscated_if_else::check` (`clippy_lints/src/methods/obfuscated_if_else.rs:13-85`): the blocks, and whether the suggestion may be applied
by a machine. -/
def obfuscated (eager : Nat → Bool) (t : Then) (u : Unwrap) : Option (Block × Block × Bool) :=
  match ifThen t, els u with
  | some a, some b => some (a, b, thenEager eager t && unwrapEager eager u)
  | _, _ => none

/-- `map_unwrap_or::check` (`clippy_lints/src/methods/map_unwrap_or.rs:21-145`): `copy` says that the default has a type that is copied,
`referenced` that it moves a variable that is used before, `adjusted` that it needs an adjustment of its type, `option` that the receiver is no
`Result`. -/
def mapUnwrapOr (copy referenced adjusted option : Bool) (a : Dflt V) : Option (MapOr V) :=
  if !copy && referenced then none
  else
    match a with
    | .none v => if option then some (.andThen v) else if adjusted then none else some (.mapOr (.none v))
    | .false v => some (.isVariantAnd v)
    | .code k => if adjusted then none else some (.mapOr (.code k))

/-- `zip_operands` (`clippy_lints/src/methods/manual_option_zip.rs:70-85`): are the options swapped? -/
def zipOperands : Part → Part → Option Bool
  | .outer, .inner => some false
  | .inner, .outer => some true
  | _, _ => none

/-- `manual_option_zip::check` (`clippy_lints/src/methods/manual_option_zip.rs:16-62`). -/
def zip (eager uses : Nat → Bool) (b : Nat) (x y : Part) : Option Bool :=
  if eager b && !uses b then zipOperands x y else none

/-- `is_none_or_err_arm` (`clippy_lints/src/option_if_let_else.rs:379-391`). -/
def isNoneOrErr : Pat → Bool
  | .bad => true
  | .wild => true
  | .good => false
  | .other _ => false

/-- `try_convert_match` (`clippy_lints/src/option_if_let_else.rs:360-377`): the arm with the value, the other one. -/
def convertMatch (p1 p2 : Pat) (b1 b2 : Body) : Option (Pat × Body × Body) :=
  if isNoneOrErr p2 then some (p1, b1, b2) else if isNoneOrErr p1 then some (p2, b2, b1) else none

/-- `switch_to_eager_eval` of a body (`clippy_utils/src/eager_or_lazy.rs:324-326`). -/
def bodyEager (eager : Nat → Bool) (eagerCall : Nat → Bool) : Body → Bool
  | .withVar _ => false
  | .plain k => eager k
  | .call k => eagerCall k

/-- `can_omit_arg` and the argument (`clippy_lints/src/option_if_let_else.rs:227-230`, `:243-253`). -/
def noneArg (lazy isResult : Bool) : Body → Arg
  | .call k => if isResult then (if lazy then .closure (.call k) else .value (.call k)) else .fn k
  | .plain k => if lazy then .closure (.plain k) else .value (.plain k)
  | .withVar f => if lazy then .closure (.withVar f) else .value (.withVar f)

/-- `try_get_option_occurrence` (`clippy_lints/src/option_if_let_else.rs:121-258`): `map_or_else` or `map_or`, its arguments. Captured
variables aren't modelled. -/
def occurrence (eager eagerCall : Nat → Bool) (isResult : Bool) (pat : Pat) (some_ none_ : Body) : Option (Bool × Arg × Body) :=
  match pat with
  | .good =>
    let lazy := !bodyEager eager eagerCall none_
    some (lazy, noneArg lazy isResult none_, some_)
  | .bad | .wild | .other _ => none

/-- `detect_option_match` (`clippy_lints/src/option_if_let_else.rs:349-358`); `if let` is the match with `_` at the end (`:332-347`). -/
def optionMatch (eager eagerCall : Nat → Bool) (isResult : Bool) (p1 p2 : Pat) (b1 b2 : Body) : Option (Bool × Arg × Body) :=
  match convertMatch p1 p2 b1 b2 with
  | none => none
  | some (p, s, n) => occurrence eager eagerCall isResult p s n

end Verif.Chains.Model
