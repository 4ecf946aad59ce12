import Verif.Merge.Spec

/-!
# Model: methods/filter_map.rs
-/

namespace Verif.Merge

/-- The body of the closure is a call of the method on the parameter —
clippy_lints/src/methods/filter_map.rs:27-40. -/
def bodyIs (n : Nm) : E → Bool
  | .isSome .var => n == .isSome
  | .isOk .var => n == .isOk
  | .unwrap .var => n == .unwrap
  | _ => false

/-- `is_method` — clippy_lints/src/methods/filter_map.rs:19-44. -/
def isMethod (f : Fun) (n : Nm) : Bool :=
  match f with
  | .path _ _ m => m == n
  | .made _ m => m == n
  | .closure isRef body => !isRef && bodyIs n body

/-- `is_filter_some_map_unwrap` or `is_filter_ok_map_unwrap`, for iterators —
clippy_lints/src/methods/filter_map.rs:46-51, 266-284: `flatten()` is suggested. The types of the items are not
looked at. -/
def flattens (p q : Fun) : Bool :=
  (isMethod q .unwrap && isMethod p .isSome) || (isMethod q .unwrap && isMethod p .isOk)

/-- `OffendingFilterExpr` — clippy_lints/src/methods/filter_map.rs:54-79. -/
inductive Off
  | some (recv : E) (effects : Bool)
  | ok (recv : E) (effects : Bool)
  | variant (k : Nat)
  deriving DecidableEq, Repr

/-- `can_have_side_effects` — clippy_lints/src/methods/filter_map.rs:238 (a method of rustc): calls do, variables,
fields and dereferences do not. -/
def effects : E → Bool
  | .var => false
  | .bound => false
  | .const _ => false
  | .deref a => effects a
  | .field _ a => effects a
  | _ => true

/-- `OffendingFilterExpr::hir` — clippy_lints/src/methods/filter_map.rs:227-262. For `matches!` the pattern inside
and the guard do not matter. That the receiver is an option or a result (lines 229, 240-249) is not
modelled here. -/
def offending : E → Option Off
  | .isSome a => some (.some a (effects a))
  | .isOk a => some (.ok a (effects a))
  | .sel .var (.con k _) _ .yes .no => some (.variant k)
  | _ => none

/-- `map_arg_peeled` — clippy_lints/src/methods/filter_map.rs:132-137, 436-448. -/
def peelKeep : E → E
  | .keep _ a => a
  | a => a

/-- The receiver of `expect`, `unwrap` or `unwrap_or` — clippy_lints/src/methods/filter_map.rs:128-129. -/
def unwrapped : E → Option E
  | .unwrap a => some a
  | .expect a _ => some a
  | .unwrapOr a _ => some a
  | _ => none

/-- `eq_expr` with the fallback — clippy_lints/src/methods/filter_map.rs:139-154: `*x` in the filter is `x` in the
map. The comparison of types is left out. -/
def same (isRef : Bool) : E → E → Bool
  | .var, .var => true
  | .deref .var, .var => !isRef
  | .bound, .bound => true
  | .const k, .const k' => k == k'
  | .deref a, .deref b => same isRef a b
  | .field k a, .field k' b => k == k' && same isRef a b
  | .opq k a, .opq k' b => k == k' && same isRef a b
  | .keep k a, .keep k' b => k == k' && same isRef a b
  | _, _ => false

/-- The result of `check_map_call` — clippy_lints/src/methods/filter_map.rs:89-106. -/
inductive Found
  | method (arg : E) (isOk : Bool) (effects : Bool)
  | pattern (p : P)
  deriving DecidableEq, Repr

/-- The `Method` result — clippy_lints/src/methods/filter_map.rs:153-167. -/
def methodFound (isRef isOk eff : Bool) (recv : E) : Option E → Option Found
  | some a => if same isRef recv (peelKeep a) then some (.method a isOk eff) else none
  | none => none

/-- `expr_uses_local` — clippy_lints/src/methods/filter_map.rs:170-181: a variant with a variable, which may have a
pattern of its own. -/
def usesLocal (k : Nat) : P → Bool
  | .con k' .bind => k' == k
  | .con k' (.at' _) => k' == k
  | _ => false

/-- The `PatternMatching` result — clippy_lints/src/methods/filter_map.rs:191-222. The guard of an arm does not
matter. -/
def patternFound (k : Nat) : E → Option Found
  | .sel .var p _ .bound .panic => if usesLocal k p then some (.pattern p) else none
  | _ => none

/-- `check_map_call` — clippy_lints/src/methods/filter_map.rs:109-225. -/
def checkMap (isRef : Bool) (body : E) : Off → Option Found
  | .some recv eff => methodFound isRef false eff recv (unwrapped body)
  | .ok recv eff => methodFound isRef true eff recv (unwrapped body)
  | .variant k => patternFound k body

/-- `is_find_or_filter` — clippy_lints/src/methods/filter_map.rs:401-434. -/
def findOrFilter : Fun → Fun → Option Found
  | .closure isRef p, .closure false q => (offending p).bind (checkMap isRef q)
  | _, _ => none

/-- `sugg` and the applicability — clippy_lints/src/methods/filter_map.rs:338-390: the body of the new closure, and
whether the suggestion is machine-applicable. -/
def sugg : Found → E × Bool
  | .method a isOk eff => (if isOk then .okOf a else a, !eff)
  | .pattern p => (.sel .var p .yes (.mkSome .bound) .mkNone, true)

/-- What is suggested — clippy_lints/src/methods/filter_map.rs:302, 316, 331-335, 392. -/
inductive Report
  | nothing
  | flatten
  | filterMap (body : E) (machine : Bool)
  deriving DecidableEq, Repr

/-- `check` — clippy_lints/src/methods/filter_map.rs:288-399. -/
def check (p q : Fun) : Report :=
  if flattens p q then .flatten
  else match findOrFilter p q with
    | some f => .filterMap (sugg f).1 (sugg f).2
    | none => .nothing

end Verif.Merge
