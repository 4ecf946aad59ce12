import Verif.OptMatch.Model

/-!
# Model: `manual_unwrap_or`, `manual_unwrap_or_default` and `manual_ok_err`

`/repo/clippy_lints/src/matches/manual_unwrap_or.rs` and `manual_ok_err.rs` next to it.
-/

namespace Verif.OptMatch
open Ctrl (Name Expr)

/-- `PatKind::Binding(BindingMode(ByRef::No, _), pat_id, _, _)`. -/
def byValue : Pat → Option Name
  | .bind ⟨none, _⟩ x => some x
  | .bindAt ⟨none, _⟩ x _ => some x
  | _ => none

/-- `get_some`, `/repo/clippy_lints/src/matches/manual_unwrap_or.rs:21-35`. -/
def getSome : Pat → Option Name
  | .some p => byValue p
  | .ok p => byValue p
  | _ => none

/-- `get_none`, `/repo/clippy_lints/src/matches/manual_unwrap_or.rs:37-57`. -/
def getNone (a : Arm) (wild : Bool) : Option Body :=
  match a.pat with
  | .none => some a.body
  | .err _ => some a.body
  | .wild => if wild then some a.body else none
  | _ => none

/-- `get_some_and_none_bodies`, `/repo/clippy_lints/src/matches/manual_unwrap_or.rs:59-75`. -/
def someNone (a b : Arm) : Option (Body × Name × Body) :=
  match getSome a.pat, getNone b true with
  | some x, some n => some (a.body, x, n)
  | _, _ =>
    match getNone a false, getSome b.pat with
    | some n, some x => some (b.body, x, n)
    | _, _ => none

/-- `peel_blocks`, `/repo/clippy_utils/src/lib.rs:1236-1250`. -/
def peelBlocks : Body → Body
  | .block false b => peelBlocks b
  | b => b

/-- `find_type_name`, `/repo/clippy_lints/src/matches/manual_unwrap_or.rs:179-185`. -/
def isOptRes : Ty → Bool
  | .opt _ => true
  | .res _ _ => true
  | _ => false

/-- What the compiler and the constant evaluator say. -/
structure UFacts where
  /-- Both bodies have the same type. -/
  sameTy : Bool
  /-- `safe_to_move_scrutinee`. -/
  moveOk : Bool
  /-- `manual_unwrap_or_default` is not allowed, and the types have a default value. -/
  defaultLint : Bool
  /-- `is_default_equivalent`. -/
  isDefault : Body → Bool
  /-- `eval_local` finds a constant. -/
  isConst : Body → Bool
  /-- The variable is not adjusted. -/
  noAdj : Bool
  /-- The type of the wrapped variable is the type inside of the result. -/
  argTy : Bool

/-- `handle`, `/repo/clippy_lints/src/matches/manual_unwrap_or.rs:77-177`.  A reference has no type
arguments, its lifetime comes first. -/
def handle (fa : UFacts) (s : Scrut) (body : Body) (n : Body) (x : Name) : Option Call :=
  if !fa.sameTy || !fa.moveOk then none else
  match peelBlocks body with
  | .other (.var y) =>
    if y = x then
      if fa.defaultLint && isOptRes s.fullTy && fa.isDefault (peelBlocks n) then some .unwrapOrDefault
      else if isOptRes s.fullTy && fa.noAdj && fa.isConst n then some (.unwrapOr (peelBlocks n))
      else none
    else none
  | _ => none

/-- `check_match` and `check_if_let`, `/repo/clippy_lints/src/matches/manual_unwrap_or.rs:210-246`. -/
def checkUnwrap (fa : UFacts) (s : Scrut) : Form → Option Call
  | .mtch [a, b] =>
    if a.guard.isNone && b.guard.isNone then
      (someNone a b).bind fun r => handle fa s r.1 r.2.2 r.2.1
    else none
  | .mtch _ => none
  | .ifLet p t e => (getSome p).bind fun x => handle fa s (peelBlocks t) (peelBlocks e) x

/-- `is_ok_or_err`, `/repo/clippy_lints/src/matches/manual_ok_err.rs:90-105`. -/
def isOkErr : Pat → Option (Bool × Name)
  | .ok (.bind ⟨none, false⟩ x) => some (true, x)
  | .err (.bind ⟨none, false⟩ x) => some (false, x)
  | _ => none

/-- `is_some_ident`, `/repo/clippy_lints/src/matches/manual_ok_err.rs:108-122`. -/
def isSomeIdent (fa : UFacts) (b : Body) (x : Name) : Bool :=
  match peelBlocks b with
  | .some (.plain (.var y)) => fa.argTy && y == x
  | _ => false

/-- `is_variant_or_wildcard`, `/repo/clippy_lints/src/matches/manual_ok_err.rs:63-86`; a constant is a
path. -/
def isVariant (wild err : Bool) : Pat → Bool
  | .wild => wild
  | .lit _ => wild
  | .none => wild
  | .bind _ _ => wild
  | .ok _ => !err
  | .err _ => err
  | .some _ => !err
  | .someRest => !err
  | .bindAt _ _ p => isVariant wild err p
  | .ref _ p => isVariant wild err p
  | .pair _ _ => false
  | .or _ _ => false

/-- `apply_lint`, `/repo/clippy_lints/src/matches/manual_ok_err.rs:131-150`. -/
def okErrCall (s : Scrut) (isOk : Bool) : Call :=
  let ad := if refCount s.fullTy = 0 then Adaptor.asIs else if refMut s.fullTy then .asMut else .asRef
  if isOk then .ok ad else .err ad

/-- The closure of `find_map`, `/repo/clippy_lints/src/matches/manual_ok_err.rs:39-49`. -/
def okErrArm (fa : UFacts) (a : Arm) : Option Bool :=
  match isOkErr a.pat with
  | some (isOk, x) => if isSomeIdent fa a.body x then some isOk else none
  | none => none

/-- `check_match` and `check_if_let`, `/repo/clippy_lints/src/matches/manual_ok_err.rs:18-57`. -/
def checkOkErr (fa : UFacts) (s : Scrut) : Form → Option Call
  | .mtch [a, b] =>
    if a.guard.isNone && b.guard.isNone then
      match okErrArm fa a with
      | some isOk => if isVariant true isOk b.pat && isNoneBody b.body then some (okErrCall s isOk) else none
      | none =>
        match okErrArm fa b with
        | some isOk => if isVariant false isOk a.pat && isNoneBody a.body then some (okErrCall s isOk) else none
        | none => none
    else none
  | .mtch _ => none
  | .ifLet p t e =>
    match okErrArm fa ⟨p, none, t⟩ with
    | some isOk => if isNoneBody e then some (okErrCall s isOk) else none
    | none => none

end Verif.OptMatch
