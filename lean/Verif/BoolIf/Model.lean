import Verif.BoolIf.Spec

/-! Model of `clippy_lints/src/needless_bool.rs`. Code from macros, comments, and the parentheses of suggestions are left out. -/

namespace Verif.BoolIf.Model

open Verif.BoolIf

/-- `peel_blocks` (`clippy_utils/src/lib.rs:1236-1250`). -/
def peelBlocks : Expr → Expr
  | .block e => peelBlocks e
  | e => e

/-- `peel_blocks_with_stmt` (`clippy_utils/src/lib.rs:1262-1288`). -/
def peelBlocksWithStmt : Expr → Expr
  | .block e => peelBlocksWithStmt e
  | .semi e => peelBlocksWithStmt e
  | e => e

/-- `fetch_bool_expr` (`clippy_lints/src/needless_bool.rs:348-355`). -/
def fetchBoolExpr (e : Expr) : Option Bool :=
  match peelBlocks e with
  | .bool b => some b
  | _ => none

/-- `Expression` (`clippy_lints/src/needless_bool.rs:336-339`). -/
inductive Found
  | bool (b : Bool)
  | retBool (b : Bool)
deriving DecidableEq, Repr

/-- `fetch_bool_block` (`clippy_lints/src/needless_bool.rs:341-346`). -/
def fetchBoolBlock (e : Expr) : Option Found :=
  match peelBlocksWithStmt e with
  | .ret r => (fetchBoolExpr r).map .retBool
  | _ => (fetchBoolExpr e).map .bool

/-- `fetch_assign` (`clippy_lints/src/needless_bool.rs:357-363`). -/
def fetchAssign (e : Expr) : Option (Nat × Bool) :=
  match peelBlocksWithStmt e with
  | .assign p r => (fetchBoolExpr r).map (p, ·)
  | _ => none

/-- What is reported: an expression which is always the same, or a replacement (`clippy_lints/src/needless_bool.rs:171-192`, `:211-219`). -/
inductive Report
  | always (b : Bool)
  | replace (e : Expr)
deriving DecidableEq, Repr

/-- `reduce` (`clippy_lints/src/needless_bool.rs:136-166`). -/
def reduce (c : Expr) (ret not : Bool) : Expr :=
  let s := if not then .not c else c
  if ret then .ret s else s

/-- The values of both branches (`clippy_lints/src/needless_bool.rs:167-193`). -/
def checkBools (c t e : Expr) : Option Report :=
  match fetchBoolBlock t, fetchBoolBlock e with
  | some (.retBool true), some (.retBool true) | some (.bool true), some (.bool true) => some (.always true)
  | some (.retBool false), some (.retBool false) | some (.bool false), some (.bool false) => some (.always false)
  | some (.retBool true), some (.retBool false) => some (.replace (reduce c true false))
  | some (.bool true), some (.bool false) => some (.replace (reduce c false false))
  | some (.retBool false), some (.retBool true) => some (.replace (reduce c true true))
  | some (.bool false), some (.bool true) => some (.replace (reduce c false true))
  | _, _ => none

/-- Assignments in both branches (`clippy_lints/src/needless_bool.rs:194-220`). The suggestion ends with a semicolon. -/
def checkAssigns (c t e : Expr) : Option Expr :=
  match fetchAssign t, fetchAssign e with
  | some (p, a), some (q, b) =>
    if p = q then
      if a = b then some (.seq c (.semi (.assign p (.bool a))))
      else some (.semi (.assign p (if a then c else .not c)))
    else none
  | _, _ => none

/-- `fetch_bool_and_wrapper` (`clippy_lints/src/needless_bool.rs:305-316`) with the resolution of constructors in `wrapper_ctors_match` (`:321-328`):
the constructor, if there is one, and the value. -/
def fetchBoolAndWrapper (e : Expr) : Option (Option Nat × Bool) :=
  match peelBlocks e with
  | .bool b => some (none, b)
  | .wrap k a => (fetchBoolExpr a).map (some k, ·)
  | _ => none

/-- An `if` without `else` that only returns (`clippy_lints/src/needless_bool.rs:238-243`, `:255-262`). -/
def guardOf : Expr → Option (Expr × Expr)
  | .ifThen c t =>
    match peelBlocksWithStmt t with
    | .ret r => some (c, r)
    | _ => none
  | _ => none

/-- `check_block` (`clippy_lints/src/needless_bool.rs:224-296`) for a block with the statements `init` and then `last`; the replacement of `last`
and of the expression at the end. -/
def checkBlock (init : List Expr) (last tail : Expr) : Option Expr :=
  match guardOf last with
  | none => none
  | some (c, r) =>
    match fetchBoolAndWrapper r, fetchBoolAndWrapper tail with
    | some (f, a), some (g, b) =>
      if a ≠ b ∧ f = g then
        if (init.getLast?.bind guardOf).isSome then none
        else
          let s := if a then c else .not c
          match g with
          | some k => some (.wrap k s)
          | none => some s
      else none
    | _, _ => none

end Verif.BoolIf.Model
