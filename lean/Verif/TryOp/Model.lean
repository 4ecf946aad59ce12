import Verif.TryOp.Syntax

/-!
# Model: `question_mark`

`/repo/clippy_lints/src/question_mark.rs`.  Not modelled: comments, `cfg` and macros, `try` blocks, closures
and constants, in which nothing is reported, and whether variables are used afterwards.
-/

namespace Verif.TryOp

/-- `peel_blocks_with_stmt`, `/repo/clippy_utils/src/lib.rs:1262-1288`. -/
def peelStmt : Body → Body
  | .blk b => peelStmt b
  | .semi b => peelStmt b
  | b => b

/-- `peel_blocks`, `/repo/clippy_utils/src/lib.rs:1236-1250`. -/
def peel : Body → Body
  | .blk b => peel b
  | b => b

/-- `caller_ty.is_diag_item(cx, smbl)`, `/repo/clippy_lints/src/question_mark.rs:211`: a reference is
neither. -/
def kindOf (fa : Facts) (s : Src) : Kind :=
  if fa.isRef s then .other else fa.kind s

/-- `expr_return_none_or_err` for options, `/repo/clippy_lints/src/question_mark.rs:243-274`. -/
def returnsNone : Body → Bool
  | .blk b => returnsNone b
  | .semi b => returnsNone b
  | .ret b => returnsNone b
  | .none => true
  | _ => false

/-- `expr_return_none_or_err` for results, `/repo/clippy_lints/src/question_mark.rs:243-274`.  The variable
is looked for in the expression before its blocks are removed (`direct`). -/
def returnsErr (fa : Facts) (s : Src) (err : Option Name) (direct : Bool) : Body → Bool
  | .blk b => returnsErr fa s err false b
  | .semi b => returnsErr fa s err false b
  | .ret b => returnsErr fa s err true b
  | .src s' => direct && (fa.isLocal s' && decide (s' = s))
  | .errOf x => decide (err = some x)
  | _ => false

/-- `is_early_return` for `IfIs`, `/repo/clippy_lints/src/question_mark.rs:208-218`, for both symbols. -/
def earlyIs (fa : Facts) (s : Src) (m : Method) (t : Body) : Bool :=
  (decide (kindOf fa s = .option) && (returnsNone t && decide (m = .isNone))) ||
    (decide (kindOf fa s = .result) && (returnsErr fa s none true t && decide (m = .isErr)))

/-- `eq_expr_value` with a body. -/
def sameExpr (fa : Facts) (s : Src) : Body → Bool
  | .src s' => decide (s' = s) && fa.pure s
  | _ => false

/-- `by_ref`, `/repo/clippy_lints/src/question_mark.rs:301-302`. -/
def byRef (fa : Facts) (s : Src) : Option Bool :=
  if !fa.copy s && !fa.isCall s then some false else none

/-- The suggestion, `/repo/clippy_lints/src/question_mark.rs:303-311`. -/
def isEdit (fa : Facts) (s : Src) : Option Body → Option Edit
  | some e => if sameExpr fa s (peel e) then some (.someTry s) else none
  | none => some (.tryE (.src s) (byRef fa s) true)

/-- `check_is_none_or_err_and_early_return`, `/repo/clippy_lints/src/question_mark.rs:291-323`. -/
def checkIs (fa : Facts) (s : Src) (m : Method) (t : Body) (e : Option Body) : Option Edit :=
  if !fa.elseClause && earlyIs fa s m t then isEdit fa s e else none

/-- `is_some_and`. -/
def optAny (f : Body → Bool) : Option Body → Bool
  | some b => f b
  | none => false

/-- `is_early_return` for `IfLet` and options, `/repo/clippy_lints/src/question_mark.rs:222-227`. -/
def earlyOption (fa : Facts) (c : Ctor) (s : Src) (e : Option Body) : Bool :=
  decide (kindOf fa s = .option) && (decide (c = .some) && optAny returnsNone e)

/-- `is_early_return` for `IfLet` and results, `/repo/clippy_lints/src/question_mark.rs:228-236`. -/
def earlyResult (fa : Facts) (c : Ctor) (s : Src) (x : Name) (t : Body) (e : Option Body) : Bool :=
  decide (kindOf fa s = .result) &&
    ((decide (c = .ok) && optAny (returnsErr fa s (some x) true) e) ||
      (decide (c = .err) && (returnsErr fa s (some x) true t && e.isNone)))

/-- `ExprKind::Ret`. -/
def isRet : Body → Bool
  | .ret _ => true
  | _ => false

/-- `res_local_id() == Some(bind_id)`. -/
def isVar (x : Name) : Body → Bool
  | .var y => decide (y = x)
  | _ => false

/-- `check_if_let_some_or_err_and_early_return` after the pattern was found,
`/repo/clippy_lints/src/question_mark.rs:539-598`. -/
def ifLetEdit (fa : Facts) (c : Ctor) (b : Bind) (s : Src) (t : Body) (e : Option Body) : Option Edit :=
  if !(earlyOption fa c s e || earlyResult fa c s b.x t e) then none
  else if optAny (fun e => sameExpr fa s (peel e)) e then none
  else if earlyOption fa c s e && optAny (fun e => !isRet (peelStmt e)) e then none
  else if !earlyOption fa c s e || isVar b.x (peel t) then some (.tryE (.src s) b.ref fa.needsSemi)
  else some (.letTry (.bind b) (.src s) t)

/-- `check_if_let_some_or_err_and_early_return`, `/repo/clippy_lints/src/question_mark.rs:519-601`. -/
def checkIfLet (fa : Facts) (p : Pat) (s : Src) (t : Body) (e : Option Body) : Option Edit :=
  match p with
  | .ctor c (.bind b) => ifLetEdit fa c b s t e
  | _ => none

/-- `find_try_mode`, `/repo/clippy_lints/src/question_mark.rs:331-342`: the type below references. -/
def tryMode (fa : Facts) : Scrut → Kind
  | .src s => fa.kind s
  | .addr _ n => fa.kind (.place n)

/-- `happy_ctor`, `/repo/clippy_lints/src/question_mark.rs:376-379`. -/
def happyCtor : Kind → Ctor → Bool
  | .option, .some => true
  | .result, .ok => true
  | _, _ => false

/-- `check_arm_is_some_or_ok`, `/repo/clippy_lints/src/question_mark.rs:371-396`: the variable. -/
def happyArm (k : Kind) (a : Arm) : Option Bind :=
  match a.pat with
  | .ctor c (.bind b) => if !a.guard && happyCtor k c then some b else none
  | _ => none

/-- `return Err(x)` or `return Err(x.into())`, `/repo/clippy_lints/src/question_mark.rs:410-414`, with
`is_local_or_local_into`, lines 438-448. -/
def retErr (x : Name) : Body → Bool
  | .ret (.errOf y) => decide (y = x)
  | .ret (.errInto y) => decide (y = x)
  | _ => false

/-- `return None`, `/repo/clippy_lints/src/question_mark.rs:425-426`. -/
def retNone : Body → Bool
  | .ret .none => true
  | _ => false

/-- The pattern and the body in `check_arm_is_none_or_err`,
`/repo/clippy_lints/src/question_mark.rs:403-434`. -/
def sadPat (k : Kind) (p : Pat) (body : Body) : Bool :=
  match k, p with
  | .result, .ctor .err (.bind b) => retErr b.x (peel body)
  | .option, .none => retNone (peel body)
  | _, _ => false

/-- `check_arm_is_none_or_err`, `/repo/clippy_lints/src/question_mark.rs:398-435`. -/
def sadArm (k : Kind) (a : Arm) : Bool :=
  !a.guard && sadPat k a.pat a.body

/-- The suggestion for an arm, `/repo/clippy_lints/src/question_mark.rs:485-513`. -/
def tryEdit (s : Scrut) (b : Bind) (body : Body) : Edit :=
  if isVar b.x (peel body) then .tryE s none false else .letTry (.bind b) s body

/-- `check_if_try_match`, `/repo/clippy_lints/src/question_mark.rs:469-517`, with `check_arms_are_try`,
lines 450-459. -/
def checkMatch (fa : Facts) (s : Scrut) (a b : Arm) : Option Edit :=
  if sadArm (tryMode fa s) b then
    (happyArm (tryMode fa s) a).map fun x => tryEdit s x a.body
  else if sadArm (tryMode fa s) a then
    (happyArm (tryMode fa s) b).map fun x => tryEdit s x b.body
  else none

/-- `find_let_else_ret_expression`, `/repo/clippy_lints/src/question_mark.rs:101-117`, with the body in
`pat_and_expr_can_be_question_mark`, `/repo/clippy_utils/src/lib.rs:2928-2934`. -/
def elseRet : Body → Bool
  | .blk b => retNone (peel b)
  | .semi b => retNone b
  | _ => false

/-- The suggestion, `/repo/clippy_lints/src/question_mark.rs:154-192`; `None` for what can fail,
`/repo/clippy_utils/src/lib.rs:2927`.  A pattern after `@` is taken not to fail. -/
def letEdit (s : Src) (rest : Body) : Inner → Option Edit
  | .bind ⟨some m, x⟩ => some (.letTryRef (.bind ⟨none, x⟩) s m rest)
  | .bindAt ⟨some m, x⟩ n => some (.letTryRef (.bindAt ⟨none, x⟩ n) s m rest)
  | .bindAtRef ⟨some m, x⟩ _ y => some (.letTryRef (.bindAtRef ⟨none, x⟩ m y) s m rest)
  | .bind ⟨none, x⟩ => some (.letTry (.bind ⟨none, x⟩) (.src s) rest)
  | .bindAt ⟨none, x⟩ n => some (.letTry (.bindAt ⟨none, x⟩ n) (.src s) rest)
  | .bindAtRef ⟨none, x⟩ m y => some (.letTry (.bindAtRef ⟨none, x⟩ m y) (.src s) rest)
  | .irref n => some (.letTry (.irref n) (.src s) rest)
  | .refut _ => none

/-- `check_let_some_else_return_none`, `/repo/clippy_lints/src/question_mark.rs:119-204`. -/
def checkLetElse (fa : Facts) (p : Pat) (s : Src) (e rest : Body) : Option Edit :=
  if decide (kindOf fa s = .option) && elseRet e then
    match p with
    | .ctor .some q => letEdit s rest q
    | _ => none
  else none

/-- All of them, `/repo/clippy_lints/src/question_mark.rs:633-670`. -/
def check (fa : Facts) : Code → Option Edit
  | .ifIs s m t e => checkIs fa s m t e
  | .ifLet p s t e => checkIfLet fa p s t e
  | .mtch s a b => checkMatch fa s a b
  | .letElse p s e rest => checkLetElse fa p s e rest

end Verif.TryOp
