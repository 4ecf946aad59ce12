import Verif.Needless.Syntax

/-!
# Model: `needless_match`

`/repo/clippy_lints/src/matches/needless_match.rs`.
-/

namespace Verif.Needless

mutual

/-- `pat_same_as_expr`, `/repo/clippy_lints/src/matches/needless_match.rs:157-206`.  Paths with the same
names are the same. -/
def patSame : Pat → Ex → Bool
  | .ctor c ps, .call c' es => c == c' && patSameL ps es
  | .bind r x, .var y => !r && x == y
  | .bind r x, .varPath y _ => !r && x == y
  | .bindAt r x _, .var y => !r && x == y
  | .bindAt r x _, .varPath y _ => !r && x == y
  | .path k, .path k' => k == k'
  | .lit l, .lit l' => l == l'
  | _, _ => false

/-- `same_non_ref_symbols`, `/repo/clippy_lints/src/matches/needless_match.rs:208-220`. -/
def patSameL : Pats → Exs → Bool
  | .nil, .nil => true
  | .cons p ps, .cons e es => patSame p e && patSameL ps es
  | _, _ => false

end

/-- `peel_blocks_with_stmt`, `/repo/clippy_utils/src/lib.rs:1262-1288`. -/
def peel : Ex → Ex
  | .blk e => peel e
  | .semi e => peel e
  | e => e

/-- What the compiler says. -/
structure Facts where
  /-- What is around the code. -/
  parents : List Parent
  /-- The types of the expressions. -/
  scrutTy : Nat → Ty
  /-- The expression may have side effects (`deny_side_effects`). -/
  effects : Nat → Bool
  /-- The guard may have side effects. -/
  guardEffects : Nat → Bool
  /-- The expression is an `Option`. -/
  isOption : Nat → Bool

/-- `eq_expr_value`, `/repo/clippy_utils/src/hir_utils.rs:1107-1109`. -/
def eqValue (fa : Facts) (n : Nat) : Ex → Bool
  | .scr m => n == m && !fa.effects n
  | _ => false

/-- `PatKind::Wild`. -/
def isWild : Pat → Bool
  | .wild => true
  | _ => false

/-- `expr_ty_matches_p_ty`, `/repo/clippy_lints/src/matches/needless_match.rs:122-155`. -/
def tyMatches (t : Ty) : List Parent → Bool
  | .letStmt u :: _ => u == t
  | .fn u :: _ => u == t
  | .block :: .expr _ :: ps => tyMatches t ps
  | .expr _ :: ps => tyMatches t ps
  | _ => false

/-- One arm in `check_all_arms`, `/repo/clippy_lints/src/matches/needless_match.rs:69-87`. -/
def armOk (fa : Facts) (n : Nat) (a : Arm) : Bool :=
  !(match a.guard with | some g => fa.guardEffects g | none => false) &&
  (if isWild a.pat then eqValue fa n (peel a.body) else patSame a.pat (peel a.body))

/-- `check_match`, `/repo/clippy_lints/src/matches/needless_match.rs:17-30`: whether the `match` is
replaced by what it matches on. -/
def checkMatch (fa : Facts) (n : Nat) (arms : List Arm) : Bool :=
  decide (arms.length > 1) && tyMatches (fa.scrutTy n) fa.parents && arms.all (armOk fa n)

/-- `ExprKind::Block`. -/
def isBlock : Ex → Bool
  | .blk _ => true
  | .semi _ => true
  | .stmts _ => true
  | _ => false

/-- `is_none_expr`, `/repo/clippy_utils/src/lib.rs:302-304`. -/
def isNone : Ex → Bool
  | .path k => k == noneK
  | _ => false

/-- The last `else`, `/repo/clippy_lints/src/matches/needless_match.rs:102-112`. -/
def elseOk (fa : Facts) (n : Nat) (e : Ex) : Bool :=
  if isBlock (peel e) then false
  else if fa.isOption n then isNone (peel e) || eqValue fa n (peel e)
  else eqValue fa n (peel e)

/-- The expression that is matched on. -/
def scrutOf : IfLet → Nat
  | .noElse _ n _ => n
  | .elseBlock _ n _ _ => n
  | .elseIf _ n _ _ => n

/-- `check_if_let_inner`, `/repo/clippy_lints/src/matches/needless_match.rs:91-118`.  The comparison of
the expressions allows side effects. -/
def chainOk (fa : Facts) : IfLet → Bool
  | .noElse _ _ _ => false
  | .elseBlock p n t e => patSame p (peel t) && elseOk fa n e
  | .elseIf p n t next => patSame p (peel t) && scrutOf next == n && chainOk fa next

/-- `check_if_let`, `/repo/clippy_lints/src/matches/needless_match.rs:51-67`. -/
def checkIfLet (fa : Facts) (elseClause : Bool) (c : IfLet) : Bool :=
  !elseClause && tyMatches (fa.scrutTy (scrutOf c)) fa.parents && chainOk fa c

end Verif.Needless
