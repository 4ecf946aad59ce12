import Verif.OptMatch.Syntax

/-!
# Model: `manual_map` and `manual_filter`

`/repo/clippy_lints/src/matches/manual_utils.rs`, `manual_map.rs` and `manual_filter.rs` next to it,
and `can_move_expr_to_closure`.
-/

namespace Verif.OptMatch
open Ctrl (Name Id Expr Exprs Cond Arms Stmts)

mutual

/-- `can_move_expr_to_closure`, `/repo/clippy_utils/src/lib.rs:925-1004`, with
`can_move_expr_to_closure_no_visit`, `:753-793`: `loops` are the loops around the expression.  Not
modelled: `yield`, inline assembly, fields of variables that may be moved partially, and the
captures. -/
def canMove (loops : List Id) : Expr → Bool
  | .var _ => true
  | .prim _ _ as => canMoveL loops as
  | .assign _ l r => canMove loops l && canMove loops r
  | .lzy _ a b => canMove loops a && canMove loops b
  | .ite c t e => canMoveC loops c && canMove loops t && canMove loops e
  | .ifn c t => canMoveC loops c && canMove loops t
  | .mtch e arms => canMove loops e && canMoveA loops arms
  | .block _ b => canMoveS loops b
  | .lp _ t b => canMoveS (t :: loops) b
  | .whl _ t c b => canMoveC (t :: loops) c && canMoveS (t :: loops) b
  | .forE _ t _ _ it b => canMove loops it && canMoveS (t :: loops) b
  | .cont _ t => loops.contains t
  | .brk _ t es => loops.contains t && canMoveL loops es
  | .ret _ => false

def canMoveC (loops : List Id) : Cond → Bool
  | .test e => canMove loops e
  | .letP _ _ e => canMove loops e
  | .nextP _ _ e => canMove loops e
  | .and a b => canMoveC loops a && canMoveC loops b

def canMoveL (loops : List Id) : Exprs → Bool
  | .nil => true
  | .cons e es => canMove loops e && canMoveL loops es

def canMoveA (loops : List Id) : Arms → Bool
  | .nil => true
  | .arm _ _ body rest => canMove loops body && canMoveA loops rest
  | .armIf _ _ g body rest => canMoveC loops g && canMove loops body && canMoveA loops rest

def canMoveS (loops : List Id) : Stmts → Bool
  | .done => true
  | .tail e => canMove loops e
  | .semi e r => canMove loops e && canMoveS loops r
  | .expr e r => canMove loops e && canMoveS loops r
  | .letS _ _ e r => canMove loops e && canMoveS loops r
  | .letElse _ _ e els r => canMove loops e && canMoveS loops els && canMoveS loops r
  | .item _ _ r => canMoveS loops r

end

/-- The same for what is wrapped by `Some`, or a condition. -/
def canMoveTest : Test → Bool
  | .arg (.plain e) => canMove [] e
  | .arg (.call f a _ _) => canMove [] f && canMove [] a
  | .cond c => canMoveC [] c

/-- `OptionPat`, `/repo/clippy_lints/src/matches/manual_utils.rs:199-209`. -/
inductive OptionPat where
  | wild
  | none
  | some (p : Pat) (refs : Nat)

/-- `try_parse_pattern`, `/repo/clippy_lints/src/matches/manual_utils.rs:239-263`. -/
def parsePat : Pat → Nat → Option OptionPat
  | .wild, _ => some .wild
  | .ref _ p, n => parsePat p (n + 1)
  | .none, _ => some .none
  | .some p, n => some (.some p n)
  | _, _ => none

/-- `is_none_arm_body`, `/repo/clippy_lints/src/matches/manual_utils.rs:266-268`, with `peel_blocks`,
`/repo/clippy_utils/src/lib.rs:1236-1250`. -/
def isNoneBody : Body → Bool
  | .none => true
  | .block false b => isNoneBody b
  | _ => false

/-- `peel_and_count_ty_refs`, `/repo/clippy_utils/src/ty/mod.rs:519-528`: the number of references. -/
def refCount : Ty → Nat
  | .ref _ t => refCount t + 1
  | _ => 0

/-- Whether all references are mutable; `unwrap_or(Mutability::Mut)`,
`/repo/clippy_lints/src/matches/manual_utils.rs:34`. -/
def refMut : Ty → Bool
  | .ref m t => m && refMut t
  | _ => true

/-- Whether it is an `Option` below all references,
`/repo/clippy_lints/src/matches/manual_utils.rs:36-39`. -/
def isOption : Ty → Bool
  | .ref _ t => isOption t
  | .opt _ => true
  | _ => false

/-- The larger of two mutabilities, if there is any. -/
def maxMut : Option Bool → Option Bool → Option Bool
  | some a, some b => some (a || b)
  | some a, none => some a
  | none, b => b

/-- `contains_explicit_ref_binding` of the compiler. -/
def explicitRef : Pat → Option Bool
  | .bind b _ => b.byRef
  | .bindAt b _ p => maxMut b.byRef (explicitRef p)
  | .ref _ p => explicitRef p
  | .some p => explicitRef p
  | .ok p => explicitRef p
  | .err p => explicitRef p
  | .pair p q => maxMut (explicitRef p) (explicitRef q)
  | .or p q => maxMut (explicitRef p) (explicitRef q)
  | .wild => none
  | .none => none
  | .someRest => none
  | .lit _ => none

/-- `SomeExpr`, `/repo/clippy_lints/src/matches/manual_utils.rs:211-215`. -/
structure SomeExpr where
  expr : Test
  needsUnsafe : Bool
  negated : Bool

/-- What the compiler, the configuration and the borrow checker say. -/
structure Facts where
  /-- The type of the result is `Option`. -/
  resultOpt : Bool
  /-- The wrapped expression is `()` and `option_map_unit_fn` is not allowed. -/
  unitLint : Bool
  /-- `expr_requires_coercion`. -/
  coercion : Bool
  /-- The captures are in conflict with the matched variable. -/
  conflict : Bool
  /-- `match_as_ref` is allowed. -/
  asRefAllowed : Bool
  /-- The `Option` below the references is `Copy`. -/
  copy : Bool

/-- Which of the two bodies is for `Some`: body, pattern, number of references, and whether the other
pattern is `_`; `/repo/clippy_lints/src/matches/manual_utils.rs:42-59`. -/
def pickArms (p : Option OptionPat) (b : Body) (q : Option OptionPat) (c : Body) :
    Option (Body × Pat × Nat × Bool) :=
  match p, q with
  | some .wild, some (.some r n) => if isNoneBody b then some (c, r, n, true) else none
  | some .none, some (.some r n) => if isNoneBody b then some (c, r, n, false) else none
  | some (.some r n), some .wild => if isNoneBody c then some (b, r, n, true) else none
  | some (.some r n), some .none => if isNoneBody c then some (b, r, n, false) else none
  | _, _ => none

/-- `PatKind::Or`. -/
def isOr : Pat → Bool
  | .or _ _ => true
  | _ => false

/-- `as_ref_str`, `/repo/clippy_lints/src/matches/manual_utils.rs:84-88`. -/
def adaptorOf : Option Bool → Adaptor
  | some true => .asMut
  | some false => .asRef
  | none => .asIs

/-- `binding_ref`, `/repo/clippy_lints/src/matches/manual_utils.rs:81-82`. -/
def bindingRef (ty : Ty) (p : Pat) (refs : Nat) : Option Bool :=
  match explicitRef p with
  | some m => some m
  | none => if refCount ty ≠ refs then some (refMut ty) else none

/-- `can_pass_as_func`, `/repo/clippy_lints/src/matches/manual_utils.rs:185-196`. -/
def passFunc (x : Name) : Test → Option Expr
  | .arg (.call f (.var y) adj uns) => if y = x ∧ ¬ adj ∧ ¬ uns then some f else none
  | _ => none

/-- `res_local_id`. -/
def localId : Test → Option Name
  | .arg (.plain (.var x)) => some x
  | _ => none

/-- `body_str`, `/repo/clippy_lints/src/matches/manual_utils.rs:129-159`.  A closure's body in an
`unsafe` block means the same. -/
def bodyStr (fa : Facts) (p : Pat) (e : SomeExpr) (wildNone : Bool) (br : Option Bool) : Option Fun :=
  match p with
  | .bind b x =>
    match (if e.needsUnsafe then none else passFunc x e.expr) with
    | some f => some (.func f)
    | none =>
      if localId e.expr = some x ∧ ¬ fa.asRefAllowed ∧ br.isSome then none
      else some (.closure (.bind ⟨none, b.byRef.isNone && b.mt⟩ x) e.negated e.expr)
  | p => if !wildNone && (explicitRef p).isNone then some (.closure p e.negated e.expr) else none

/-- `check_with`, `/repo/clippy_lints/src/matches/manual_utils.rs:20-172`, from the patterns on. -/
def checkWith (fa : Facts) (s : Scrut) (p : Pat) (b : Body) (q : Option Pat) (c : Body)
    (getSome : Pat → Body → Option SomeExpr) : Option Edit :=
  if !(isOption s.fullTy && fa.resultOpt) then none else
  match pickArms (parsePat p 0) b (match q with | some q => parsePat q 0 | none => some .wild) c with
  | none => none
  | some (body, r, refs, wildNone) =>
    if isOr r then none else
    match getSome r body with
    | none => none
    | some e =>
      if fa.unitLint || fa.coercion || !canMoveTest e.expr ||
          ((bindingRef s.fullTy r refs).isSome && fa.conflict) then none
      else (bodyStr fa r e wildNone (bindingRef s.fullTy r refs)).map fun fn =>
        { base := s.base, isPlace := s.isPlace, ty := s.ty,
          adaptor := adaptorOf (bindingRef s.fullTy r refs), fn := fn }

/-- `get_some_expr_internal`, `/repo/clippy_lints/src/matches/manual_map.rs:84-115`. -/
def getSomeExpr (uns : Bool) : Body → Option SomeExpr
  | .some a => some ⟨.arg a, uns, false⟩
  | .block u b => getSomeExpr (uns || u) b
  | _ => none

/-- `is_some_expr`, `/repo/clippy_lints/src/matches/manual_filter.rs:65-73`. -/
def isSomeVar (x : Name) : Body → Bool
  | .block _ (.some (.plain (.var y))) => y == x
  | _ => false

/-- `is_none_expr`, `/repo/clippy_lints/src/matches/manual_filter.rs:75-77`. -/
def isNoneBlock : Body → Bool
  | .block _ .none => true
  | _ => false

/-- `peels_blocks_incl_unsafe`, `/repo/clippy_lints/src/matches/manual_filter.rs:43-56`. -/
def peelBlock : Body → Body
  | .block _ b => b
  | b => b

/-- `contains_unsafe_block`, `/repo/clippy_utils/src/visitors.rs:552-573`; `unsafe` blocks inside of
operands are not modelled. -/
def containsUnsafe : Body → Bool
  | .block u b => u || containsUnsafe b
  | .ite _ t e => containsUnsafe t || containsUnsafe e
  | _ => false

/-- The variable of a binding. -/
def bindVar : Pat → Option Name
  | .bind _ x => some x
  | .bindAt _ x _ => some x
  | _ => none

/-- `get_cond_expr`, `/repo/clippy_lints/src/matches/manual_filter.rs:20-41`. -/
def getCondExpr (p : Pat) (b : Body) : Option SomeExpr :=
  match peelBlock b, bindVar p with
  | .ite c t e, some x =>
    if (isSomeVar x t && isNoneBlock e) || (isNoneBlock t && isSomeVar x e) then
      some ⟨c, containsUnsafe b, isNoneBlock t⟩
    else none
  | _, _ => none

/-- The two arms of the code, `/repo/clippy_lints/src/matches/manual_map.rs:11-34` and
`/repo/clippy_lints/src/matches/manual_filter.rs:157-190`. -/
def checkForm (fa : Facts) (s : Scrut) (getSome : Pat → Body → Option SomeExpr) : Form → Option Edit
  | .mtch [a, b] =>
    if a.guard.isNone && b.guard.isNone then
      checkWith fa s a.pat a.body (some b.pat) b.body getSome
    else none
  | .mtch _ => none
  | .ifLet p t e => checkWith fa s p t none e getSome

/-- `manual_map`: the argument of `map`. -/
def checkMap (fa : Facts) (s : Scrut) (f : Form) : Option Edit :=
  checkForm fa s (fun _ => getSomeExpr false) f

/-- The pattern `p` after `&`: the text `&mut x` is a pattern for mutable references. -/
def ampPat : Pat → Pat
  | .bind ⟨none, true⟩ x => .ref true (.bind .plain x)
  | .bindAt ⟨none, true⟩ x p => .ref true (.bindAt .plain x p)
  | p => .ref false p

/-- `add_ampersand_if_copy`, `/repo/clippy_lints/src/matches/manual_filter.rs:81-89`: the `&` is put
after the first character. -/
def addAmp (copy : Bool) (fn : Fun) : Fun :=
  if copy then
    match fn with
    | .closure p neg body => .closure (ampPat p) neg body
    | .func _ => .garbage
    | .garbage => .garbage
  else fn

/-- `manual_filter`: the argument of `filter`. -/
def checkFilter (fa : Facts) (s : Scrut) (f : Form) : Option Edit :=
  (checkForm fa s getCondExpr f).map fun d => { d with fn := addAmp fa.copy d.fn }

/-- `check_and_then_method`, `/repo/clippy_lints/src/matches/manual_filter.rs:95-155`: the closure
`|p| b` that is passed to `and_then`. -/
def checkAndThen (fa : Facts) (s : Scrut) (p : Pat) (b : Body) : Option Edit :=
  match s.fullTy with
  | .opt _ => (getCondExpr p b).map fun e =>
    { base := s.base, isPlace := s.isPlace, ty := s.ty, adaptor := .asIs,
      fn := .closure (if fa.copy then ampPat p else p) e.negated e.expr }
  | _ => none

end Verif.OptMatch
