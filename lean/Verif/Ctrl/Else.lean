import Verif.Ctrl.Syntax

/-!
# Model: the lint about redundant `else`

`/repo/clippy_lints/src/redundant_else.rs`.
-/

namespace Verif.Ctrl.Else
open Verif.Ctrl

section
variable (never : Expr → Bool)

mutual

/-- `is_never_root`, `/repo/clippy_lints/src/redundant_else.rs:137-158`: an expression that has no
value as seen from its form or its type.  A block with a label counts as left by `break`. -/
def neverE : Expr → Bool
  | .brk _ _ _ => true
  | .cont _ _ => true
  | .ret _ => true
  | .block none b => (neverS b).getD (never (.block none b))
  | .block (some l) b => never (.block (some l) b)
  | .mtch _ arms => neverA arms
  | .ite _ t e => neverE t && neverE e
  | .prim n us as => never (.prim n us as)
  | .lzy i a b => never (.lzy i a b)
  | .lp l t b => never (.lp l t b)
  | .whl l t c b => never (.whl l t c b)
  | .var x => never (.var x)
  | .forE _ _ _ _ _ _ => false
  | .assign _ _ _ => false
  | .ifn _ _ => false

/-- All arms. -/
def neverA : Arms → Bool
  | .nil => true
  | .arm _ _ body rest => neverE body && neverA rest
  | .armIf _ _ _ body rest => neverE body && neverA rest

/-- The expression at the end of a block, if there is one. -/
def neverS : Stmts → Option Bool
  | .done => none
  | .tail e => some (neverE e)
  | .semi _ r => neverS r
  | .expr _ r => neverS r
  | .letS _ _ _ r => neverS r
  | .letElse _ _ _ _ r => neverS r
  | .item _ _ r => neverS r

end
end

/-- No statements. -/
def isDone : Stmts → Bool
  | .done => true
  | _ => false

section
variable (here : Expr → Bool)

mutual

/-- `is_never_mac`, `/repo/clippy_lints/src/redundant_else.rs:160-193`: the same in code from a
macro, where types are not asked for and everything must be written `here`. -/
def macE : Expr → Bool
  | .brk _ _ _ => true
  | .cont _ _ => true
  | .ret _ => true
  | .block none b => here (.block none b) && macS b
  | .mtch _ arms => macA arms
  | .ite _ t e => here t && here e && macE t && macE e
  | .block (some _) _ => false
  | .prim _ _ _ => false
  | .lzy _ _ _ => false
  | .lp _ _ _ => false
  | .whl _ _ _ _ => false
  | .var _ => false
  | .forE _ _ _ _ _ _ => false
  | .assign _ _ _ => false
  | .ifn _ _ => false

/-- All arms. -/
def macA : Arms → Bool
  | .nil => true
  | .arm _ _ body rest => here body && macE body && macA rest
  | .armIf _ _ _ body rest => here body && macE body && macA rest

/-- The expression at the end of a block, or that of its last statement. -/
def macS : Stmts → Bool
  | .done => false
  | .tail e => here e && macE e
  | .semi e r => if isDone r then here e && macE e else macS r
  | .expr e r => if isDone r then here e && macE e else macS r
  | .letS _ _ _ r => macS r
  | .letElse _ _ _ _ r => macS r
  | .item _ _ r => macS r

end
end

/-- `is_never`, `/repo/clippy_lints/src/redundant_else.rs:129-135`. -/
def isNever (never here : Expr → Bool) (root : Bool) (e : Expr) : Bool :=
  if root then neverE never e else macE here e

/-- The statements of a block; that of an `else` has no label. -/
def asBlock : Expr → Option Stmts
  | .block none b => some b
  | _ => none

/-- The loop of `check`, `/repo/clippy_lints/src/redundant_else.rs:65-81`: the chain without its
last `else`, and the statements of that block. -/
def peel (isNever here : Expr → Bool) : Expr → Option (Expr × Stmts)
  | .ite c t e =>
    if isNever t && here t && here e then
      match asBlock e with
      | some b => some (.ifn c t, b)
      | none => (peel isNever here e).map fun r => (.ite c t r.1, r.2)
    else none
  | _ => none

/-- `expr_needs_semi`, `/repo/clippy_lints/src/redundant_else.rs:113-127`; `here` as above. -/
def needsSemi (here : Expr → Bool) : Expr → Bool
  | .ite c t e => !here (.ite c t e)
  | .ifn c t => !here (.ifn c t)
  | .mtch e as => !here (.mtch e as)
  | .block l b => !here (.block l b)
  | .lp l t b => !here (.lp l t b)
  | .whl l t c b => !here (.whl l t c b)
  | .forE l t p xs it b => !here (.forE l t p xs it b)
  | _ => true

/-- The text of the block before the statements that follow, with a semicolon where `semi` says,
`/repo/clippy_lints/src/redundant_else.rs:95-98`. -/
def pour (semi : Expr → Bool) : Stmts → Stmts → Stmts
  | .done, r => r
  | .tail x, r => if semi x then .semi x r else .expr x r
  | .semi e b, r => .semi e (pour semi b r)
  | .expr e b, r => .expr e (pour semi b r)
  | .letS p xs e b, r => .letS p xs e (pour semi b r)
  | .letElse p xs e els b, r => .letElse p xs e els (pour semi b r)
  | .item x n b, r => .item x n (pour semi b r)

/-- The block with the `else` of the statement number `i` moved out:
`check_block_post`, `check_stmt` and `check`, `/repo/clippy_lints/src/redundant_else.rs:51-111`.
A statement with a semicolon keeps it after what was the block. -/
def liftAt (isNever here : Expr → Bool) : Stmts → Nat → Option Stmts
  | .tail e, 0 => (peel isNever here e).map fun r => .expr r.1 r.2
  | .expr e q, 0 => (peel isNever here e).map fun r => .expr r.1 (pour (needsSemi here) r.2 q)
  | .semi e q, 0 => (peel isNever here e).map fun r => .expr r.1 (pour (fun _ => true) r.2 q)
  | .semi e q, i + 1 => (liftAt isNever here q i).map (.semi e)
  | .expr e q, i + 1 => (liftAt isNever here q i).map (.expr e)
  | .letS p xs e q, i + 1 => (liftAt isNever here q i).map (.letS p xs e)
  | .letElse p xs e els q, i + 1 => (liftAt isNever here q i).map (.letElse p xs e els)
  | .item x n q, i + 1 => (liftAt isNever here q i).map (.item x n)
  | _, _ => none

/-- No statement is a `let`. -/
def noLet : Stmts → Bool
  | .done => true
  | .tail _ => true
  | .semi _ r => noLet r
  | .expr _ r => noLet r
  | .letS _ _ _ _ => false
  | .letElse _ _ _ _ _ => false
  | .item _ _ r => noLet r

/-- The change is offered as applicable by machine,
`/repo/clippy_lints/src/redundant_else.rs:103-107`. -/
def machine (root : Bool) (b : Stmts) : Bool := root && noLet b

end Verif.Ctrl.Else
