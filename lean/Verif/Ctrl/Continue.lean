import Verif.Ctrl.Syntax

/-!
# Model: the lint about needless `continue`

`/repo/clippy_lints/src/needless_continue.rs`.  The lint shows code in its help; the functions
here build what that code is.
-/

namespace Verif.Ctrl.Continue
open Verif.Ctrl

/-- `compare_labels`, `/repo/clippy_lints/src/needless_continue.rs:217-227`. -/
def compareLabels : Option Name → Option Name → Bool
  | _, none => true
  | none, some _ => false
  | some x, some y => x == y

/-- `is_first_block_stmt_continue`, `/repo/clippy_lints/src/needless_continue.rs:204-215`.  The
first statement must end in a semicolon or be followed by others. -/
def firstContinue (lab : Option Name) : Stmts → Bool
  | .semi (.cont l _) _ => compareLabels lab l
  | .expr (.cont l _) _ => compareLabels lab l
  | _ => false

/-- `needless_continue_in_else`, `/repo/clippy_lints/src/needless_continue.rs:196-202`. -/
def continueInElse (lab : Option Name) : Expr → Bool
  | .block _ b => firstContinue lab b
  | .cont l _ => compareLabels lab l
  | _ => false

/-- `has_let_expr`, `/repo/clippy_utils/src/higher.rs:621-627`. -/
def hasLet : Cond → Bool
  | .test _ => false
  | .letP _ _ _ => true
  | .nextP _ _ _ => true
  | .and a b => hasLet a || hasLet b

/-- Expressions that need no semicolon to be a statement. -/
def blockLike : Expr → Bool
  | .ite _ _ _ => true
  | .ifn _ _ => true
  | .mtch _ _ => true
  | .block _ _ => true
  | .lp _ _ _ => true
  | .whl _ _ _ _ => true
  | .forE _ _ _ _ _ _ => true
  | _ => false

/-- The text of statements followed by the text of others: when the first ones end in an
expression without semicolon, the result may be no program. -/
def paste : Stmts → Stmts → Option Stmts
  | .done, r => some r
  | .tail e, .done => some (.tail e)
  | .tail e, r => if blockLike e then some (.expr e r) else none
  | .semi e b, r => (paste b r).map (.semi e)
  | .expr e b, r => (paste b r).map (.expr e)
  | .letS p xs e b, r => (paste b r).map (.letS p xs e)
  | .letElse p xs e els b, r => (paste b r).map (.letElse p xs e els)
  | .item x n b, r => (paste b r).map (.item x n)

/-- The code shown for an `if` followed by the statements `r`: the statements move into the first
branch when the other one is a `continue` (`suggestion_snippet_for_continue_inside_else`,
`/repo/clippy_lints/src/needless_continue.rs:365-418`), and the `else` goes when the first branch
is a `continue` (`suggestion_snippet_for_continue_inside_if`,
`/repo/clippy_lints/src/needless_continue.rs:344-363`).  `none` without a report, `some none` when
the code shown is no program. -/
def fixIf (lab : Option Name) : Expr → Stmts → Option (Option Stmts)
  | .ite c (.block none b) e, r =>
    if hasLet c then none
    else if continueInElse lab e then
      some ((paste b r).map fun b' => .tail (.ifn c (.block none b')))
    else if firstContinue lab b then some (some (.expr (.ifn c (.block none b)) (.expr e r)))
    else none
  | _, _ => none

/-- The same for an `if` at the end of the block without semicolon: nothing follows. -/
def fixTail (lab : Option Name) : Expr → Option (Option Stmts)
  | .ite c (.block none b) e =>
    if hasLet c then none
    else if continueInElse lab e then some (some (.tail (.ifn c (.block none b))))
    else if firstContinue lab b then some (some (.expr (.ifn c (.block none b)) (.tail e)))
    else none
  | _ => none

/-- Every statement of the loop block in turn: `check_and_warn`,
`/repo/clippy_lints/src/needless_continue.rs:484-543`. -/
def fixAt (lab : Option Name) : Stmts → Nat → Option (Option Stmts)
  | .semi e r, 0 => fixIf lab e r
  | .expr e r, 0 => fixIf lab e r
  | .tail e, 0 => fixTail lab e
  | .semi e r, i + 1 => (fixAt lab r i).map fun o => o.map (.semi e)
  | .expr e r, i + 1 => (fixAt lab r i).map fun o => o.map (.expr e)
  | .letS p xs e r, i + 1 => (fixAt lab r i).map fun o => o.map (.letS p xs e)
  | .letElse p xs e els r, i + 1 => (fixAt lab r i).map fun o => o.map (.letElse p xs e els)
  | .item x n r, i + 1 => (fixAt lab r i).map fun o => o.map (.item x n)
  | _, _ => none

/-- The last statement of the block, or its tail, was reported already,
`/repo/clippy_lints/src/needless_continue.rs:485-513`,
`/repo/clippy_lints/src/needless_continue.rs:517-547`. -/
def lastReported (lab : Option Name) : Stmts → Bool
  | .semi e .done => (fixIf lab e .done).isSome
  | .expr e .done => (fixIf lab e .done).isSome
  | .tail e => (fixTail lab e).isSome
  | .semi _ r => lastReported lab r
  | .expr _ r => lastReported lab r
  | .letS _ _ _ r => lastReported lab r
  | .letElse _ _ _ _ r => lastReported lab r
  | .item _ _ r => lastReported lab r
  | .done => false

/-- No statements. -/
def isDone : Stmts → Bool
  | .done => true
  | _ => false

section
variable (unitTy : Expr → Bool) (lab : Option Name) (sel : List Nat → Bool)

mutual

/-- `check_last_stmt_in_expr`, `/repo/clippy_lints/src/needless_continue.rs:420-448`: the
`continue`s that are reported, of which those that `sel` chooses are dropped.  A `match` counts
only when its type is `()` or `!`. -/
def dropE (path : List Nat) : Expr → Expr
  | .cont l t => if compareLabels lab l && sel path then .unit else .cont l t
  | .ite c (.block l b) e => .ite c (.block l (dropS (0 :: path) b)) (dropE (1 :: path) e)
  | .ifn c (.block l b) => .ifn c (.block l (dropS (0 :: path) b))
  | .mtch e arms => if unitTy (.mtch e arms) then .mtch e (dropA (0 :: path) arms) else .mtch e arms
  | .block l b => .block l (dropS (0 :: path) b)
  | e => e

/-- All arms. -/
def dropA (path : List Nat) : Arms → Arms
  | .nil => .nil
  | .arm p xs body rest => .arm p xs (dropE (0 :: path) body) (dropA (1 :: path) rest)
  | .armIf p xs g body rest => .armIf p xs g (dropE (0 :: path) body) (dropA (1 :: path) rest)

/-- `check_last_stmt_in_block`, `/repo/clippy_lints/src/needless_continue.rs:450-464`. -/
def dropS (path : List Nat) : Stmts → Stmts
  | .done => .done
  | .tail e => .tail (dropE (2 :: path) e)
  | .semi e r => if isDone r then .semi (dropE (2 :: path) e) r else .semi e (dropS path r)
  | .expr e r => if isDone r then .expr (dropE (2 :: path) e) r else .expr e (dropS path r)
  | .letS p xs e r => .letS p xs e (dropS path r)
  | .letElse p xs e els r => .letElse p xs e els (dropS path r)
  | .item x n r => .item x n (dropS path r)

end
end

/-- `with_loop_block`, `/repo/clippy_lints/src/needless_continue.rs:229-259`: the label and the
block of a loop, and the loop with another block.  A `while` with a chain of `let`s is no
`WhileLet`. -/
def loopBlock : Expr → Option (Option Name × Stmts × (Stmts → Expr))
  | .lp lab t b => some (lab, b, .lp lab t)
  | .whl lab t c b =>
    match c with
    | .and a d => if hasLet (.and a d) then none else some (lab, b, .whl lab t (.and a d))
    | c => some (lab, b, .whl lab t c)
  | .forE lab t p xs it b => some (lab, b, .forE lab t p xs it)
  | _ => none

/-- The loop without some of the `continue`s that are reported as redundant. -/
def dropContinues (unitTy : Expr → Bool) (sel : List Nat → Bool) (e : Expr) : Expr :=
  match loopBlock e with
  | some (lab, b, f) => if lastReported lab b then e else f (dropS unitTy lab sel [] b)
  | none => e

/-- The loop with the code shown for its statement number `i`. -/
def rearranged (e : Expr) (i : Nat) : Option (Option Expr) :=
  match loopBlock e with
  | some (lab, b, f) => (fixAt lab b i).map fun o => o.map f
  | none => none

/-- `erode_from_back`, `/repo/clippy_lints/src/needless_continue.rs:569-580`: the text up to the
last `}` goes, and the whitespace before it. -/
def erode (ws : Char → Bool) (s : List Char) : List Char :=
  let rest := (s.reverse.dropWhile (· != '}')).drop 1
  let ret := (rest.dropWhile ws).reverse
  if ret.isEmpty then s else ret

end Verif.Ctrl.Continue
