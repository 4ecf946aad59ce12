import Verif.Ctrl.Syntax

/-!
# Model: the lint about needless `return`

`/repo/clippy_lints/src/returns/needless_return.rs`.  Every report is one edit of the body of a
function; the model lists the bodies after these edits.
-/

namespace Verif.Ctrl.Return
open Verif.Ctrl

/-- `RetReplacement`, `/repo/clippy_lints/src/returns/needless_return.rs:20-27`, for a `return`
without a value: nothing, `{}` or `()`. -/
inductive Repl where
  | empty
  | block
  | unit

/-- What is written instead, `/repo/clippy_lints/src/returns/needless_return.rs:47-57`. -/
def Repl.text : Repl → Option Expr
  | .empty => none
  | .block => some Expr.unit
  | .unit => some Expr.unit

/-- No statements are left. -/
def isDone : Stmts → Bool
  | .done => true
  | _ => false

/-- A statement without a semicolon; at the end of a block it is read as the value. -/
def exprS (e : Expr) (r : Stmts) : Stmts := if isDone r then .tail e else .expr e r

/-- The end of a block: the edited expression, without its semicolon. -/
def ending : Option Expr → Stmts
  | some e => .tail e
  | none => .done

section
variable (ok cfgAfter isTuple : Expr → Bool)

mutual

/-- `check_final_expr`, `/repo/clippy_lints/src/returns/needless_return.rs:116-234`: the edits of an
expression in final position, `none` where nothing is left.  `ok` stands for the tests on
temporaries, macros and attributes (lines 136-142 and 170-202), `isTuple` for the type of a
`match`.  A `return` has at most one operand. -/
def finalE (repl : Repl) (mt : Option Bool) : Expr → List (Option Expr)
  | .ret .nil =>
    if ok (.ret .nil) then
      match mt with
      | some true => [Repl.unit.text]
      | some false => []
      | none => [repl.text]
    else []
  | .ret (.cons e .nil) => if ok (.ret (.cons e .nil)) then [some e] else []
  | .ret (.cons _ (.cons _ _)) => []
  | .ite c t e =>
    (blockE t).map (fun t' => some (.ite c t' e)) ++
      (finalE .empty mt e).filterMap fun e' => e'.map fun e' => some (.ite c t e')
  | .ifn c t => (blockE t).map fun t' => some (.ifn c t')
  | .mtch e arms => (finalA (isTuple (.mtch e arms)) arms).map fun arms' => some (.mtch e arms')
  | .block l b => (blockS b).map fun b' => some (.block l b')
  | .var _ => []
  | .prim _ _ _ => []
  | .assign _ _ _ => []
  | .lzy _ _ _ => []
  | .lp _ _ _ => []
  | .whl _ _ _ _ => []
  | .forE _ _ _ _ _ _ => []
  | .cont _ _ => []
  | .brk _ _ _ => []

/-- The arms of a `match`, `/repo/clippy_lints/src/returns/needless_return.rs:221-230`. -/
def finalA (tuple : Bool) : Arms → List Arms
  | .nil => []
  | .arm p xs body rest =>
    ((finalE .unit (some tuple) body).filterMap fun b => b.map fun b => .arm p xs b rest) ++
      (finalA tuple rest).map fun r => .arm p xs body r
  | .armIf p xs g body rest =>
    ((finalE .unit (some tuple) body).filterMap fun b => b.map fun b => .armIf p xs g b rest) ++
      (finalA tuple rest).map fun r => .armIf p xs g body r

/-- `check_block_return`, `/repo/clippy_lints/src/returns/needless_return.rs:81-82`: only a block. -/
def blockE : Expr → List Expr
  | .block l b => (blockS b).map fun b' => .block l b'
  | _ => []

/-- `check_block_return`, `/repo/clippy_lints/src/returns/needless_return.rs:83-113`: the value of
the block or its last statement, whose semicolon goes.  `cfgAfter` says whether something behind
a `cfg` follows it. -/
def blockS : Stmts → List Stmts
  | .done => []
  | .tail e => (finalE .empty none e).map ending
  | .semi e r =>
    if isDone r then
      if cfgAfter e then [] else (finalE .empty none e).map ending
    else (blockS r).map fun r' => .semi e r'
  | .expr e r =>
    if isDone r then
      if cfgAfter e then [] else (finalE .empty none e).map ending
    else (blockS r).map fun r' => exprS e r'
  | .letS p xs e r => (blockS r).map fun r' => .letS p xs e r'
  | .letElse p xs e els r => (blockS r).map fun r' => .letElse p xs e els r'
  | .item x n r => (blockS r).map fun r' => .item x n r'

end

/-- `check_fn` for a function, `/repo/clippy_lints/src/returns/needless_return.rs:75-77`. -/
def editsFn (b : Stmts) : List Stmts := blockS ok cfgAfter isTuple b

/-- A `return` without a value. -/
def isBareRet : Expr → Bool
  | .ret .nil => true
  | _ => false

/-- `check_fn` for a closure, `/repo/clippy_lints/src/returns/needless_return.rs:65-74`. -/
def editsClosure (e : Expr) : List (Option Expr) :=
  finalE ok cfgAfter isTuple (if isBareRet e then .block else .empty) none e

end

/-- The written form of an expression as far as its left end goes: the operand at its left end and
what follows it. -/
inductive Src where
  /-- A block, `if`, `match`, loop or `const` block. -/
  | blockLike
  /-- Any other operand, also one in parentheses. -/
  | other
  | binary (l : Src)
  | cast (l : Src)
  | method (l : Src)
  | field (l : Src)
  | quest (l : Src)
  | call (l : Src)
  | index (l : Src)
  | range (l : Src)
  | assign (l : Src)

/-- `contains_block`, `/repo/clippy_utils/src/lib.rs:3381-3387`. -/
def containsBlock : Src → Bool → Bool
  | .binary l, _ => containsBlock l true
  | .cast l, _ => containsBlock l true
  | .blockLike, operand => operand
  | _, _ => false

/-- `binary_expr_needs_parentheses`, `/repo/clippy_utils/src/lib.rs:3379-3390`. -/
def needsPar (e : Src) : Bool := containsBlock e false

/-- The text that takes the place of `return e`,
`/repo/clippy_lints/src/returns/needless_return.rs:146-150`: the parentheses make one operand of
it. -/
def written (e : Src) : Src := if needsPar e then .other else e

end Verif.Ctrl.Return
