/-!
# Expressions with control flow

The part of the compiler's tree that the lints about control flow look at.  Everything the lints
treat alike is one form here: a call, a tuple, a cast, a field, an index and so on are all
`prim`, which evaluates its operands from left to right.  Loops and labelled blocks carry the
number the compiler gave them, and `break` and `continue` carry the number of what they leave.
-/

namespace Verif.Ctrl

/-- The name of a variable, an item or a label. -/
abbrev Name := Nat

/-- The number of a loop or of a labelled block (`HirId`). -/
abbrev Id := Nat

mutual

/-- Expressions: the arms of `never_loop_expr`,
`/repo/clippy_lints/src/loops/never_loop.rs:300-456`.  `while` and `for` are kept as they are
written; `higher::While` and `higher::ForLoop` recover them in the code. -/
inductive Expr where
  /-- A variable or a constant. -/
  | var (x : Name)
  /-- An operation on the values of its operands; `uses` are the variables it mentions. -/
  | prim (n : Nat) (uses : List Name) (args : Exprs)
  /-- `l = r`: the right side is evaluated first. -/
  | assign (n : Nat) (l r : Expr)
  /-- `a && b` or `a || b`. -/
  | lzy (isAnd : Bool) (a b : Expr)
  | ite (c : Cond) (t e : Expr)
  | ifn (c : Cond) (t : Expr)
  | mtch (e : Expr) (arms : Arms)
  /-- A block.  The label is there when some `break` in the block names it. -/
  | block (lab : Option (Name × Id)) (b : Stmts)
  | lp (lab : Option Name) (id : Id) (b : Stmts)
  | whl (lab : Option Name) (id : Id) (c : Cond) (b : Stmts)
  | forE (lab : Option Name) (id : Id) (p : Nat) (xs : List Name) (it : Expr) (b : Stmts)
  | cont (lab : Option Name) (t : Id)
  | brk (lab : Option Name) (t : Id) (e : Exprs)
  | ret (e : Exprs)

/-- Conditions of `if` and `while`, and guards: plain ones, `let p = e`, `let Some(p) = e.next()`
and chains. -/
inductive Cond where
  | test (e : Expr)
  | letP (p : Nat) (xs : List Name) (e : Expr)
  | nextP (p : Nat) (xs : List Name) (e : Expr)
  | and (a b : Cond)

/-- Operands. -/
inductive Exprs where
  | nil
  | cons (e : Expr) (es : Exprs)

/-- The arms of a `match`. -/
inductive Arms where
  | nil
  | arm (p : Nat) (xs : List Name) (body : Expr) (rest : Arms)
  | armIf (p : Nat) (xs : List Name) (guard : Cond) (body : Expr) (rest : Arms)

/-- The statements of a block with its tail, the arms of `stmt_to_expr`,
`/repo/clippy_lints/src/loops/never_loop.rs:243-250`. -/
inductive Stmts where
  | done
  | tail (e : Expr)
  /-- `e;` -/
  | semi (e : Expr) (r : Stmts)
  /-- `e` without a semicolon, not last. -/
  | expr (e : Expr) (r : Stmts)
  | letS (p : Nat) (xs : List Name) (e : Expr) (r : Stmts)
  | letElse (p : Nat) (xs : List Name) (e : Expr) (els : Stmts) (r : Stmts)
  /-- A function or a constant declared in the block. -/
  | item (x : Name) (n : Nat) (r : Stmts)

end

/-- The value `()`. -/
def Expr.unit : Expr := .block none .done

end Verif.Ctrl
