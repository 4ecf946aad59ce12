import Verif.Fold.Syntax

/-!
# Model: `unnecessary_fold`

`clippy_lints/src/methods/unnecessary_fold.rs`.  Not modelled: types (`needs_turbofish`), macros.  A path
resolves to the innermost variable with its name.
-/

namespace Verif.Fold

/-- `peel_blocks` (clippy_utils/src/lib.rs:1236-1250). -/
def peelBlocks : Expr → Expr
  | .block e => peelBlocks e
  | e => e

/-- `get_triggered_expr_span` (clippy_lints/src/methods/unnecessary_fold.rs:96-116). -/
def triggered (l r : Expr) (acc item : Name) (hasArgs : Bool) : Option Expr :=
  if l = .var acc ∧ (hasArgs = true ∨ r = .var item) then some r
  else if r = .var acc ∧ (hasArgs = true ∨ l = .var item) then some l
  else none

/-- The operands of a body with the operator. -/
def operands (o : Op) : Expr → Option (Expr × Expr)
  | .bin o' a b => if o' = o then some (a, b) else none
  | _ => none

/-- `check_fold_with_op` (clippy_lints/src/methods/unnecessary_fold.rs:118-176): the name of the item and the
other operand. -/
def foldOp (f : Fun) (o : Op) (hasArgs : Bool) : Option (Name × Expr) :=
  match f with
  | .closure p q body =>
    match operands o (peelBlocks body), p.name, q.name with
    | some (l, r), some a, some x => (triggered l r a x hasArgs).map (x, ·)
    | _, _, _ => none
  | _ => none

/-- `check_fold_with_method` (clippy_lints/src/methods/unnecessary_fold.rs:178-214). -/
def foldMethod (f : Fun) (o : Op) : Bool := decide (f = .method o)

/-- `check_standard_fold` (clippy_lints/src/methods/unnecessary_fold.rs:237-290). -/
def standard (c : Call) : Option Sugg :=
  match c.init with
  | .bool false => (foldOp c.f .or true).map fun (x, b) => .any x b
  | .bool true => (foldOp c.f .and true).map fun (x, b) => .all x b
  | .num 0 => if (foldOp c.f .add false).isSome || foldMethod c.f .add then some .sum else none
  | .num 1 => if (foldOp c.f .mul false).isSome || foldMethod c.f .mul then some .product else none
  | _ => none

/-- The uses of the accumulator are replaced by the text of `init`
(clippy_lints/src/methods/unnecessary_fold.rs:353-384). -/
def replaceAcc (a : Name) (init : Expr) : Expr → Expr
  | .bool b => .bool b
  | .num n => .num n
  | .broken => .broken
  | .var x => if x = a then init else .var x
  | .short x => if x = a then .broken else .short x
  | .deref e => .deref (replaceAcc a init e)
  | .call e => .call (replaceAcc a init e)
  | .bin o l r => .bin o (replaceAcc a init l) (replaceAcc a init r)
  | .set x e => .set x (replaceAcc a init e)
  | .letIn x l r => .letIn x (replaceAcc a init l) (if x = a then r else replaceAcc a init r)
  | .block e => .block (replaceAcc a init e)

/-- (clippy_lints/src/methods/unnecessary_fold.rs:323-327) -/
def initOk (c : Call) : Bool :=
  match c.init with
  | .bool _ | .num _ => true
  | .var _ => c.copy && !c.param
  | _ => false

/-- (clippy_lints/src/methods/unnecessary_fold.rs:329-334) -/
def adapter : Recv → Option Adapter
  | .iter => some .asRef
  | .iterMut => some .asMut
  | .intoIter => some .none
  | .other => none

/-- The body without the accumulator; the parameter must not be `mut`
(clippy_lints/src/methods/unnecessary_fold.rs:345-384). -/
def newBody (p : Pat) (init body : Expr) : Option Expr :=
  match p.name with
  | some a => if p.isMut then none else some (replaceAcc a init body)
  | none => some body

/-- `check_option_fold` (clippy_lints/src/methods/unnecessary_fold.rs:314-396). -/
def option (c : Call) : Option Sugg :=
  if initOk c && c.isOption then
    match adapter c.recv, c.f with
    | some ad, .closure p q body => (newBody p c.init body).map fun b => .mapOr ad c.init q b
    | _, _ => none
  else none

/-- `check` (clippy_lints/src/methods/unnecessary_fold.rs:216-233). -/
def check (c : Call) : Option Sugg :=
  match standard c with
  | some s => some s
  | none => option c

end Verif.Fold
