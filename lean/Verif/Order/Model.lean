import Verif.Order.Syntax

/-! Model of `mixed_read_write_in_expression` (`clippy_lints/src/mixed_read_write_in_expression.rs`). The way from a write up to the function is
a list of what is beside it. Desugarings are left out. -/

namespace Verif.Order.Model

open Verif.Order

/-- `ReadVisitor` (`clippy_lints/src/mixed_read_write_in_expression.rs:322-369`) and `is_in_assignment_position` (`:372-379`): the reads of `x`
that are found. -/
def reads (x : Nat) : Code → List Nat
  | .read r y => if y = x then [r] else []
  | .closure _ _ => []
  | .addr _ => []
  | .lit _ | .nil => []
  | .assign _ _ e => reads x e
  | .assignOp r _ y e => (if y = x then [r] else []) ++ reads x e
  | .op _ args => reads x args
  | .seq a b | .while_ a b | .letElse a b | .cons a b => reads x a ++ reads x b
  | .ite a b c => reads x a ++ reads x b ++ reads x c

/-- One step on the way up: the parents that `check_for_unsequenced_reads` tells apart
(`clippy_lints/src/mixed_read_write_in_expression.rs:222-230`, `:253-289`). -/
inductive Frame
  /-- An operand, with the operands to the left and to the right. -/
  | operand (left right : Code)
  | closure
  /-- The `else` of a `let`, with the initialiser. -/
  | els (init : Code)
  | other

/-- `check_expr` for an expression that isn't the last one (`clippy_lints/src/mixed_read_write_in_expression.rs:253-293`); `none` is
`StopEarly::Stop`. -/
def checkExpr (x : Nat) : Code → Option (List Nat)
  | .op _ args => some (reads x args)
  | .assign _ _ e => some (reads x e)
  | .assignOp r _ y e => some ((if y = x then [r] else []) ++ reads x e)
  | .closure _ _ => none
  | _ => some []

/-- `check_for_unsequenced_reads` (`clippy_lints/src/mixed_read_write_in_expression.rs:214-238`), with `check_expr` for the parents (`:248-294`),
whose operands other than the last expression are visited, and `check_stmt` (`:296-307`), which calls it for the initialiser of a `let`. -/
def unsequenced (x : Nat) : List Frame → List Nat
  | [] => []
  | .operand l r :: fs => reads x l ++ reads x r ++ unsequenced x fs
  | .closure :: _ => []
  | .els init :: fs =>
    match checkExpr x init with
    | none => []
    | some rs => rs ++ unsequenced x fs
  | .other :: fs => unsequenced x fs

/-- An operand more before the one that is walked to (`clippy_lints/src/mixed_read_write_in_expression.rs:263`, the other operands). -/
def snoc : Code → Code → Code
  | .cons e es, d => .cons e (snoc es d)
  | _, d => .cons d .nil

/-- `check_expr` of the pass for all writes (`clippy_lints/src/mixed_read_write_in_expression.rs:88-105`): the reads with the writes. `left` are
the operands before. -/
def reports (fs : List Frame) (left : Code) : Code → List (Nat × Nat)
  | .lit _ | .nil | .read _ _ => []
  | .assign w x e => (unsequenced x fs).map (·, w) ++ reports (.operand .nil .nil :: fs) .nil e
  | .assignOp r w x e => (unsequenced x fs).map (·, w) ++ reports (.operand (.read r x) .nil :: fs) .nil e
  | .op _ args => reports fs .nil args
  | .cons e es => reports (.operand left es :: fs) .nil e ++ reports fs (snoc left e) es
  | .seq a b | .while_ a b => reports (.other :: fs) .nil a ++ reports (.other :: fs) .nil b
  | .ite a b c => reports (.other :: fs) .nil a ++ reports (.other :: fs) .nil b ++ reports (.other :: fs) .nil c
  | .addr e => reports (.other :: fs) .nil e
  | .closure _ b => reports (.closure :: fs) .nil b
  | .letElse i e => reports (.other :: fs) .nil i ++ reports (.els i :: fs) .nil e

/-- The reports for a body (`clippy_lints/src/mixed_read_write_in_expression.rs:87-105`). -/
def check (body : Code) : List (Nat × Nat) := reports [] .nil body

end Verif.Order.Model
