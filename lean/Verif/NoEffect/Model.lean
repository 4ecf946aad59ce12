import Verif.NoEffect.Spec

/-! Model of `clippy_lints/src/no_effect.rs`. Code from macros is left out. -/

namespace Verif.NoEffect.Model

open Verif.NoEffect

/-- `is_operator_overridden` (`clippy_lints/src/no_effect.rs:206-222`). -/
def isOperatorOverridden : Expr → Bool
  | .node (.binary _) over _ _ | .node (.unary _) over _ _ => over
  | _ => false

/-- `has_no_effect` (`clippy_lints/src/no_effect.rs:230-271`), of an expression or of all of a list. -/
def hasNoEffect : Expr → Bool
  | .lit _ | .closure _ _ => true
  | .var _ drops => !drops
  | .node (.adt _ _ sig) _ _ args | .node (.ctor _ _ sig) _ _ args | .node (.range sig) _ _ args => !sig && hasNoEffect args
  | .node (.call _ _) _ _ _ => false
  | .node .index _ _ args | .node (.binary _) _ _ args | .node (.unary _) _ _ args | .node (.field _) _ _ args | .node .addr _ _ args
  | .node .ascribe _ _ args | .node (.cast _ _) _ _ args | .node .array _ _ args | .node .tup _ _ args | .node .rep _ _ args =>
    hasNoEffect args
  | .andOr _ a b => hasNoEffect a && hasNoEffect b
  | .block _ _ => false
  | .nil => true
  | .cons e es => hasNoEffect e && hasNoEffect es

/-- `peel_blocks` (`clippy_utils/src/lib.rs:1236-1250`). -/
def peelBlocks : Expr → Expr
  | .block .plain e => peelBlocks e
  | e => e

mutual
/-- `reduce_expression` (`clippy_lints/src/no_effect.rs:333-402`). -/
def reduce : Expr → Option (List Expr)
  | .node .index _ _ args | .node (.binary _) _ _ args | .node .array _ _ args | .node .tup _ _ args => some args.toList
  | .node (.adt _ own _) _ _ args | .node (.ctor _ own _) _ _ args => if own then none else some args.toList
  | .node (.range _) _ _ _ => none
  | .node .rep _ never args | .node .ascribe _ never args | .node (.unary _) _ never args | .node (.field _) _ never args
  | .node .addr _ never args => if never then none else reduceInner args
  | .node (.cast _ certain) _ _ args => if certain then reduceInner args else none
  | .node (.call _ _) _ _ _ => none
  | .block .plain e => some [e]
  | .block .compiler e => reduce e
  | .block .user _ => none
  | .lit _ | .var _ _ | .closure _ _ | .andOr _ _ _ | .nil | .cons _ _ => none
/-- The operand, reduced if possible (`clippy_lints/src/no_effect.rs:351`, `:354`). -/
def reduceInner : Expr → Option (List Expr)
  | .cons e _ =>
    match reduce e with
    | some es => some es
    | none => some [e]
  | .lit _ | .var _ _ | .closure _ _ | .andOr _ _ _ | .nil | .node _ _ _ _ | .block _ _ => none
end

/-- What a statement is reported for (`clippy_lints/src/no_effect.rs:140-145`, `:290-301`, `:314-327`). -/
inductive Report
  | noEffect
  | assertLen (a b : Expr)
  | reduced (es : List Expr)
deriving DecidableEq, Repr

/-- `check_unnecessary_operation` (`clippy_lints/src/no_effect.rs:273-331`). -/
def checkUnnecessary (e : Expr) : Option Report :=
  match reduce e with
  | none => none
  | some es =>
    match e, es with
    | .node .index _ _ _, [a, b] => some (.assertLen a b)
    | .node .index _ _ _, _ => none
    | _, es => some (.reduced es)

/-- `check_stmt` with `check_no_effect` for `e;` (`clippy_lints/src/no_effect.rs:89-94`, `:122-182`). -/
def checkStmt (e : Expr) : Option Report :=
  match e with
  | .var _ _ => none
  | _ =>
    if isOperatorOverridden (peelBlocks e) then none
    else if hasNoEffect (peelBlocks e) then some .noEffect
    else checkUnnecessary e

end Verif.NoEffect.Model
