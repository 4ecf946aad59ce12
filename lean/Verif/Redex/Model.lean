import Verif.Redex.Spec

/-!
# Model: redundant_closure_call.rs, unnecessary_literal_unwrap.rs, unnecessary_min_or_max.rs
-/

namespace Verif.Redex

/-- A suggested replacement and whether it is put into parentheses when it is not a single operand.
Messages, spans and macros are left out. -/
structure Hint where
  expr : E
  paren : Bool
  deriving DecidableEq, Repr

/-- `contains_early_return` — redundant_closure_call.rs:45-61: the bodies of inner closures are not
visited. -/
def hasReturn : E → Bool
  | .ret _ => true
  | .bin _ a b => hasReturn a || hasReturn b
  | .seq a b => hasReturn a || hasReturn b
  | .meth _ a b => hasReturn a || hasReturn b
  | .app1 a b => hasReturn a || hasReturn b
  | .min a b => hasReturn a || hasReturn b
  | .max a b => hasReturn a || hasReturn b
  | .block e => hasReturn e
  | .wrap _ e => hasReturn e
  | .app0 e => hasReturn e
  | .panic e => hasReturn e
  | _ => false

/-- `find_innermost_closure` — redundant_closure_call.rs:83-132: the body of the last closure that was
entered, and whether that closure has parameters. Async closures are left out. -/
def innermost : E → Nat → Option (E × Bool)
  | .lam0 b, n + 1 => if hasReturn b then none else some ((innermost b n).getD (b, false))
  | .lam1 _ b, n + 1 => if hasReturn b then none else some ((innermost b n).getD (b, true))
  | _, _ => none

/-- `get_parent_call_exprs` — redundant_closure_call.rs:150-163, read from the outermost call: the
callee that is not a call, and the number of calls. -/
def peelCalls : E → E × Nat
  | .app0 f => ((peelCalls f).1, (peelCalls f).2 + 1)
  | .app1 f _ => ((peelCalls f).1, (peelCalls f).2 + 1)
  | e => (e, 0)

/-- The text of the body — redundant_closure_call.rs:218-229: the expression of a block without
statements gets parentheses, any other body does not. -/
def bodyHint : E → Hint
  | .block e => { expr := e, paren := true }
  | e => { expr := e, paren := false }

/-- `RedundantClosureCall::check_expr` — redundant_closure_call.rs:166-234, on the outermost call of the
chain: `none` without report, `some none` for a report without suggestion. -/
def closureCheck (e : E) : Option (Option Hint) :=
  match innermost (peelCalls e).1 (peelCalls e).2 with
  | none => none
  | some (body, params) => some (if params then none else some (bodyHint body))

/-- The constructor of the receiver and its argument — unnecessary_literal_unwrap.rs:41-64. -/
def literal : E → Option (Option (Ctor × E))
  | .wrap c a => some (some (c, a))
  | .none' => some none
  | _ => none

/-- The suggestion — unnecessary_literal_unwrap.rs:69-143 — for a receiver that is written in place.
`typed`: the type of the content is given as a generic argument (lines 41-64). -/
def unwrapHint (typed : Bool) (m : Meth) (recv arg : E) : Option Hint :=
  match literal recv with
  | none => none
  | some none =>
    match m with
    | .unwrap => some { expr := .panic .unit, paren := false }
    | .expect => some { expr := .panic arg, paren := false }
    | .unwrapOrDefault => some { expr := .dflt, paren := false }
    | .unwrapOr => some { expr := arg, paren := false }
    | .unwrapOrElse =>
      match arg with
      | .lam0 b => some { expr := b, paren := false }
      | .lam1 _ b => some { expr := b, paren := false }
      | _ => none
    | _ => none
  | some (some (c, a)) =>
    match c, m with
    | .some', .unwrapUnchecked => some { expr := a, paren := false }
    | .ok, .unwrapUnchecked => some { expr := a, paren := false }
    | .err, .unwrapErrUnchecked => some { expr := a, paren := false }
    | c, m =>
      if typed then none
      else match c, m with
      | .ok, .unwrapErr => some { expr := .panic a, paren := false }
      | .err, .unwrap => some { expr := .panic a, paren := false }
      | .ok, .expectErr => some { expr := .panic (.seq a arg), paren := false }
      | .err, .expect => some { expr := .panic (.seq a arg), paren := false }
      | _, _ => some { expr := a, paren := false }

/-- An integer type: `bits` is `none` for `isize`, whose width is not looked up —
unnecessary_min_or_max.rs:88-101. -/
structure IntTy where
  signed : Bool
  bits : Option Nat
  deriving DecidableEq, Repr

inductive Extreme | minimum | maximum
  deriving DecidableEq, Repr

/-- The constant an expression has — unnecessary_min_or_max.rs:29-30, 86: only literals here. -/
def constant : E → Option Int
  | .int n => some n
  | _ => none

/-- `detect_extrema` — unnecessary_min_or_max.rs:83-105. -/
def extreme (t : IntTy) (e : E) : Option Extreme :=
  match constant e, t.bits with
  | some i, some b =>
    if t.signed then
      if i = -2 ^ (b - 1) then some .minimum
      else if i = 2 ^ (b - 1) - 1 then some .maximum
      else none
    else
      if i = 2 ^ b - 1 then some .maximum
      else if i = 0 then some .minimum
      else none
  | _, _ => none

/-- The order of the receiver and the argument that the lint relies on —
unnecessary_min_or_max.rs:29-49. -/
def order (t : IntTy) (recv arg : E) : Option Ordering :=
  match constant recv, constant arg with
  | some l, some r => some (compare l r)
  | _, _ =>
    match extreme t recv with
    | some .minimum => some .lt
    | some .maximum => some .gt
    | none =>
      match extreme t arg with
      | some .minimum => some .gt
      | some .maximum => some .lt
      | none => none

/-- `lint` — unnecessary_min_or_max.rs:53-76: the operand that is left, as it is written. -/
def minMaxHint (t : IntTy) (isMin : Bool) (recv arg : E) : Option Hint :=
  match order t recv arg with
  | none => none
  | some o =>
    if (isMin && o.isGE) || (!isMin && o.isLE) then some { expr := arg, paren := false }
    else some { expr := recv, paren := false }

end Verif.Redex
