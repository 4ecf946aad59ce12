import Verif.Ctrl.Syntax

/-!
# Model: the lints about nested `if`s that can be collapsed

`/repo/clippy_lints/src/collapsible_if.rs`: the change of the tree, the parentheses around the
conditions, and the parentheses that are taken off the inner `if`.
-/

namespace Verif.Ctrl.Collapse
open Verif.Ctrl

/-! ## The tree -/

/-- `expr_block`, `/repo/clippy_lints/src/collapsible_if.rs:298-306`: the only expression of a
block, with or without semicolon. -/
def exprBlock : Stmts → Option Expr
  | .tail e => some e
  | .semi e .done => some e
  | _ => none

/-- An `if` with `else`. -/
def isIfElse : Option Expr → Bool
  | some (.ite _ _ _) => true
  | _ => false

/-- `single_inner_if_else`, `/repo/clippy_lints/src/collapsible_if.rs:285-296`. -/
def singleIfElse : Expr → Bool
  | .block none b => isIfElse (exprBlock b)
  | _ => false

/-- `eligible_condition`, `/repo/clippy_lints/src/collapsible_if.rs:219-221`: `let` only where
chains of `let` are allowed. -/
def eligible (chains : Bool) : Cond → Bool
  | .letP _ _ _ => chains
  | .nextP _ _ _ => chains
  | _ => true

/-- An `if`. -/
def isIf : Expr → Bool
  | .ite _ _ _ => true
  | .ifn _ _ => true
  | _ => false

/-- `check_expr`, `check_collapsible_else_if` and `check_collapsible_if_if`,
`/repo/clippy_lints/src/collapsible_if.rs:264-282`,
`/repo/clippy_lints/src/collapsible_if.rs:97-166`,
`/repo/clippy_lints/src/collapsible_if.rs:168-217`.  `clear` stands for the tests that nothing but
the inner `if` is written in the block (comments, attributes, macros). -/
def collapse (chains : Bool) (clear : Stmts → Bool) : Expr → Option Expr
  | .ite c t (.block none b) =>
    if singleIfElse t && singleIfElse (.block none b) then none
    else match exprBlock b with
      | some e => if isIf e && clear b then some (.ite c t e) else none
      | none => none
  | .ifn c (.block none b) =>
    if eligible chains c then
      match exprBlock b with
      | some (.ifn c' t) => if eligible chains c' && clear b then some (.ifn (.and c c') t) else none
      | _ => none
    else none
  | _ => none

/-! ## The parentheses of the conditions -/

/-- A condition as it is written: other conditions, `&&`, `||` and parentheses. -/
inductive Tok where
  | atom (n : Nat)
  | and
  | or
  | lp
  | rp
  deriving DecidableEq, Repr

/-- A condition as the compiler sees it. -/
inductive BE where
  | atom (n : Nat)
  | and (a b : BE)
  | or (a b : BE)
  deriving DecidableEq, Repr

/-- `parens_around`, `/repo/clippy_lints/src/collapsible_if.rs:308-320`. -/
def parensAround : BE → List Tok → List Tok
  | .or _ _, s => .lp :: s ++ [.rp]
  | _, s => s

/-- The condition of the collapsed `if`: the inner `if` becomes `&&`,
`/repo/clippy_lints/src/collapsible_if.rs:191-213`. -/
def joined (a b : BE) (s t : List Tok) : List Tok := parensAround a s ++ .and :: parensAround b t

/-! ## The parentheses of the inner `if` -/

/-- Whitespace at the front. -/
def trimStart (ws : Char → Bool) (s : List Char) : List Char := s.dropWhile ws

/-- Whitespace at the end. -/
def trimEnd (ws : Char → Bool) (s : List Char) : List Char := (s.reverse.dropWhile ws).reverse

/-- `peel_parens_str`, `/repo/clippy_lints/src/collapsible_if.rs:356-370`: how much is cut at the
front, what is left, and how much is cut at the end.  Lengths count characters.  The first
argument bounds the depth. -/
def peel (ws : Char → Bool) : Nat → List Char → Option (Nat × List Char × Nat)
  | 0, _ => none
  | n + 1, s =>
    let trimmed := trimEnd ws (trimStart ws s)
    if trimmed.head? = some '(' ∧ trimmed.getLast? = some ')' then
      let a := (s.length - (trimStart ws s).length) + 1
      let b := (s.length - (trimEnd ws s).length) + 1
      if a ≤ s.length - b then
        let inner := (s.drop a).take (s.length - b - a)
        match peel ws n inner with
        | none => some (a, inner, b)
        | some (a', inner', b') => some (a + a', inner', b + b')
      else none
    else none

/-- `peel_parens`, `/repo/clippy_lints/src/collapsible_if.rs:337-354`: what is left. -/
def peeled (ws : Char → Bool) (s : List Char) : List Char :=
  match peel ws (s.length + 1) s with
  | some (_, inner, _) => inner
  | none => s

/-- The first two characters of what is left are replaced by `&&`,
`/repo/clippy_lints/src/collapsible_if.rs:189-198`. -/
def withAnd (ws : Char → Bool) (s : List Char) : List Char := '&' :: '&' :: (peeled ws s).drop 2

end Verif.Ctrl.Collapse
