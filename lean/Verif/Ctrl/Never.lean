import Verif.Ctrl.Syntax

/-!
# Model: the lint about loops that never loop

`/repo/clippy_lints/src/loops/never_loop.rs`.  The spans collected for the message are left out.
-/

namespace Verif.Ctrl.Never
open Verif.Ctrl

/-- `NeverLoopResult`, `/repo/clippy_lints/src/loops/never_loop.rs:139-153`, without spans. -/
inductive NL where
  | may
  | div
  | normal
  deriving DecidableEq, Repr

/-- The labelled blocks around and whether they are broken out of: `local_labels`.  The code
pushes at the end; the numbers of blocks differ, so that the order of the search does not
matter. -/
abbrev Labels := List (Id × Bool)

/-- `absorb_break`, `/repo/clippy_lints/src/loops/never_loop.rs:155-161`. -/
def absorb : NL → NL
  | .may => .may
  | _ => .normal

/-- `combine_seq` and one step of `combine_seq_many`, which stop early,
`/repo/clippy_lints/src/loops/never_loop.rs:163-181`. -/
def seq : NL × Labels → (Labels → NL × Labels) → NL × Labels
  | (.normal, L), f => f L
  | r, _ => r

/-- `combine_branches`, `/repo/clippy_lints/src/loops/never_loop.rs:183-213`. -/
def branches : NL → NL → NL
  | .may, _ => .may
  | _, .may => .may
  | .normal, _ => .normal
  | _, .normal => .normal
  | .div, .div => .div

/-- `mark_block_as_reachable`, `/repo/clippy_lints/src/loops/never_loop.rs:498-504`. -/
def mark (t : Id) : Labels → Labels
  | [] => []
  | (u, r) :: L => if u = t then (u, true) :: L else (u, r) :: mark t L

/-- What is asked about the block in a `let` with `else`,
`/repo/clippy_lints/src/loops/never_loop.rs:229-239`. -/
def soften : NL → NL
  | .may => .may
  | _ => .normal

/-- The end of a labelled block, `/repo/clippy_lints/src/loops/never_loop.rs:364-368`. -/
def popLabel : NL × Labels → NL × Labels
  | (.div, (_, true) :: L) => (.normal, L)
  | (r, _ :: L) => (r, L)
  | (r, []) => (r, [])

section
variable (never todo : Expr → Bool) (main : Id)

/-- The end of `never_loop_expr`: an expression of type `!` diverges, and `todo!()` may be
anything, `/repo/clippy_lints/src/loops/never_loop.rs:458-479`. -/
def fin (e : Expr) : NL × Labels → NL × Labels
  | (r, L) =>
    let r := match r with
      | .normal => if never e then .div else .normal
      | r => r
    (if r = .div ∧ todo e then .may else r, L)

mutual

/-- `never_loop_expr`, `/repo/clippy_lints/src/loops/never_loop.rs:293-480`.  `while` and `for`
are taken apart as the compiler does: a `loop` around an `if` or a `match` whose other arm is
`break`. -/
def nlE : Expr → Labels → NL × Labels
  | e@(.var _), L => fin never todo e (.normal, L)
  | e@(.prim _ _ as), L => fin never todo e (nlL as L)
  | e@(.assign _ l r), L => fin never todo e (seq (nlE l L) (nlE r))
  | e@(.lzy _ a _), L => fin never todo e (nlE a L)
  | e@(.ite c t f), L => fin never todo e (seq (nlC c L) fun L =>
      let r2 := nlE t L
      let r3 := nlE f r2.2
      (branches r2.1 r3.1, r3.2))
  | e@(.ifn c t), L => fin never todo e (seq (nlC c L) fun L =>
      let r2 := nlE t L
      (branches r2.1 .normal, r2.2))
  | e@(.mtch s arms), L => fin never todo e (seq (nlE s L) (nlA arms .div))
  | e@(.block none b), L => fin never todo e (nlS b L)
  | e@(.block (some (_, t)) b), L => fin never todo e (popLabel (nlS b ((t, false) :: L)))
  | e@(.lp _ _ b), L => fin never todo e (let r := nlS b L; (absorb r.1, r.2))
  | e@(.whl _ _ c b), L => fin never todo e
      (let r := seq (nlC c L) fun L =>
        let r2 := fin never todo (.block none b) (nlS b L)
        (branches r2.1 .div, r2.2)
      (absorb r.1, r.2))
  | e@(.forE _ _ _ _ it b), L => fin never todo e (seq (nlE it L) fun L =>
      let r2 := fin never todo (.block none b) (nlS b L)
      (absorb (branches .div r2.1), r2.2))
  | e@(.cont _ t), L => fin never todo e (if t = main then .may else .div, L)
  | e@(.brk _ t v), L => fin never todo e (seq (nlL v L) fun L => (.div, mark t L))
  | e@(.ret v), L => fin never todo e (seq (nlL v L) fun L => (.div, L))

/-- Conditions: `let` is its right side, and of a chain only the first part is looked at,
`/repo/clippy_lints/src/loops/never_loop.rs:309-309`,
`/repo/clippy_lints/src/loops/never_loop.rs:324-326`. -/
def nlC : Cond → Labels → NL × Labels
  | .test e, L => nlE e L
  | .letP _ _ e, L => nlE e L
  | .nextP _ _ e, L => nlE e L
  | .and a _, L => nlC a L

/-- `never_loop_expr_all`, `/repo/clippy_lints/src/loops/never_loop.rs:482-489`. -/
def nlL : Exprs → Labels → NL × Labels
  | .nil, L => (.normal, L)
  | .cons e es, L => seq (nlE e L) (nlL es)

/-- The fold over the arms; guards are not looked at,
`/repo/clippy_lints/src/loops/never_loop.rs:349-356`. -/
def nlA : Arms → NL → Labels → NL × Labels
  | .nil, acc, L => (acc, L)
  | .arm _ _ body rest, acc, L =>
    let r := nlE body L
    nlA rest (branches acc r.1) r.2
  | .armIf _ _ _ body rest, acc, L =>
    let r := nlE body L
    nlA rest (branches acc r.1) r.2

/-- `never_loop_block` and `stmt_to_expr`,
`/repo/clippy_lints/src/loops/never_loop.rs:215-250`. -/
def nlS : Stmts → Labels → NL × Labels
  | .done, L => (.normal, L)
  | .tail e, L => nlE e L
  | .semi e r, L => seq (nlE e L) (nlS r)
  | .expr e r, L => seq (nlE e L) (nlS r)
  | .letS _ _ e r, L => seq (nlE e L) (nlS r)
  | .letElse _ _ e els r, L =>
    seq (seq (nlE e L) fun L => let x := nlS els L; (soften x.1, x.2)) (nlS r)
  | .item _ _ r, L => nlS r L

end

/-- The lint fires: `check` with the number and the block of a `loop`, a `while` or a `for`,
`/repo/clippy_lints/src/loops/never_loop.rs:20-86`,
`/repo/clippy_lints/src/loops/mod.rs:862-891`. -/
def fires : Expr → Bool
  | .lp _ t b => (nlS never todo t b []).1 = .div
  | .whl _ t c b => (seq (nlC never todo t c []) fun L =>
      let r2 := fin never todo (.block none b) (nlS never todo t b L)
      (branches r2.1 .div, r2.2)).1 = .div
  | .forE _ t _ _ _ b => (nlS never todo t b []).1 = .div
  | _ => false

end

mutual

/-- `contains_any_break_or_continue`, which does not look into loops,
`/repo/clippy_lints/src/loops/never_loop.rs:113-121`.  The iterator of a `for` is not part of its
loop. -/
def jumpsE : Expr → Bool
  | .var _ => false
  | .prim _ _ as => jumpsL as
  | .assign _ l r => jumpsE l || jumpsE r
  | .lzy _ a b => jumpsE a || jumpsE b
  | .ite c t e => jumpsC c || jumpsE t || jumpsE e
  | .ifn c t => jumpsC c || jumpsE t
  | .mtch e arms => jumpsE e || jumpsA arms
  | .block _ b => jumpsS b
  | .lp _ _ _ => false
  | .whl _ _ _ _ => false
  | .forE _ _ _ _ it _ => jumpsE it
  | .cont _ _ => true
  | .brk _ _ _ => true
  | .ret e => jumpsL e

/-- The same for conditions. -/
def jumpsC : Cond → Bool
  | .test e => jumpsE e
  | .letP _ _ e => jumpsE e
  | .nextP _ _ e => jumpsE e
  | .and a b => jumpsC a || jumpsC b

/-- The same for operands. -/
def jumpsL : Exprs → Bool
  | .nil => false
  | .cons e es => jumpsE e || jumpsL es

/-- The same for arms. -/
def jumpsA : Arms → Bool
  | .nil => false
  | .arm _ _ body rest => jumpsE body || jumpsA rest
  | .armIf _ _ g body rest => jumpsC g || jumpsE body || jumpsA rest

/-- The same for statements. -/
def jumpsS : Stmts → Bool
  | .done => false
  | .tail e => jumpsE e
  | .semi e r => jumpsE e || jumpsS r
  | .expr e r => jumpsE e || jumpsS r
  | .letS _ _ e r => jumpsE e || jumpsS r
  | .letElse _ _ e els r => jumpsE e || jumpsS els || jumpsS r
  | .item _ _ r => jumpsS r

end

/-- The replacement of a `for` that may be applied by a machine: neither `break` nor `continue`
and no label, `/repo/clippy_lints/src/loops/never_loop.rs:42-64`, built by `for_to_if_let_sugg`,
`/repo/clippy_lints/src/loops/never_loop.rs:491-496`.  Code that is found unreachable lowers the
applicability as well, which is left out. -/
def rewrite (never todo : Expr → Bool) : Expr → Option Expr
  | .forE lab t p xs it b =>
    if fires never todo (.forE lab t p xs it b) ∧ jumpsS b = false ∧ lab = none then
      some (.ifn (.nextP p xs it) (.block none b))
    else none
  | _ => none

end Verif.Ctrl.Never
