import Verif.Returns.Spec

/-!
# Model: implicit_return.rs
-/

namespace Verif.Returns

/-- `LintLocation` — clippy_lints/src/implicit_return.rs:81-96. -/
inductive Loc | parent | inner
  deriving DecidableEq, Repr

/-- A `break` to the label `d` — clippy_lints/src/implicit_return.rs:159-161. -/
def anyBrk (d : Nat) : E → Bool
  | .leaf _ => false
  | .call _ _ a b => anyBrk d a || anyBrk d b
  | .seq a b => anyBrk d a || anyBrk d b
  | .stm a => anyBrk d a
  | .ite c t e => anyBrk d c || (anyBrk d t || anyBrk d e)
  | .ift c t => anyBrk d c || anyBrk d t
  | .loop b => anyBrk (d + 1) b
  | .blk b => anyBrk (d + 1) b
  | .brk k e => k == d || anyBrk d e
  | .brk0 k => k == d
  | .ret e => anyBrk d e
  | .mac e => anyBrk d e

/-- A `break` to the label `d` that comes from a macro — clippy_lints/src/implicit_return.rs:159-174 (`add_return`). -/
def macBrk (d : Nat) : E → Bool
  | .leaf _ => false
  | .call _ _ a b => macBrk d a || macBrk d b
  | .seq a b => macBrk d a || macBrk d b
  | .stm a => macBrk d a
  | .ite c t e => macBrk d c || (macBrk d t || macBrk d e)
  | .ift c t => macBrk d c || macBrk d t
  | .loop b => macBrk (d + 1) b
  | .blk b => macBrk (d + 1) b
  | .brk _ e => macBrk d e
  | .brk0 _ => false
  | .ret e => macBrk d e
  | .mac e => anyBrk d e

/-- `lint_break` for each `break` with a value to the label `d` — clippy_lints/src/implicit_return.rs:61-79, 159-175. -/
def fixB (d : Nat) : E → E
  | .leaf i => .leaf i
  | .call i v a b => .call i v (fixB d a) (fixB d b)
  | .seq a b => .seq (fixB d a) (fixB d b)
  | .stm a => .stm (fixB d a)
  | .ite c t e => .ite (fixB d c) (fixB d t) (fixB d e)
  | .ift c t => .ift (fixB d c) (fixB d t)
  | .loop b => .loop (fixB (d + 1) b)
  | .blk b => .blk (fixB (d + 1) b)
  | .brk k e => if k = d then .ret (fixB d e) else .brk k (fixB d e)
  | .brk0 k => .brk0 k
  | .ret e => .ret (fixB d e)
  | .mac e => .mac e

/-- The second branch is only looked at if there was no report for the first — clippy_lints/src/implicit_return.rs:128-133, 141-154. -/
def both (a b : Nat × Loc) : Nat × Loc := if a.2 = .parent then a else (a.1 + b.1, b.2)

/-- `lint_implicit_returns` in a macro call (`call_site_span` is given) — clippy_lints/src/implicit_return.rs:103-219: the number of reports for the
macro call, and the location. -/
def inMac : E → Nat × Loc
  | .seq _ b => inMac b
  | .blk b => inMac b
  | .mac e => inMac e
  | .ite _ t e => both (inMac t) (inMac e)
  | .loop b => if anyBrk 0 b then (1, .parent) else (0, .inner)
  | .ift _ _ => (0, .inner)
  | .stm _ => (0, .inner)
  | .ret _ => (0, .inner)
  | .call _ v _ _ => if v then (0, .inner) else (1, .parent)
  | .leaf _ => (1, .parent)
  | .brk _ _ => (1, .parent)
  | .brk0 _ => (1, .parent)

/-- `return` in front, `n` times — clippy_lints/src/implicit_return.rs:46-59. -/
def returns : Nat → E → E
  | 0, e => e
  | n + 1, e => .ret (returns n e)

/-- The body with all suggestions of `lint_implicit_returns` applied — clippy_lints/src/implicit_return.rs:103-219, outside of macros. -/
def fix : E → E
  | .seq a b => .seq a (fix b)
  | .blk b => .blk (fix b)
  | .mac e => returns (inMac e).1 (.mac e)
  | .ite c t e => .ite c (fix t) (fix e)
  | .loop b => if macBrk 0 b then .ret (.loop (fixB 0 b)) else .loop (fixB 0 b)
  | .ift c t => .ift c t
  | .stm a => .stm a
  | .ret e => .ret e
  | .call i v a b => if v then .call i v a b else .ret (.call i v a b)
  | .leaf i => .ret (.leaf i)
  | .brk k e => .ret (.brk k e)
  | .brk0 k => .ret (.brk0 k)

end Verif.Returns
