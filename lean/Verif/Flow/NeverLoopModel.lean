/-!
# `never_loop`

Model of `/repo/clippy_lints/src/loops/never_loop.rs`.
-/

namespace Verif.Flow

/-- Expressions, as far as control flow goes. Loops and labelled blocks are identified by a number (`HirId`).

* `seq` is a list of expressions evaluated in order: the parts of a unary or binary operation, call, method call, array,
  tuple, struct, index, cast etc., and also the statements of a block no `break` targets. `seq []` also stands for a
  missing `else`, a missing value of `break` or `return` and a missing guard.
* `leaf` is a literal, path, closure or const block.
* `block` is a block targeted by a `break`.
* `never e` is an expression `e` of type `!`, `todo e` one that comes from `todo!()`.

Inline assembly and `become` are left out. -/
inductive NExpr
  | leaf
  | seq (es : List NExpr)
  | letElse (init els : NExpr)
  | assign (place value : NExpr)
  | lazy (l r : NExpr)
  | loop (id : Nat) (body : NExpr)
  | ite (c t e : NExpr)
  | mtch (scrut : NExpr) (arms : List NExpr)
  | arm (guard body : NExpr)
  | block (id : Nat) (body : NExpr)
  | cont (id : Nat)
  | ret (e : NExpr)
  | brk (id : Nat) (e : NExpr)
  | yield (e : NExpr)
  | never (e : NExpr)
  | todo (e : NExpr)
deriving Repr

/-- `NeverLoopResult` without the spans, never_loop.rs:140-153. -/
inductive Res
  | mayContinue
  | diverging
  | normal
deriving DecidableEq, Repr

/-- `local_labels`: the targeted blocks around an expression, outermost first, and whether a `break` to them was seen. -/
abbrev Labels := List (Nat × Bool)

/-- `absorb_break`, never_loop.rs:156-161. -/
def absorbBreak : Res → Res
  | .mayContinue => .mayContinue
  | _ => .normal

/-- `combine_seq`, never_loop.rs:165-170. The second part is only looked at when the first one may finish. -/
def combineSeq (first : Res × Labels) (second : Labels → Res × Labels) : Res × Labels :=
  match first.1 with
  | .normal => second first.2
  | _ => first

/-- `combine_branches`, never_loop.rs:185-213. -/
def combineBranches : Res → Res → Res
  | .mayContinue, _ => .mayContinue
  | _, .mayContinue => .mayContinue
  | .normal, _ => .normal
  | _, .normal => .normal
  | .diverging, .diverging => .diverging

/-- `mark_block_as_reachable`, never_loop.rs:498-504: marks the first entry with the label. -/
def markReachable (id : Nat) : Labels → Labels
  | [] => []
  | (l, b) :: ls => if l = id then (l, true) :: ls else (l, b) :: markReachable id ls

/-- The last step for a block, never_loop.rs:363-368: the entry of the block is removed again. -/
def leaveBlock (r : Res × Labels) : Res × Labels :=
  let jumped := (r.2.getLast?.getD (0, false)).2
  (if r.1 = .diverging ∧ jumped = true then .normal else r.1, r.2.dropLast)

mutual
/-- `never_loop_expr`, never_loop.rs:294-480. -/
def neverExpr (main : Nat) : NExpr → Labels → Res × Labels
  | .leaf, ls => (.normal, ls)
  | .seq es, ls => neverSeq main es ls
  | .letElse e els, ls => combineSeq (neverExpr main e ls) fun ls =>
      let r := neverExpr main els ls
      (absorbBreak r.1, r.2)
  | .assign p v, ls => combineSeq (neverExpr main p ls) fun ls => neverExpr main v ls
  | .lazy l _, ls => neverExpr main l ls
  | .loop _ b, ls =>
    let r := neverExpr main b ls
    (absorbBreak r.1, r.2)
  | .ite c t e, ls => combineSeq (neverExpr main c ls) fun ls =>
      let r2 := neverExpr main t ls
      let r3 := neverExpr main e r2.2
      (combineBranches r2.1 r3.1, r3.2)
  | .mtch s arms, ls => combineSeq (neverExpr main s ls) fun ls => neverArms main arms .diverging ls
  | .arm _ b, ls => neverExpr main b ls
  | .block id b, ls => leaveBlock (neverExpr main b (ls ++ [(id, false)]))
  | .cont id, ls => (if id = main then .mayContinue else .diverging, ls)
  | .ret e, ls => combineSeq (neverExpr main e ls) fun ls => (.diverging, ls)
  | .brk id e, ls => combineSeq (neverExpr main e ls) fun ls => (.diverging, markReachable id ls)
  | .yield _, ls => (.normal, ls)
  | .never e, ls => combineSeq (neverExpr main e ls) fun ls => (.diverging, ls)
  | .todo e, ls =>
    let r := neverExpr main e ls
    (if r.1 = .diverging then .mayContinue else r.1, r.2)

/-- `combine_seq_many` over the parts (never_loop.rs:174-181), as in `never_loop_expr_all` (:482-489) and
`never_loop_block` (:215-241). -/
def neverSeq (main : Nat) : List NExpr → Labels → Res × Labels
  | [], ls => (.normal, ls)
  | e :: es, ls => combineSeq (neverExpr main e ls) fun ls => neverSeq main es ls

/-- The fold over the arms of a match, never_loop.rs:349-356. -/
def neverArms (main : Nat) : List NExpr → Res → Labels → Res × Labels
  | [], acc, ls => (acc, ls)
  | a :: as, acc, ls =>
    let r := neverExpr main a ls
    neverArms main as (combineBranches acc r.1) r.2
end

/-- `check`, never_loop.rs:20-86: the loop with this body is reported. -/
def reported (main : Nat) (body : NExpr) : Bool := (neverExpr main body []).1 = .diverging

end Verif.Flow
