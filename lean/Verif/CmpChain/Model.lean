import Verif.CmpChain.Spec

/-!
# Chains of comparisons: the linter
-/

namespace Verif.CmpChain

/-- The loop of `if_sequence`: conditions and blocks; clippy_utils/src/lib.rs:1719-1739. A block that is no `if` is the final `else`; for an
expression that is no `if` at all the caller ignores the result. -/
def ifSequence : Ex → List Cond × List Nat
  | .ite c t e => (c :: (ifSequence e).1, t :: (ifSequence e).2)
  | .only c t => ([c], [t])
  | .block b => ([], [b])
  | .other _ => ([], [])

/-- `kind_is_cmp`; clippy_lints/src/comparison_chain.rs:145-147. -/
def kindIsCmp : Op → Bool
  | .lt => true
  | .gt => true
  | .eq => true
  | .other _ => false

/-- The test of two conditions that follow each other; clippy_lints/src/comparison_chain.rs:84-125. Equality of expressions is equality of
their numbers. -/
def pairOk (ord : Nat → Bool) : Cond → Cond → Bool
  | .bin k1 l1 r1, .bin k2 l2 r2 =>
    let fixed := l1 == l2 && r1 == r2
    let transposed := l1 == r2 && r1 == l2
    if !kindIsCmp k1 || !kindIsCmp k2 then false
    else if !fixed && !transposed then false
    else if k1 == k2 && (k1 == .eq || !transposed) then false
    else ord l1
  | _, _ => false

/-- The loop over `conds.windows(2)`; clippy_lints/src/comparison_chain.rs:83-126. -/
def allOk (ord : Nat → Bool) : List Cond → Bool
  | c :: d :: r => pairOk ord c d && allOk ord (d :: r)
  | _ => true

/-- The operands of the first condition; clippy_lints/src/comparison_chain.rs:127-129. `none` is the `unreachable!`. -/
def operands : List Cond → Option (Nat × Nat)
  | .bin _ l r :: _ => some (l, r)
  | _ => none

/-- `check_expr`: the operands of the `cmp` that is suggested, `some none` for the panic; clippy_lints/src/comparison_chain.rs:59-142. -/
def check (x : Ctx) (e : Ex) : Option (Option (Nat × Nat)) :=
  if x.expanded then none
  else if x.isElse then none
  else if x.inConst then none
  else if decide ((ifSequence e).1.length < 2) then none
  else if decide ((ifSequence e).2.length < 3) then none
  else if !allOk x.ord (ifSequence e).1 then none
  else some (operands (ifSequence e).1)

end Verif.CmpChain
