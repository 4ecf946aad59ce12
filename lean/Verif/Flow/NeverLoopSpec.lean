import Verif.Flow.NeverLoopModel

/-!
# How expressions finish

Specification for C40, independent of the lint. Values are not tracked: where the program decides something by a value,
both outcomes are possible.
-/

namespace Verif.Flow

/-- How the evaluation of an expression ends. -/
inductive Outcome
  | finished
  | brk (id : Nat)
  | cont (id : Nat)
  | ret
deriving DecidableEq, Repr

mutual
/-- The evaluation of the expression can end this way. -/
inductive Run : NExpr → Outcome → Prop
  | leaf : Run .leaf .finished
  | seqNil : Run (.seq []) .finished
  | seqStop {e es o} : Run e o → o ≠ .finished → Run (.seq (e :: es)) o
  | seqNext {e es o} : Run e .finished → Run (.seq es) o → Run (.seq (e :: es)) o
  | letInit {e els o} : Run e o → Run (.letElse e els) o
  | letElse {e els o} : Run e .finished → Run els o → o ≠ .finished → Run (.letElse e els) o
  /-- In an assignment the value is evaluated before the place. -/
  | assignValue {p v o} : Run v o → o ≠ .finished → Run (.assign p v) o
  | assignPlace {p v o} : Run v .finished → Run p o → Run (.assign p v) o
  | lazyLeft {l r o} : Run l o → Run (.lazy l r) o
  | lazyRight {l r o} : Run l .finished → Run r o → Run (.lazy l r) o
  | loopBreak {id b} : Run b (.brk id) → Run (.loop id b) .finished
  | loopNext {id b o} : Run b .finished → Run (.loop id b) o → Run (.loop id b) o
  | loopCont {id b o} : Run b (.cont id) → Run (.loop id b) o → Run (.loop id b) o
  | loopStop {id b o} : Run b o → o ≠ .finished → o ≠ .brk id → o ≠ .cont id → Run (.loop id b) o
  | iteCond {c t e o} : Run c o → o ≠ .finished → Run (.ite c t e) o
  | iteThen {c t e o} : Run c .finished → Run t o → Run (.ite c t e) o
  | iteElse {c t e o} : Run c .finished → Run e o → Run (.ite c t e) o
  | mtchScrut {s arms o} : Run s o → o ≠ .finished → Run (.mtch s arms) o
  | mtchArm {s arms o} : Run s .finished → RunArm arms o → Run (.mtch s arms) o
  | armGuard {g b o} : Run g o → o ≠ .finished → Run (.arm g b) o
  | armBody {g b o} : Run g .finished → Run b o → Run (.arm g b) o
  | blockBreak {id b} : Run b (.brk id) → Run (.block id b) .finished
  | blockEnd {id b o} : Run b o → o ≠ .brk id → Run (.block id b) o
  | cont {id} : Run (.cont id) (.cont id)
  | retVal {e o} : Run e o → o ≠ .finished → Run (.ret e) o
  | ret {e} : Run e .finished → Run (.ret e) .ret
  | brkVal {id e o} : Run e o → o ≠ .finished → Run (.brk id e) o
  | brk {id e} : Run e .finished → Run (.brk id e) (.brk id)
  | yield {e o} : Run e o → Run (.yield e) o
  /-- An expression of type `!` does not finish. -/
  | never {e o} : Run e o → o ≠ .finished → Run (.never e) o
  | todo {e o} : Run e o → Run (.todo e) o

/-- One of the arms is taken, or its guard leaves the match. -/
inductive RunArm : List NExpr → Outcome → Prop
  | here {a as o} : Run a o → RunArm (a :: as) o
  | later {a as o} : RunArm as o → RunArm (a :: as) o
end

/-- The loop body can be run a second time after it has been run once. -/
def CanRunTwice (main : Nat) (body : NExpr) : Prop := Run body .finished ∨ Run body (.cont main)

mutual
/-- Nothing in the expression jumps or returns, and nothing has type `!`. -/
def plain : NExpr → Bool
  | .leaf => true
  | .seq es => plainAll es
  | .assign a b | .lazy a b | .arm a b => plain a && plain b
  | .ite a b c => plain a && plain b && plain c
  | .mtch s arms => plain s && plainAll arms && !arms.isEmpty
  | .yield e => plain e
  | _ => false

/-- The same for all parts. -/
def plainAll : List NExpr → Bool
  | [] => true
  | e :: es => plain e && plainAll es
end

mutual
/-- The parts the analysis does not look at, or looks at in another order, are plain: the right side of `&&` and `||`,
the guards of match arms, the operand of `yield` and the place of an assignment. -/
def visible : NExpr → Bool
  | .leaf | .cont _ => true
  | .seq es => visibleAll es
  | .letElse a b => visible a && visible b
  | .assign p v => plain p && visible p && visible v
  | .lazy l r => visible l && plain r
  | .loop _ b | .block _ b => visible b
  | .ite a b c => visible a && visible b && visible c
  | .mtch s arms => visible s && visibleAll arms
  | .arm g b => plain g && visible b
  | .ret e | .brk _ e | .never e | .todo e => visible e
  | .yield e => plain e

/-- The same for all parts. -/
def visibleAll : List NExpr → Bool
  | [] => true
  | e :: es => visible e && visibleAll es
end

mutual
/-- Every targeted block has another number than the targeted blocks around it. -/
def inScope : List Nat → NExpr → Prop
  | ids, .seq es => inScopeAll ids es
  | ids, .mtch s es => inScope ids s ∧ inScopeAll ids es
  | ids, .letElse a b | ids, .assign a b | ids, .lazy a b | ids, .arm a b => inScope ids a ∧ inScope ids b
  | ids, .ite a b c => inScope ids a ∧ inScope ids b ∧ inScope ids c
  | ids, .loop _ b => inScope ids b
  | ids, .block id b => id ∉ ids ∧ inScope (ids ++ [id]) b
  | ids, .ret e | ids, .brk _ e | ids, .yield e | ids, .never e | ids, .todo e => inScope ids e
  | _, .leaf | _, .cont _ => True

/-- The same for all parts. -/
def inScopeAll : List Nat → List NExpr → Prop
  | _, [] => True
  | ids, e :: es => inScope ids e ∧ inScopeAll ids es
end

mutual
/-- No loop inside, and no `todo!()`. -/
def noLoop : NExpr → Bool
  | .leaf | .cont _ => true
  | .seq es => noLoopAll es
  | .letElse a b | .assign a b | .lazy a b | .arm a b => noLoop a && noLoop b
  | .ite a b c => noLoop a && noLoop b && noLoop c
  | .mtch s arms => noLoop s && noLoopAll arms
  | .block _ e | .ret e | .brk _ e | .never e | .yield e => noLoop e
  | .loop .. | .todo _ => false

/-- The same for all parts. -/
def noLoopAll : List NExpr → Bool
  | [] => true
  | e :: es => noLoop e && noLoopAll es
end

end Verif.Flow
