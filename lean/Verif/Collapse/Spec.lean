import Verif.Collapse.Syntax
import Verif.Guard.Spec

/-!
# Specification: what a `match` does
-/

namespace Verif.Collapse

open Verif.Guard (Id Pat Pats Fields Val Code Env Prog look pm vars)

/-- The result of an expression: `()`, or that of the code with the values of its variables. -/
inductive R where
  | unit
  | code (k : Nat) (vs : List (Option Val))

/-- An evaluation of a condition. -/
abbrev Ev := Nat × List (Option Val)

/-- The result of a block. -/
def Blk.val (env : Env) : Blk → R
  | .unit => .unit
  | .code c => .code c.k (c.uses.map (look · env))

/-- A missing `else` is `()`. -/
def optVal (env : Env) : Option Blk → R
  | none => .unit
  | some b => b.val env

/-- What the inner `match` looks at. -/
def Scrut.val (S : Prog) (env : Env) : Scrut → Val
  | .loc x => (look x env).getD (.lit 0)
  | .other k uses => S.other k (uses.map (look · env))

/-- One condition. -/
def cond (S : Prog) (env : Env) (c : Code) : Bool := S.cond c.k (c.uses.map (look · env))

/-- The evaluation of a condition. -/
def event (env : Env) (c : Code) : Ev := (c.k, c.uses.map (look · env))

/-- A conjunction: the conditions that are evaluated, and the result. -/
def conds (S : Prog) (env : Env) : List Code → List Ev × Bool
  | [] => ([], true)
  | c :: cs =>
    if cond S env c then (event env c :: (conds S env cs).1, (conds S env cs).2) else ([event env c], false)

/-- The inner `match`; `none`: no arm matches. -/
def inner (S : Prog) (env : Env) (v : Val) : List IArm → List Ev × Option R
  | [] => ([], none)
  | a :: as => match pm a.pat v with
    | none => inner S env v as
    | some bs => match a.guard with
      | none => ([], some (a.body.val (bs ++ env)))
      | some c =>
        if cond S (bs ++ env) c then ([event (bs ++ env) c], some (a.body.val (bs ++ env)))
        else (event (bs ++ env) c :: (inner S env v as).1, (inner S env v as).2)

/-- The body of an arm. -/
def Body.run (S : Prog) (env : Env) : Body → List Ev × Option R
  | .blk b => ([], some (b.val env))
  | .ite c t e => ([event env c], some (if cond S env c then t.val env else optVal env e))
  | .ifLet q s t e => match pm q (s.val S env) with
    | some cs => ([], some (t.val (cs ++ env)))
    | none => ([], some (optVal env e))
  | .mtch s arms => inner S env (s.val S env) arms

/-- A `match`: the conditions that are evaluated, in this order, and the result; `none`: no arm matches. -/
def run (S : Prog) (env : Env) (v : Val) : List Arm → List Ev × Option R
  | [] => ([], none)
  | a :: as => match pm a.pat v with
    | none => run S env v as
    | some bs =>
      if (conds S (bs ++ env) a.guard).2 then
        ((conds S (bs ++ env) a.guard).1 ++ (a.body.run S (bs ++ env)).1, (a.body.run S (bs ++ env)).2)
      else ((conds S (bs ++ env) a.guard).1 ++ (run S env v as).1, (run S env v as).2)

/-- `if let p = v { body } else { els }` -/
def ifLet (p : Pat) (body : Body) (els : Option Body) : List Arm :=
  [⟨p, [], body⟩, ⟨.wild, [], els.getD (.blk .unit)⟩]

/-- The variables a block uses. -/
def Blk.uses : Blk → List Id
  | .unit => []
  | .code c => c.uses

/-- The variables the blocks of a body use. -/
def Body.uses : Body → List Id
  | .blk b => b.uses
  | .ite _ t e => t.uses ++ (e.map Blk.uses).getD []
  | .ifLet _ _ t e => t.uses ++ (e.map Blk.uses).getD []
  | .mtch _ arms => arms.flatMap fun a => a.body.uses

/-- The variables bound by inner patterns. -/
def Body.binds : Body → List Id
  | .ifLet q _ _ _ => vars q
  | .mtch _ arms => arms.flatMap fun a => vars a.pat
  | _ => []

/-- Variables are used in their scope only: those of the arm (and of its inner patterns) not in later arms, those of
later arms not in the arm, and those of inner patterns not outside of the inner expression. -/
structure Scoped (a : Arm) (rest : List Arm) : Prop where
  later : ∀ b ∈ rest, ∀ y, y ∈ vars a.pat ∨ y ∈ a.body.binds → y ∉ b.body.uses
  earlier : ∀ b ∈ rest, ∀ y ∈ vars b.pat, y ∉ a.body.uses
  inner : ∀ y ∈ a.body.binds, y ∉ vars a.pat ∧ ∀ c ∈ a.guard, y ∉ c.uses

/-- A pattern that matches everything. -/
inductive Total : Pat → Prop
  | wild : Total .wild
  | bind {r x} : Total (.bind r x)

/-- Values that the pattern matches reach the last of the later arms, which has no guard and matches everything. -/
def Falls (p : Pat) (rest : List Arm) : Prop :=
  ∃ mid last, rest = mid ++ [last] ∧ Total last.pat ∧ last.guard = [] ∧
    ∀ m ∈ mid, ∀ v, pm p v ≠ none → pm m.pat v = none

/-- What the lint takes for wildcards. -/
inductive WildLike : Pat → Prop
  | wild : WildLike .wild
  | bind {r x} : WildLike (.bind r x)
  | bindAt {r x p} : WildLike (.bindAt r x p)
  | none : WildLike (.con noneCon .nil)

/-- The same if only arms that are taken for wildcards are considered: `None`, bindings with subpatterns. -/
def FallsWild (p : Pat) (rest : List Arm) : Prop :=
  ∃ mid last, rest = mid ++ [last] ∧ Total last.pat ∧ last.guard = [] ∧
    ∀ m ∈ mid, m.guard = [] → WildLike m.pat → ∀ v, pm p v ≠ none → pm m.pat v = none

/-- The inner `match` is exhaustive, and its second arm is not hidden by the first one. -/
def Inner : Body → Prop
  | .mtch _ [a, b] => (∀ w, pm a.pat w ≠ none ∨ pm b.pat w ≠ none) ∧
      ∀ w, pm b.pat w ≠ none → pm a.pat w = none ∨ Total b.pat
  | _ => True

/-- The scrutinee of the inner expression is this variable. -/
inductive OnVar (x : Id) : Body → Prop
  | ifLet {q t e} : OnVar x (.ifLet q (.loc x) t e)
  | mtch {arms} : OnVar x (.mtch (.loc x) arms)

/-- The variable is bound once, without a subpattern. -/
def Once (x : Id) (p : Pat) : Prop := (vars p).count x = 1 ∧ Guard.NoAt x p

end Verif.Collapse
