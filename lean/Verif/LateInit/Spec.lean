import Verif.LateInit.Syntax

/-!
# Spec: running blocks

Variables have a value or are uninitialised.  Code may read and change the variables it mentions and the rest of the
world, and it may leave the block.  At the end of a block, the variables that have a value are dropped, the last declared
first; an assignment drops the old value.
-/

namespace Verif.LateInit

/-- Values of the variables. -/
abbrev Store := Id → Option Nat

/-- Give a variable a value, or make it uninitialised. -/
def upd (st : Store) (x : Id) (o : Option Nat) : Store := fun y => if y = x then o else st y

/-- A machine: what code does (`none`: it leaves the block), and what happens when a variable is dropped. -/
structure Sys (σ : Type) where
  exec : Code → Store → σ → Store × σ × Option Nat
  drop : Id → Nat → σ → σ

/-- Code depends only on the variables it mentions and leaves the others alone; only variables whose type has an ordered
drop do something when they are dropped. -/
structure Sound {σ : Type} (S : Sys σ) (ordered : Id → Bool) : Prop where
  frame : ∀ c x o st w, x ∉ c.uses →
    S.exec c (upd st x o) w = (upd (S.exec c st w).1 x o, (S.exec c st w).2)
  drop : ∀ x v w, ordered x = false → S.drop x v w = w

/-- The state of a run: the variables declared so far, the last one first; the flow is `none` if the block is left. -/
structure R (σ : Type) where
  ds : List Id
  st : Store
  w : σ
  flow : Option Nat

section
variable {σ : Type} (S : Sys σ)

/-- A variable is dropped if it has a value. -/
def dropOne (x : Id) (st : Store) (w : σ) : σ :=
  match st x with
  | some v => S.drop x v w
  | none => w

/-- All are dropped. -/
def dropAll : List Id → Store → σ → σ
  | [], _, w => w
  | d :: ds, st, w => dropAll ds st (dropOne S d st w)

/-- The value is stored. -/
def store (x : Id) (new : Bool) (ds : List Id) : Store × σ × Option Nat → R σ
  | (st, w, none) => ⟨ds, st, w, none⟩
  | (st, w, some v) =>
    if new then ⟨x :: ds, upd st x (some v), w, some 0⟩ else ⟨ds, upd st x (some v), dropOne S x st w, some 0⟩

/-- Run a simple statement. -/
def runStmt : Stmt → List Id → Store → σ → R σ
  | .decl x, ds, st, w => ⟨x :: ds, upd st x none, w, some 0⟩
  | .init x _ c, ds, st, w => store S x true ds (S.exec c st w)
  | .assign x c, ds, st, w => store S x false ds (S.exec c st w)
  | .expr c, ds, st, w => ⟨ds, (S.exec c st w).1, (S.exec c st w).2.1, (S.exec c st w).2.2⟩

/-- Run statements; the value is that of the last one. -/
def runStmts : List Stmt → R σ → R σ
  | [], r => r
  | s :: ss, r => match r.flow with
    | none => r
    | some _ => runStmts ss (runStmt S s r.ds r.st r.w)

/-- The end of a block. -/
def close (r : R σ) : Store × σ × Option Nat := (r.st, dropAll S r.ds r.st r.w, r.flow)

/-- The value of a block is that of its tail. -/
def value (tail : Bool) (o : Option Nat) : Option Nat := o.map fun v => if tail then v else 0

/-- Run a branch. -/
def runBranch (b : Branch) (st : Store) (w : σ) : Store × σ × Option Nat :=
  let r := close S (runStmts S b.all ⟨[], st, w, some 0⟩)
  (r.1, r.2.1, value b.tail.isSome r.2.2)

/-- Temporary values are dropped. -/
def dropVals : List (Id × Nat) → σ → σ
  | [], w => w
  | (x, v) :: r, w => dropVals r (S.drop x v w)

/-- Evaluate the values for variables; the last one first. -/
def runVals : List (Id × Code) → List (Id × Nat) → Store → σ → Store × σ × Option (List (Id × Nat))
  | [], acc, st, w => (st, w, some acc)
  | (x, c) :: r, acc, st, w => match S.exec c st w with
    | (st', w', none) => (st', dropVals S acc w', none)
    | (st', w', some v) => runVals r ((x, v) :: acc) st' w'

/-- Store the values. -/
def bindAll : List (Id × Nat) → Store → Store
  | [], st => st
  | (x, v) :: r, st => upd (bindAll r st) x (some v)

/-- Run a branch with values for the variables. -/
def runVBranch (xs : List Id) (b : VBranch) (st : Store) (w : σ) : Store × σ × Option (List (Id × Nat)) :=
  let r := runStmts S b.all ⟨[], st, w, some 0⟩
  match r.flow with
  | none => (r.st, dropAll S r.ds r.st r.w, none)
  | some _ =>
    let q := runVals S (xs.zip b.vals) [] r.st r.w
    (q.1, dropAll S r.ds q.1 q.2.1, q.2.2)

/-- The values are stored in the new variables. -/
def bindNew (xs : List Id) (ds : List Id) : Store × σ × Option (List (Id × Nat)) → R σ
  | (st, w, none) => ⟨ds, st, w, none⟩
  | (st, w, some acc) => ⟨xs.reverse ++ ds, bindAll acc st, w, some 0⟩

/-- Run the branch that was selected. -/
def select {β : Type} (bs : List β) (f : β → Store → σ → R σ) (ds : List Id) : Store × σ × Option Nat → R σ
  | (st, w, none) => ⟨ds, st, w, none⟩
  | (st, w, some i) => match bs[i]? with
    | some b => f b st w
    | none => ⟨ds, st, w, none⟩

/-- Run a statement of the block. -/
def runItem : Item → List Id → Store → σ → R σ
  | .simple s, ds, st, w => runStmt S s ds st w
  | .choice sel bs, ds, st, w => select bs
      (fun b st w => ⟨ds, (runBranch S b st w).1, (runBranch S b st w).2.1, (runBranch S b st w).2.2⟩) ds (S.exec sel st w)
  | .letChoice xs sel bs, ds, st, w => select bs (fun b st w => bindNew xs ds (runVBranch S xs b st w)) ds (S.exec sel st w)

/-- Run the statements of a block. -/
def runItems : List Item → R σ → R σ
  | [], r => r
  | s :: ss, r => match r.flow with
    | none => r
    | some _ => runItems ss (runItem S s r.ds r.st r.w)

/-- Run a block. -/
def runBlock (b : Block) (st : Store) (w : σ) : Store × σ × Option Nat :=
  let r := close S (runItems S (b.stmts ++ b.tail.toList) ⟨[], st, w, some 0⟩)
  (r.1, r.2.1, value b.tail.isSome r.2.2)
end

/-- The same for the world, the flow and all variables but some. -/
def Same {σ : Type} (xs : List Id) (a b : Store × σ × Option Nat) : Prop :=
  a.2 = b.2 ∧ ∀ y, y ∉ xs → a.1 y = b.1 y

/-- The statements assign the variable once, and do not mention it before. -/
def Once (x : Id) : List Stmt → Prop
  | [] => False
  | s :: ss => (x ∉ s.mentions ∧ Once x ss) ∨
      (∃ c, s = .assign x c ∧ x ∉ c.uses ∧ ∀ t ∈ ss, ∀ c', t ≠ .assign x c')

/-- The statement gives the variable its value: an assignment, or branches that all give it its value unless they are
left; those that are left do not mention it. -/
def Gives (x : Id) : Item → Prop
  | .simple s => Once x [s]
  | .choice sel bs => x ∉ sel.uses ∧ ∀ b ∈ bs,
      (b.ty = .never → x ∉ b.all.flatMap Stmt.mentions) ∧ (b.ty ≠ .never → Once x b.all)
  | .letChoice _ _ _ => False

/-- Branches of type `!` do not come to their end. -/
def NeverEnds {σ : Type} (S : Sys σ) : Item → Prop
  | .choice _ bs => ∀ b ∈ bs, b.ty = .never → ∀ st w, (runBranch S b st w).2.2 = none
  | _ => True

/-- In the block, a variable declared without a value is declared once, and is not mentioned before. -/
def Scoped (b : Block) : Prop :=
  ∀ (x : Id) (i : Nat), b.stmts[i]? = some (.simple (.decl x)) →
    (∀ (j : Nat) (s : Item), b.stmts[j]? = some s → j ≠ i → x ∉ s.top) ∧
    (∀ (j : Nat) (s : Item), b.stmts[j]? = some s → j < i → x ∉ s.mentions) ∧
    (∀ s ∈ b.stmts ++ b.tail.toList, x ∉ s.inner) ∧ ∀ s ∈ b.tail, x ∉ s.top

/-- The declaration of the variable is no longer among the statements. -/
def Moved (b b' : Block) (x : Id) : Prop :=
  .simple (.decl x) ∈ b.stmts ∧ .simple (.decl x) ∉ b'.stmts

end Verif.LateInit
