/-!
# Blocks with late initialisations

Expressions are pieces of code that use some variables (the compiler's ids); what matters is which variables are
declared, assigned and used where.
-/

namespace Verif.LateInit

/-- Ids of variables. -/
abbrev Id := Nat

/-- A piece of code, by the variables it mentions. -/
structure Code where
  uses : List Id
  k : Nat
  deriving DecidableEq

/-- Simple statements. -/
inductive Stmt where
  /-- `let x;` -/
  | decl (x : Id)
  /-- `let x = c;`, or `let x @ p = c;` -/
  | init (x : Id) (sub : Bool) (c : Code)
  /-- `x = c;` -/
  | assign (x : Id) (c : Code)
  /-- `c;` -/
  | expr (c : Code)
  deriving DecidableEq

/-- The type of a branch. -/
inductive BTy where
  | never
  | unit
  | other
  deriving DecidableEq

/-- A branch of an `if` or `match`: statements and the expression at the end.  `x = c` without a block is a branch with
only a tail. -/
structure Branch where
  ty : BTy
  stmts : List Stmt
  tail : Option Stmt

/-- A branch that ends with values for declared variables; without values, it is a branch that never ends. -/
structure VBranch where
  stmts : List Stmt
  tail : Option Stmt
  vals : List Code

/-- Statements of the block. -/
inductive Item where
  | simple (s : Stmt)
  /-- `if` chains and `match`: the code selects a branch.  Where the last `else` is missing, the last branch is the
  expression `if c { .. }`. -/
  | choice (sel : Code) (bs : List Branch)
  /-- `let x = if ..`, `let (x, y) = match ..` -/
  | letChoice (xs : List Id) (sel : Code) (bs : List VBranch)

/-- A block: statements and the expression at the end. -/
structure Block where
  stmts : List Item
  tail : Option Item

/-- The variables that are mentioned. -/
def Stmt.mentions : Stmt → List Id
  | .decl _ => []
  | .init _ _ c => c.uses
  | .assign x c => x :: c.uses
  | .expr c => c.uses

/-- The statements of a branch, with the expression at the end. -/
def Branch.all (b : Branch) : List Stmt := b.stmts ++ b.tail.toList

/-- The same for a branch with values. -/
def VBranch.all (b : VBranch) : List Stmt := b.stmts ++ b.tail.toList

/-- The same for statements of a block. -/
def Item.mentions : Item → List Id
  | .simple s => s.mentions
  | .choice sel bs => sel.uses ++ bs.flatMap fun b => b.all.flatMap Stmt.mentions
  | .letChoice _ sel bs => sel.uses ++ bs.flatMap fun b => b.all.flatMap Stmt.mentions ++ b.vals.flatMap Code.uses

/-- The variables that are declared. -/
def Stmt.declares : Stmt → List Id
  | .decl x => [x]
  | .init x _ _ => [x]
  | .assign _ _ => []
  | .expr _ => []

/-- The variables a statement of the block declares for the rest of the block. -/
def Item.top : Item → List Id
  | .simple s => s.declares
  | .choice _ _ => []
  | .letChoice xs _ _ => xs

/-- The variables that are declared inside of branches. -/
def Item.inner : Item → List Id
  | .simple _ => []
  | .choice _ bs => bs.flatMap fun b => b.all.flatMap Stmt.declares
  | .letChoice _ _ bs => bs.flatMap fun b => b.all.flatMap Stmt.declares

/-- Where something is: at a statement, or at the end. -/
inductive Place where
  | stmt (i : Nat)
  | tail
  deriving DecidableEq

/-- The statement at a place. -/
def Block.at (b : Block) : Place → Option Item
  | .stmt i => b.stmts[i]?
  | .tail => b.tail

end Verif.LateInit
