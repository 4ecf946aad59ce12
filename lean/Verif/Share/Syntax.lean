/-!
# Syntax: the blocks of an `if`, with resolved variables and as text
-/

namespace Verif.Share

/-- A variable, as the compiler knows it: each declaration has its own. -/
abbrev Id := Nat
/-- A variable, as it is written. -/
abbrev Name := Nat

/-- Code that mentions variables. -/
structure Code where
  op : Nat
  uses : List Id
  deriving DecidableEq, Repr

/-- Statements; `site` is the macro call they come from (each statement has its own, if there is none). -/
inductive Stmt where
  | let_ (site p : Nat) (xs : List Id) (c : Code)
  | expr (site : Nat) (c : Code)
  deriving DecidableEq, Repr

structure Block where
  stmts : List Stmt
  tail : Option Code
  deriving DecidableEq, Repr

/-- The variables a statement declares. -/
def Stmt.binders : Stmt → List Id
  | .let_ _ _ xs _ => xs
  | .expr _ _ => []

def Stmt.code : Stmt → Code
  | .let_ _ _ _ c => c
  | .expr _ c => c

def Stmt.site : Stmt → Nat
  | .let_ n _ _ _ => n
  | .expr n _ => n

/-- The text of code: variables are names. -/
structure TCode where
  op : Nat
  uses : List Name
  deriving DecidableEq, Repr

/-- The text of a statement. -/
inductive TStmt where
  | let_ (p : Nat) (xs : List Name) (c : TCode)
  | expr (c : TCode)
  deriving DecidableEq, Repr

structure TBlock where
  stmts : List TStmt
  tail : Option TCode
  deriving DecidableEq, Repr

/-- A program: statements, then an `if` chain with the last block in its `else`, then perhaps a continuation: statements
and an expression. -/
structure Prog where
  before : List TStmt
  conds : List TCode
  blocks : List TBlock
  after : Option TBlock
  deriving DecidableEq, Repr

section
variable (nm : Id → Name)

def Code.text (c : Code) : TCode := ⟨c.op, c.uses.map nm⟩

def Stmt.text : Stmt → TStmt
  | .let_ _ p xs c => .let_ p (xs.map nm) (c.text nm)
  | .expr _ c => .expr (c.text nm)

def Block.text (b : Block) : TBlock := ⟨b.stmts.map (Stmt.text nm), b.tail.map (Code.text nm)⟩
end

end Verif.Share
