/-! Bodies of the compiler's intermediate representation, as far as the analyses of locals look at
them. -/

namespace Verif.Mir

abbrev Local := Nat

/-- A step of a place from a local. -/
inductive Elem
  | deref
  | field (n : Nat)
  /-- indexing by the value of a local -/
  | index (i : Local)
  deriving DecidableEq, Repr

/-- A place: a local and steps from there. -/
structure Place where
  base : Local
  proj : List Elem
  deriving DecidableEq, Repr

/-- How a place is used (rustc's `PlaceContext`). -/
inductive Ctx
  /-- target of an assignment -/
  | store
  /-- target of a call -/
  | call
  | asmOutput
  | setDiscriminant
  | yield
  | drop
  | mutBorrow
  | rawBorrow
  | retag
  | inspect
  | copy
  | move
  | sharedBorrow
  | fakeBorrow
  | placeMention
  /-- debug information and the like: no use -/
  | nonUse
  deriving DecidableEq, Repr

/-- An operand of inline assembly. -/
inductive AsmOp
  | input (p : Place) (c : Ctx)
  | out (p : Option Place)
  | inout (p : Place) (c : Ctx) (o : Option Place)
  deriving DecidableEq, Repr

/-- A statement: an assignment, or another one, with the places that it mentions. -/
inductive Stmt
  | assign (dest : Place) (rest : List (Place × Ctx))
  | other (rest : List (Place × Ctx))
  deriving DecidableEq, Repr

/-- A terminator: a call, inline assembly or another one, with the blocks where it goes on. -/
inductive Term
  | call (dest : Place) (rest : List (Place × Ctx)) (succs : List Nat)
  | asm (ops : List AsmOp) (succs : List Nat)
  | other (rest : List (Place × Ctx)) (succs : List Nat)
  deriving DecidableEq, Repr

structure BlockData where
  stmts : List Stmt
  term : Term
  deriving DecidableEq, Repr

abbrev Body := List BlockData

/-- A position in a body: a block, and the number of a statement, or their number for the
terminator. -/
structure Loc where
  block : Nat
  idx : Nat
  deriving DecidableEq, Repr

/-- The successors of a terminator. -/
def Term.succs : Term → List Nat
  | .call _ _ s => s
  | .asm _ s => s
  | .other _ s => s

/-- The places of an operand of inline assembly. -/
def AsmOp.places : AsmOp → List (Place × Ctx)
  | .input p c => [(p, c)]
  | .out none => []
  | .out (some p) => [(p, .asmOutput)]
  | .inout p c none => [(p, c)]
  | .inout p c (some o) => [(p, c), (o, .asmOutput)]

/-- The places of a statement, with their uses. -/
def Stmt.places : Stmt → List (Place × Ctx)
  | .assign d r => (d, .store) :: r
  | .other r => r

/-- The places of a terminator, with their uses. -/
def Term.places : Term → List (Place × Ctx)
  | .call d r _ => r ++ [(d, .call)]
  | .asm ops _ => ops.flatMap AsmOp.places
  | .other r _ => r

/-- A block of a body; there is nothing in blocks that are not there. -/
def Body.block (m : Body) (b : Nat) : BlockData := m[b]?.getD ⟨[], .other [] []⟩

/-- The successors of a block. -/
def Body.succs (m : Body) (b : Nat) : List Nat := (m.block b).term.succs

/-- The places at a position. -/
def Body.places (m : Body) (l : Loc) : List (Place × Ctx) :=
  match (m.block l.block).stmts[l.idx]? with
  | some s => s.places
  | none => if l.idx = (m.block l.block).stmts.length then (m.block l.block).term.places else []

end Verif.Mir
