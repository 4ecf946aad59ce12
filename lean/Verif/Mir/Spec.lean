import Verif.Mir.Syntax

/-! Executions of a body: walks from position to position. -/

namespace Verif.Mir.Spec

open Verif.Mir

/-- One step of an execution. -/
inductive Step (m : Body) : Loc → Loc → Prop
  | next {b i} : i < (m.block b).stmts.length → Step m ⟨b, i⟩ ⟨b, i + 1⟩
  | jump {b s} : s ∈ m.succs b → Step m ⟨b, (m.block b).stmts.length⟩ ⟨s, 0⟩

/-- A position is executed after another one: one step later or more. -/
inductive After (m : Body) : Loc → Loc → Prop
  | one {l k} : Step m l k → After m l k
  | more {l k j} : Step m l k → After m k j → After m l j

/-- An execution, as far as it has got. -/
def Walk (m : Body) : List Loc → Prop
  | [] => True
  | [_] => True
  | l :: k :: r => Step m l k ∧ Walk m (k :: r)

/-- A block can be left and come to again. -/
inductive Leads (m : Body) : Nat → Nat → Prop
  | one {b c} : c ∈ m.succs b → Leads m b c
  | more {b c d} : c ∈ m.succs b → Leads m c d → Leads m b d

/-- Jumps lead to blocks that are there. -/
def Closed (m : Body) : Prop := ∀ b s, s ∈ m.succs b → s < m.length

/-- What counts as a use: not what happens when the local goes out of scope. -/
def IsUse (c : Ctx) : Prop := c ≠ .drop ∧ c ≠ .nonUse

/-- The local is consumed, inspected or borrowed to be changed. -/
def Consumes (c : Ctx) : Prop := c = .move ∨ c = .inspect ∨ c = .mutBorrow

instance (c : Ctx) : Decidable (IsUse c) := inferInstanceAs (Decidable (_ ∧ _))
instance (c : Ctx) : Decidable (Consumes c) := inferInstanceAs (Decidable (_ ∨ _))

/-- The whole local is given a new value here. -/
def Overwrites (x : Local) (a : Place × Ctx) : Prop :=
  a.1 = ⟨x, []⟩ ∧ (a.2 = .store ∨ a.2 = .call ∨ a.2 = .asmOutput)

instance (x : Local) (a : Place × Ctx) : Decidable (Overwrites x a) := inferInstanceAs (Decidable (_ ∧ _))

/-- How often the places at a position are about a local, in a way that counts. -/
def mentions (m : Body) (counts : Ctx → Bool) (x : Local) (l : Loc) : Nat :=
  (m.places l).countP fun a => decide (a.1.base = x) && counts a.2

/-- How often the local is the index of a place at a position. -/
def indices (m : Body) (x : Local) (l : Loc) : Nat :=
  ((m.places l).map fun a => a.1.proj.count (.index x)).sum

/-- How often the value of a local, or a part of it, is used at a position. -/
def reads (m : Body) (x : Local) (l : Loc) : Nat :=
  ((m.places l).countP fun a => decide (a.1.base = x) && (decide (IsUse a.2) && !decide (Overwrites x a))) +
    indices m x l

/-- The local is given a new value at a position. -/
def Assigned (m : Body) (x : Local) (l : Loc) : Prop := ∃ a ∈ m.places l, Overwrites x a

/-- The ways an operand can be used: it is not the target of an assignment. -/
def Operand (c : Ctx) : Prop := c ≠ .store ∧ c ≠ .call ∧ c ≠ .asmOutput

/-- Only the targets of assignments, calls and inline assembly are given new values. -/
def SaneStmt : Stmt → Prop
  | .assign _ r => ∀ a ∈ r, Operand a.2
  | .other r => ∀ a ∈ r, Operand a.2

/-- The same for operands of inline assembly. -/
def SaneAsm : AsmOp → Prop
  | .input _ c => Operand c
  | .out _ => True
  | .inout _ c _ => Operand c

/-- The same for terminators. -/
def SaneTerm : Term → Prop
  | .call _ r _ => ∀ a ∈ r, Operand a.2
  | .asm ops _ => ∀ o ∈ ops, SaneAsm o
  | .other r _ => ∀ a ∈ r, Operand a.2

/-- The same for bodies. -/
def Sane (m : Body) : Prop := ∀ b ∈ m, (∀ s ∈ b.stmts, SaneStmt s) ∧ SaneTerm b.term

/-- The local is not both input and output of inline assembly. -/
def NoInout (m : Body) (x : Local) : Prop :=
  ∀ b ∈ m, ∀ ops s, b.term = .asm ops s → ∀ p c, .inout p c (some ⟨x, []⟩) ∉ ops

/-- The blocks which can be come to from a block, each once: what rustc's traversals list. -/
def Lists (m : Body) (b : Nat) (order : List Nat) : Prop :=
  order.Nodup ∧ ∀ c, c ∈ order ↔ c = b ∨ Leads m b c

end Verif.Mir.Spec
