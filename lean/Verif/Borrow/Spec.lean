import Verif.Borrow.Syntax

/-! Which locals the values of locals refer to when a body is executed. -/

namespace Verif.Borrow.Spec

open Verif.Borrow
open Verif.Mir (Local Place Elem)

/-- One step or more. -/
inductive Reach (r : Local → Local → Prop) : Local → Local → Prop
  | one {x y} : r x y → Reach r x y
  | more {x y z} : r x y → Reach r y z → Reach r x z

/-- A state: which locals the value of a local refers to, and which it refers to by mutable
references. -/
structure State where
  refs : Local → Local → Prop
  mrefs : Local → Local → Prop

/-- What a new reference to a place refers to: the local, or something that the local refers to. -/
def Pointee (r : Local → Local → Prop) (p : Place) (t : Local) : Prop :=
  (.deref ∉ p.proj ∧ t = p.base) ∨ (.deref ∈ p.proj ∧ Reach r p.base t)

/-- What an operand refers to. -/
def Carries (r : Local → Local → Prop) (o : Operand) (t : Local) : Prop :=
  ∃ p, o.place = some p ∧ Reach r p.base t

/-- What a value refers to. -/
def Value (r : Local → Local → Prop) (t : Local) : Rvalue → Prop
  | .ref _ p => Pointee r p t
  | .derefCopy p => Reach r p.base t
  | .use o => Carries r o t
  | .cast o => Carries r o t
  | .ops os => ∃ o ∈ os, Carries r o t
  | .plain => False

/-- What a value refers to by mutable references. -/
def MutValue (r : Local → Local → Prop) (t : Local) : Rvalue → Prop
  | .ref true p => Pointee r p t
  | .ref false _ => False
  | .derefCopy p => Reach r p.base t
  | .use o => Carries r o t
  | .cast o => Carries r o t
  | .ops os => ∃ o ∈ os, Carries r o t
  | .plain => False

/-- Values of types without lifetimes contain no references, unless they are new references. -/
def MayRefer (region : Bool) : Rvalue → Prop
  | .ref _ _ => True
  | .derefCopy _ => True
  | _ => region = true

/-- A state is followed by another one: new references come from the value that is assigned, or from
the arguments of a call, and are stored in the target, or in what the callee can change. -/
inductive Step (T : Types) : State → Instr → State → Prop
  | assign {s s' d g v} :
      (∀ x t, s'.refs x t → s.refs x t ∨ (Pointee s.mrefs d x ∧ MayRefer g v ∧ Value s.refs t v)) →
      (∀ x y, s'.mrefs x y → s.mrefs x y ∨
        (Pointee s.mrefs d x ∧ T.holdsMut x = true ∧ MutValue s.mrefs y v)) →
      Step T s (.assign d g v) s'
  | call {s s' args d} :
      (∀ x t, s'.refs x t → s.refs x t ∨
        (((Pointee s.mrefs d x ∧ (.deref ∉ d.proj → T.region x = true)) ∨
            ∃ a ∈ args, Carries s.mrefs a x) ∧
          ∃ a ∈ args, Carries s.refs a t)) →
      (∀ x y, s'.mrefs x y → s.mrefs x y ∨
        ((Pointee s.mrefs d x ∨ ∃ a ∈ args, Carries s.mrefs a x) ∧
          T.holdsMut x = true ∧ ∃ a ∈ args, Carries s.mrefs a y)) →
      Step T s (.call args d) s'
  | other {s s'} : (∀ x t, s'.refs x t → s.refs x t) → (∀ x y, s'.mrefs x y → s.mrefs x y) →
      Step T s .other s'

/-- The states of executions: the instructions of a body in any order and as often as you like, which
includes all ways through it. -/
inductive Run (T : Types) (body : List Instr) : State → Prop
  | start {s} : (∀ x t, ¬ s.refs x t) → (∀ x y, ¬ s.mrefs x y) → Run T body s
  | step {s i s'} : Run T body s → i ∈ body → Step T s i s' → Run T body s'

/-- Whether the value passes on mutable references as a whole. -/
def Passes : Rvalue → Prop
  | .ref m _ => m = true
  | .use (.move _) => True
  | .cast (.move _) => True
  | _ => False

/-- Instructions with simple mutable references: nothing is assigned through a reference, there are no
mutable references to what contains mutable references or to the result, and they are made by borrowing, passed on by
moving, and passed to calls as they are. -/
def Simple (T : Types) : Instr → Prop
  | .assign d _ v => .deref ∉ d.proj ∧ (T.holdsMut d.base = true → Passes v) ∧
      ∀ p, v = .ref true p → .deref ∉ p.proj → T.holdsMut p.base = false ∧ p.base ≠ 0
  | .call args d => .deref ∉ d.proj ∧ T.holdsMut d.base = false ∧
      ∀ a ∈ args, ∀ p, a.place = some p → T.holdsMut p.base = true → T.mutRef p.base = true ∧ p.base ≠ 0
  | .other => True

/-- The locals of an instruction. -/
def Within (n : Nat) : Instr → Prop
  | .assign d _ v => d.base < n ∧ (match v with
      | .ref _ p => p.base < n
      | .derefCopy p => p.base < n
      | .use o => ∀ p, o.place = some p → p.base < n
      | .cast o => ∀ p, o.place = some p → p.base < n
      | .ops os => ∀ o ∈ os, ∀ p, o.place = some p → p.base < n
      | .plain => True)
  | .call args d => d.base < n ∧ ∀ a ∈ args, ∀ p, a.place = some p → p.base < n
  | .other => True

/-- A local is made by borrowing another one mutably, or by moving it. -/
inductive From (body : List Instr) : Local → Local → Prop
  | borrow {d g p} : .assign d g (.ref true p) ∈ body → From body d.base p.base
  | move {d g p} : .assign d g (.use (.move p)) ∈ body → From body d.base p.base
  | cast {d g p} : .assign d g (.cast (.move p)) ∈ body → From body d.base p.base

/-- A single instruction may make the second local refer to the first one, or to what it refers to. -/
inductive Lends (T : Types) (body : List Instr) : Local → Local → Prop
  | borrow {d g m p} : .assign d g (.ref m p) ∈ body → Lends T body p.base d.base
  | read {d g p} : .assign d g (.derefCopy p) ∈ body → Lends T body p.base d.base
  | use {d o p} : .assign d true (.use o) ∈ body → o.place = some p → p.base ≠ d.base →
      Lends T body p.base d.base
  | cast {d o p} : .assign d true (.cast o) ∈ body → o.place = some p → p.base ≠ d.base →
      Lends T body p.base d.base
  | part {d os o p} : .assign d true (.ops os) ∈ body → o ∈ os → o.place = some p → p.base ≠ d.base →
      Lends T body p.base d.base
  | result {args d o p} : .call args d ∈ body → o ∈ args → o.place = some p → T.region d.base = true →
      Lends T body p.base d.base
  | stored {args d o p o' p' y} : .call args d ∈ body → o ∈ args → o.place = some p → o' ∈ args →
      o'.place = some p' → T.mutRef p'.base = true → p'.base ≠ 0 → T.copy p'.base = false →
      Reach (From body) p'.base y → y ≠ 0 → Lends T body p.base y

end Verif.Borrow.Spec
