import Verif.Clones.Syntax
import Verif.Mir.Spec

/-! What the rest of a function sees if a value is not cloned. -/

namespace Verif.Clones.Spec

open Verif.Clones
open Verif.Mir (Local Place Elem Loc Body Ctx)
open Verif.Mir.Spec (IsUse)
open Verif.Borrow (Instr Rvalue Operand)

/-- A local is used at a position. -/
def Touches (m : Body) (l : Loc) (y : Local) : Prop :=
  ∃ a ∈ m.places l, (a.1.base = y ∧ IsUse a.2) ∨ .index y ∈ a.1.proj

/-- A use may change the local, or take its value away.  Shared references change it only if the type
has interior mutability. -/
def changing (cell : Bool) : Ctx → Bool
  | .store | .call | .asmOutput | .setDiscriminant | .yield | .mutBorrow | .rawBorrow | .retag | .move => true
  | .sharedBorrow => cell
  | _ => false

/-- A local may be changed at a position. -/
def changed (cell : Bool) (m : Body) (l : Loc) (y : Local) : Bool :=
  (m.places l).any fun a => decide (a.1.base = y) && changing cell a.2

/-- The meaning of positions: from the values of the locals before to those after. -/
abbrev Meaning (V : Type) := Loc → (Local → V) → Local → V

/-- What is not changed stays as it is, and new values depend on the values of the locals that are
used. -/
structure Fits {V : Type} (cell : Bool) (m : Body) (f : Meaning V) : Prop where
  frame : ∀ l σ y, changed cell m l y = false → f l σ y = σ y
  local_ : ∀ l σ σ' y, (∀ z, Touches m l z → σ z = σ' z) → changed cell m l y = true → f l σ y = f l σ' y

/-- The values after some positions. -/
def after {V : Type} (f : Meaning V) (w : List Loc) (σ : Local → V) : Local → V :=
  w.foldl (fun σ l => f l σ) σ

/-- What is seen if one local stands for the other one. -/
def view {V : Type} (x r : Local) (τ : Local → V) : Local → V := fun y => if y = r then τ x else τ y

/-- A position, with one local in place of the other one. -/
def shared {V : Type} (cell : Bool) (m : Body) (f : Meaning V) (x r : Local) (l : Loc) (τ : Local → V) :
    Local → V :=
  fun y => if y = x ∧ changed cell m l r = true then f l (view x r τ) r else f l (view x r τ) y

/-- The values after some positions, without the clone. -/
def afterShared {V : Type} (cell : Bool) (m : Body) (f : Meaning V) (x r : Local) (w : List Loc)
    (σ : Local → V) : Local → V :=
  w.foldl (fun τ l => shared cell m f x r l τ) σ

/-- The clone can be left out: whatever is executed after it, the locals that are used have the values
that they would have with the clone. -/
def SameValues (cell : Bool) (m : Body) (at_ : Loc) (x r : Local) : Prop :=
  ∀ (V : Type) (f : Meaning V), Fits cell m f → ∀ (σ : Local → V), σ r = σ x →
    ∀ (w : List Loc) (l : Loc), Mir.Spec.Walk m (at_ :: (w ++ [l])) → ∀ y, Touches m l y →
      after f w σ y = view x r (afterShared cell m f x r w σ) y

/-- The order of blocks agrees with execution, except in loops: so does every reverse postorder. -/
def Forward (m : Body) (order : List Nat) : Prop :=
  order.Pairwise fun b c => Mir.Spec.Leads m c b → Mir.Spec.Leads m b c

/-- Where the storage of the clone is gone, it is not used any more. -/
def Ends (m : Body) (at_ : Loc) (r : Local) (alive : Loc → Bool) : Prop :=
  ∀ l, Mir.Spec.After m at_ l → alive l = false →
    ∀ k, k = l ∨ Mir.Spec.After m l k → ¬ Touches m k r

/-- The uses of the local after the clone come one after the other, not in different branches. -/
def Chain (m : Body) (at_ : Loc) (x : Local) : Prop :=
  ∀ l k, Mir.Spec.After m at_ l → Mir.Spec.After m at_ k → Touches m l x → Touches m k x →
    l = k ∨ Mir.Spec.After m l k ∨ Mir.Spec.After m k l

/-- The changes of the local after the clone come one after the other. -/
def ChangeChain (cell : Bool) (m : Body) (at_ : Loc) (x : Local) : Prop :=
  ∀ l k, Mir.Spec.After m at_ l → Mir.Spec.After m at_ k → changed cell m l x = true →
    changed cell m k x = true → l = k ∨ Mir.Spec.After m l k ∨ Mir.Spec.After m k l

/-- A local is changed only by moving it or borrowing it mutably. -/
def Plain (cell : Bool) (m : Body) (at_ : Loc) (r : Local) : Prop :=
  ∀ l, Mir.Spec.After m at_ l → changed cell m l r = true →
    ∃ a ∈ m.places l, a.1.base = r ∧ (a.2 = .move ∨ a.2 = .mutBorrow)

/-- The local is never an index: it is not `Copy`. -/
def NoIndex (m : Body) (x : Local) : Prop := ∀ l, ∀ a ∈ m.places l, .index x ∉ a.1.proj

/-- The value of a place cannot be moved out. -/
def Stuck (T : PlaceTypes) (p : Place) : Prop :=
  ∃ pre e post, p.proj = pre ++ e :: post ∧
    (e = .deref ∨ (∃ n, e = .field n ∧ T.hasDrop ⟨p.base, pre⟩ = true) ∨
      ∃ i, e = .index i ∧ T.copy ⟨p.base, pre⟩ = false)

/-- The last assignment to a local among statements. -/
def LastAssigned (stmts : List Instr) (x : Local) (v : Rvalue) : Prop :=
  ∃ pre d g post, stmts = pre ++ .assign d g v :: post ∧ d.base = x ∧
    ∀ d' g' v', .assign d' g' v' ∈ post → d'.base ≠ x

/-- A value refers to a place: it is a reference to it, or, where the place holds a reference, a copy
of it or a reference to what it refers to. -/
def RefersTo (byRef : Bool) (v : Rvalue) (p : Place) : Prop :=
  (byRef = true ∧ ∃ k, v = .ref k p) ∨
    (byRef = false ∧ (v = .use (.copy p) ∨ ∃ k, v = .ref k p ∧ p.proj = [.deref]))

end Verif.Clones.Spec
