/-!
# Blocks that are nested too deeply: what is meant

A crate is a forest. A node is known by the nodes on the way to it, from an item of the crate down to the node itself.
-/

namespace Verif.Nesting

/-- What a node of the tree of syntax is. -/
inductive Kind where
  /-- A block with braces. -/
  | block
  /-- A trait, an implementation or a module that is written in place. -/
  | opener
  /-- A module in another file. -/
  | file
  /-- Made by a macro. -/
  | hidden
  /-- Anything else. -/
  | plain
  deriving DecidableEq, Repr

/-- A node: its number, what it is, and whether it comes from a macro of another crate. -/
structure Info where
  id : Nat
  kind : Kind
  ext : Bool
  deriving DecidableEq, Repr

inductive Tree where
  | node (i : Info) (cs : List Tree)

/-- The nodes from the root of a tree to a node in it. -/
inductive Path : Tree → List Info → Prop
  | here (i : Info) (cs : List Tree) : Path (.node i cs) [i]
  | down (i : Info) (cs : List Tree) (c : Tree) (p : List Info) : c ∈ cs → Path c p → Path (.node i cs) (i :: p)

/-- Nodes that are a level of nesting. -/
def Counts (i : Info) : Bool := i.kind = .block ∨ i.kind = .opener

/-- How deep the last node of a path is nested in its file. -/
def depth (p : List Info) : Nat := (p.reverse.takeWhile fun i => i.kind ≠ .file).countP Counts

/-- The last node of a path is a level of nesting beyond the threshold. -/
def TooDeep (t : Nat) (p : List Info) : Prop := ∃ a i, p = a ++ [i] ∧ Counts i = true ∧ i.ext = false ∧ t < depth p

/-- A node to report: it is too deep, none around it is, and no macro made it. -/
def Report (t : Nat) (p : List Info) : Prop :=
  TooDeep t p ∧ (∀ i ∈ p, i.kind ≠ .hidden) ∧ ∀ q r, p = q ++ r → r ≠ [] → ¬TooDeep t q

end Verif.Nesting
