/-!
# Where the contents of an inline module would go: what is meant

Modules with a `path` attribute are left out. Then the language looks for the files of the modules inside of a module in the folder that has the names of all modules
around them, whether those are inline or in files of either style.
-/

namespace Verif.ModFile

/-- A module: its name, whether it is inline, whether its file is a `mod.rs`, whether it is only for tests, and whether a macro made it. -/
structure Mod where
  name : Nat
  inline : Bool
  modRs : Bool
  test : Bool
  exp : Bool
  deriving DecidableEq, Repr

inductive Tree where
  | node (m : Mod) (cs : List Tree)

/-- The modules from the root of a tree to one in it. -/
inductive Path : Tree → List Mod → Prop
  | here (m : Mod) (cs : List Tree) : Path (.node m cs) [m]
  | down (m : Mod) (cs : List Tree) (c : Tree) (p : List Mod) : c ∈ cs → Path c p → Path (.node m cs) (m :: p)

/-- The names of modules. -/
def names (p : List Mod) : List Nat := p.map Mod.name

/-- The folder in which the language looks for the files of modules inside of the last one. -/
def folder (src : List Nat) (p : List Mod) : List Nat := src ++ names p

/-- No module in a file lies inside of an inline module. -/
def FilesFirst (p : List Mod) : Prop := ∀ a m b, p = a ++ m :: b → m.inline = false → ∀ x ∈ a, x.inline = false

end Verif.ModFile
