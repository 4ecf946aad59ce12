import Verif.Sources.Syntax

/-! What the preparation of sources is for: the directories which Clippy is run on hold the sources
that the list of crates asks for. -/

namespace Verif.Sources.Spec

open Verif.Sources

/-- A list of files has a file with this content: the last one of this name counts. -/
def Has (l : List (String × Nat)) (f : String) (x : Nat) : Prop :=
  ∃ a b, l = a ++ (f, x) :: b ∧ ∀ y, (f, y) ∉ b

/-- The files which are taken away, so that they don't select another toolchain. -/
def Toolchain (f : String) : Prop := f = "rust-toolchain" ∨ f = "rust-toolchain.toml"

/-- The directory has exactly these files, but none that selects a toolchain. -/
def Exactly (d : Dir) (l : List (String × Nat)) : Prop :=
  ∀ f x, d.files f = some x ↔ Has l f x ∧ ¬ Toolchain f

/-- The directory holds what the source stands for. -/
def Right (w : World) (d : Dir) : Source → Prop
  | .cratesIo n v => Exactly d (w.crate n v)
  | .git _ url commit => ∃ l, w.repo url commit = some l ∧ Exactly d l
  | .path _ p => Exactly d (w.localDir p)

/-- Two sources which can share a directory over time: the same version, or commits of the same
repository, or local directories. -/
def Related : Source → Source → Prop
  | .cratesIo n v, .cratesIo n' v' => n = n' ∧ v = v'
  | .git _ url _, .git _ url' _ => url = url'
  | .path _ _, .path _ _ => True
  | _, _ => False

/-- An entry of the list of crates is in order if it names exactly one kind of source, and all of
it. -/
inductive Means : Entry → Source → Prop
  | path {n p} : Means ⟨n, none, none, none, some p⟩ (.path n p)
  | version {n v} : Means ⟨n, some v, none, none, none⟩ (.cratesIo n v)
  | git {n u h} : Means ⟨n, none, some u, some h, none⟩ (.git n u h)

/-- A download succeeds: after at most four failures to connect. -/
def Succeeds (as : List Attempt) : Prop :=
  ∃ n rest, n ≤ 4 ∧ as = List.replicate n .transport ++ .ok :: rest

end Verif.Sources.Spec
