/-! The data of lintcheck's preparation of sources. -/

namespace Verif.Sources

/-- Where the sources of a crate come from (`lintcheck/src/input.rs:77-92`), with the name of the
crate. -/
inductive Source
  | cratesIo (name version : String)
  | git (name url commit : String)
  | path (name path : String)
  deriving DecidableEq, Repr

/-- The contents of a directory: the files, with a number for the contents of each. -/
abbrev Files := String → Option Nat

/-- The world outside: the entries of the archive of a version, the files at a commit of a
repository and after cloning it, and the files of a local directory (without the directories marked
as caches). -/
structure World where
  crate : String → String → List (String × Nat)
  head : String → List (String × Nat)
  repo : String → String → Option (List (String × Nat))
  localDir : String → List (String × Nat)

/-- A directory on the disk: the repository it was cloned from, and its files. -/
structure Dir where
  origin : Option String
  files : Files

/-- The disk: which archives are there, and the directories with sources, both by name. -/
structure Disk where
  arch : String → Bool
  dir : String → Option Dir

/-- An entry of the list of crates (`lintcheck/src/input.rs:31-53`). -/
structure Entry where
  name : String
  version : Option String
  gitUrl : Option String
  gitHash : Option String
  path : Option String
  deriving DecidableEq, Repr

/-- The result of an attempt to download. -/
inductive Attempt
  | ok
  /-- no connection -/
  | transport
  /-- an answer with an error -/
  | status
  deriving DecidableEq, Repr

end Verif.Sources
