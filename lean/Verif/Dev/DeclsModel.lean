import Verif.Common.StrOrd
import Verif.Dev.UtilsModel

/-!
# The module declarations and the list of lints of a crate

Model of the last part of `LintData::gen_decls` in `/repo/clippy_dev/src/generate.rs`. The separator of paths is a parameter.
-/

namespace Verif.Dev

/-- `str::strip_suffix`. -/
def stripSuffix? (suf s : Str) : Option Str := (Text.stripPrefix? suf.reverse s.reverse).map List.reverse

/-- `SourceFile::path_as_krate_mod`, /repo/clippy_dev/src/parse.rs:36-58: the crate and the module. -/
def krateMod (sep : Char) (path : Str) : Str × Str :=
  match Text.splitOnce sep path with
  | (_, none) => ([], [])
  | (krate, some path) =>
    match (Text.stripPrefix? (str!"src") path).bind fun p => (Text.stripPrefix? [sep] p).bind (stripSuffix? (str!".rs")) with
    | none => (krate, [])
    | some p =>
      if p = str!"lib" then (krate, [])
      else
        match (stripSuffix? (str!"mod") p).bind (stripSuffix? [sep]) with
        | some p => (krate, p)
        | none => (krate, p)

/-- An active lint: its name, its crate and its module path, generate.rs:43. -/
structure ActiveLint where
  name : Str
  krate : Str
  modPath : Str
deriving DecidableEq, Repr

/-- The order of `(krate, mod_path)`, generate.rs:48. -/
def pathLe (a b : ActiveLint) : Bool :=
  strLe a.krate b.krate && (!strLe b.krate a.krate || strLe a.modPath b.modPath)

/-- The module at the top, generate.rs:156. -/
def topModule (sep : Char) (modPath : Str) : Str := (Text.splitOnce sep modPath).1

/-- The modules declared for the lints of a crate, generate.rs:154-161; `prev` is the last one. -/
def declaredMods (sep : Char) : Str → List ActiveLint → List Str
  | _, [] => []
  | prev, l :: ls =>
    if topModule sep l.modPath ≠ prev then topModule sep l.modPath :: declaredMods sep (topModule sep l.modPath) ls
    else declaredMods sep prev ls

/-- `make_ascii_uppercase`. -/
def asciiUpper (s : Str) : Str := s.map Char.toUpper

/-- The entry of a lint in `declared_lints.rs`, generate.rs:173-182. -/
def lintEntry (sep : Char) (l : ActiveLint) : Str :=
  str!"crate::" ++ ((Text.split [sep] l.modPath).map fun p => p ++ str!"::").flatten ++ asciiUpper l.name ++ str!"_INFO"

/-- The loop over the crates, generate.rs:142-188: for each crate the modules and the entries. -/
def genDecls (sep : Char) (active : List ActiveLint) : List (Str × List Str × List Str) :=
  (sliceGroups (sameKey ActiveLint.krate) (sortBy pathLe active)).map fun g =>
    ((g.head?.map ActiveLint.krate).getD [], declaredMods sep [] g, g.map (lintEntry sep))

end Verif.Dev
