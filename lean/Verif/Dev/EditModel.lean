import Verif.Dev.DeclsModel

/-!
# The commands which deprecate, uplift and rename a lint

Model of `/repo/clippy_dev/src/edit_lints.rs`. A source file is the list of its tokens, as cut by `rustc_lexer`; its text is the
concatenation of their texts. The cursor of `/repo/clippy_dev/src/parse/cursor.rs` is the list of the tokens not yet consumed.
`dst`, `copy_pos` and the final copy are modelled by the list of the pieces of the output: everything not replaced is copied.
-/

namespace Verif.Dev

/-- The kinds of token the edits look at; `comment` is a line comment which isn't a doc comment. -/
inductive TokKind
  | ident | colon | semi | ws | comment | other
deriving DecidableEq, Repr

/-- A token and its text. -/
structure Tok where
  kind : TokKind
  text : Str
deriving DecidableEq, Repr

/-- The patterns used by the edits, /repo/clippy_dev/src/parse/cursor.rs:11-36. -/
inductive Pat
  | ident (s : Str) | semi | doubleColon | captureIdent
deriving DecidableEq, Repr

/-- The result of a match: the tokens consumed, whether the pattern matched and the tokens left. A captured token is the last token
consumed. -/
structure Match where
  used : List Tok
  ok : Bool
  rest : List Tok
deriving DecidableEq, Repr

/-- The arms of `match_impl` at a token which isn't white space, parse/cursor.rs:128-163, 210-214, 237. -/
def matchTok (p : Pat) : List Tok → Match
  | [] => ⟨[], false, []⟩
  | t :: r =>
    match p with
    | .ident s => if t.kind = .ident ∧ t.text = s then ⟨[t], true, r⟩ else ⟨[], false, t :: r⟩
    | .captureIdent => if t.kind = .ident then ⟨[t], true, r⟩ else ⟨[], false, t :: r⟩
    | .semi => if t.kind = .semi then ⟨[t], true, r⟩ else ⟨[], false, t :: r⟩
    | .doubleColon =>
      if t.kind = .colon then
        match r with
        | [] => ⟨[t], false, []⟩
        | t' :: r' => if t'.kind = .colon then ⟨[t, t'], true, r'⟩ else ⟨[t], false, t' :: r'⟩
      else ⟨[], false, t :: r⟩

/-- `match_impl`, parse/cursor.rs:119-240: white space is skipped first. -/
def matchPat (p : Pat) : List Tok → Match
  | [] => matchTok p []
  | t :: r =>
    if t.kind = .ws then
      let m := matchPat p r
      ⟨t :: m.used, m.ok, m.rest⟩
    else matchTok p (t :: r)

/-- `match_all`, parse/cursor.rs:343-346: tokens consumed before a failure stay consumed. -/
def matchAll : List Pat → List Tok → Match
  | [], l => ⟨[], true, l⟩
  | p :: ps, l =>
    if (matchPat p l).ok then
      let m' := matchAll ps (matchPat p l).rest
      ⟨(matchPat p l).used ++ m'.used, m'.ok, m'.rest⟩
    else matchPat p l

/-- The texts of some tokens. -/
def texts (l : List Tok) : List Str := l.map Tok.text

/-- The text of a file. -/
def srcText (l : List Tok) : Str := (texts l).flatten

/-- `copy_pos += 1` when the rest of the text starts with a line break, edit_lints.rs:341-343. -/
def dropNl : List Tok → List Tok
  | ⟨k, '\n' :: s⟩ :: r => ⟨k, s⟩ :: r
  | l => l

theorem dropNl_length (l : List Tok) : (dropNl l).length = l.length := by
  unfold dropNl; split <;> rfl

/-- `uplift_update_fn`, edit_lints.rs:324-359. The number bounds the steps; the length of the input is enough. -/
def uplift (old new : Str) (removeMod : Bool) : Nat → List Tok → Str
  | 0, l => srcText l
  | _ + 1, [] => []
  | n + 1, t :: r =>
    if t.kind ≠ .ident then t.text ++ uplift old new removeMod n r
    else if t.text = str!"mod" ∧ removeMod = true then
      let m := matchAll [.ident old, .semi] r
      if m.ok then new ++ uplift old new removeMod n (dropNl m.rest)
      else t.text ++ srcText m.used ++ uplift old new removeMod n m.rest
    else if t.text = str!"clippy" then
      let m := matchAll [.doubleColon, .ident old] r
      if m.ok then new ++ uplift old new removeMod n m.rest
      else t.text ++ srcText m.used ++ uplift old new removeMod n m.rest
    else t.text ++ uplift old new removeMod n r

/-- The update of a file by `uplift`. -/
def upliftFile (old new : Str) (removeMod : Bool) (l : List Tok) : Str := uplift old new removeMod l.length l

/-- The loop of `snake_to_pascal` after the first byte, edit_lints.rs:310-316. -/
def pascalGo : Str → Str
  | [] => []
  | ['_'] => []
  | '_' :: d :: cs => d.toUpper :: pascalGo cs
  | c :: cs => c :: pascalGo cs

/-- `snake_to_pascal`, edit_lints.rs:305-320. -/
def snakeToPascal : Str → Str
  | [] => []
  | c :: cs => c.toUpper :: pascalGo cs

/-- The characters tested at edit_lints.rs:434. -/
def isIdChar (c : Char) : Bool :=
  ('a'.toNat ≤ c.toNat && c.toNat ≤ 'z'.toNat) || ('A'.toNat ≤ c.toNat && c.toNat ≤ 'Z'.toNat) ||
    ('0'.toNat ≤ c.toNat && c.toNat ≤ '9'.toNat) || c = '_'

/-- `!text.ends_with(..)`, edit_lints.rs:434. -/
def endsFree (s : Str) : Bool :=
  match s.reverse with
  | [] => true
  | c :: _ => !isIdChar c

/-- The text of a comment after the edit, edit_lints.rs:430-442. -/
def renameComment (old new s : Str) : Str :=
  match if (str!"//~").isPrefixOf s then stripSuffix? old s else none with
  | some pre => if endsFree pre then pre ++ new else s
  | none => s

/-- The names used by `rename_update_fn`. -/
structure Names where
  old : Str
  new : Str
  oldPascal : Str
  newPascal : Str
  oldUpper : Str
  newUpper : Str
deriving DecidableEq, Repr

/-- The names computed at edit_lints.rs:366-369. -/
def Names.of (old new : Str) : Names := ⟨old, new, snakeToPascal old, snakeToPascal new, asciiUpper old, asciiUpper new⟩

/-- Puts the new name in place of the last of the tokens if they matched and the last is the old name, edit_lints.rs:385-392, 445-452. -/
def replaceLast (N : Names) (m : Match) : List Str :=
  if m.ok = true ∧ (m.used.getLast?.map Tok.text) = some N.old then texts m.used.dropLast ++ [N.new] else texts m.used

/-- The tokens consumed by one turn of the loop of `rename_update_fn` with their new texts, and the tokens left,
edit_lints.rs:376-454. -/
def renameStep (N : Names) (renameMod : Bool) (t : Tok) (r : List Tok) : List Str × List Tok :=
  match t.kind with
  | .ident =>
    if t.text = str!"clippy" then
      let m := matchAll [.doubleColon, .captureIdent] r
      (t.text :: replaceLast N m, m.rest)
    else if t.text = str!"mod" then
      if renameMod then
        let m := matchPat (.ident N.old) r
        (t.text :: replaceLast N m, m.rest)
      else ([t.text], r)
    else if renameMod = true ∧ t.text = N.old then
      let m := matchPat .doubleColon r
      ((if m.ok then N.new else t.text) :: texts m.used, m.rest)
    else if t.text = N.oldUpper then ([N.newUpper], r)
    else if t.text = N.oldPascal then ([N.newPascal], r)
    else ([t.text], r)
  | .comment => ([renameComment N.old N.new t.text], r)
  | .colon =>
    let m := matchAll [.doubleColon, .captureIdent] (t :: r)
    if m.ok = true ∧ (m.used.getLast?.map Tok.text) = some N.old then (replaceLast N m, m.rest)
    else (texts m.used ++ texts (m.rest.take 1), m.rest.drop 1)
  | _ => ([t.text], r)

/-- `rename_update_fn`, edit_lints.rs:361-460. The number bounds the turns of the loop. -/
def renameGo (N : Names) (renameMod : Bool) : Nat → List Tok → List Str
  | 0, l => texts l
  | _ + 1, [] => []
  | n + 1, t :: r => (renameStep N renameMod t r).1 ++ renameGo N renameMod n (renameStep N renameMod t r).2

/-- The new texts of the tokens of a file. -/
def renameToks (old new : Str) (renameMod : Bool) (l : List Tok) : List Str := renameGo (Names.of old new) renameMod l.length l

/-- The update of a file by `rename`. -/
def renameFile (old new : Str) (renameMod : Bool) (l : List Tok) : Str := (renameToks old new renameMod l).flatten

/-! ## The table of lints -/

/-- `LintName`, /repo/clippy_dev/src/parse.rs:179-211: the tool and the name. -/
inductive Target
  | clippy (n : Str) | rustc (n : Str)
deriving DecidableEq, Repr

/-- `Lint`, parse.rs:236-240; the reason, the version and the location aren't modelled. -/
inductive LintSt
  | active | deprecated | renamed (to : Target)
deriving DecidableEq, Repr

/-- `LintData::lints`: a map from names. -/
abbrev Table := List (Str × LintSt)

/-- Looks up a name. -/
def Table.get (T : Table) (n : Str) : Option LintSt := (T.find? fun e => e.1 = n).map Prod.snd

/-- Overwrites the entry of a name which is present. -/
def Table.set (T : Table) (n : Str) (s : LintSt) : Table := T.map fun e => if e.1 = n then (e.1, s) else e

/-- `update_rename_targets`, edit_lints.rs:190-199. -/
def updateTargets (T : Table) (old : Str) (new : Target) : Table :=
  T.map fun e => if e.2 = .renamed (.clippy old) then (e.1, .renamed new) else e

/-- A command. -/
inductive Cmd
  | deprecate (n : Str) | uplift (old new : Str) | rename (old new : Str)
deriving DecidableEq, Repr

/-- The outcome of a command: an error message, or the message of success. `saved` says whether `gen_decls` writes the table. -/
inductive Outcome
  | notFound | notActive | done (saved : Bool)
deriving DecidableEq, Repr

/-- `deprecate`, `uplift` and `rename` on the table, edit_lints.rs:23-45, 47-79, 96-152. The first component is the table in memory at
the end. -/
def exec (T : Table) : Cmd → Table × Outcome
  | .deprecate n =>
    match T.get n with
    | none => (T, .notFound)
    | some .active => (T.set n .deprecated, .done true)
    | some _ => (T.set n .deprecated, .notActive)
  | .uplift old new =>
    let T1 := updateTargets T old (.rustc new)
    match T1.get old with
    | none => (T1, .notFound)
    | some .active => (T1.set old (.renamed (.rustc new)), .done true)
    | some _ => (T1.set old (.renamed (.rustc new)), .notActive)
  | .rename old new =>
    let T1 := updateTargets T old (.clippy new)
    match T1.get old with
    | none => (T1, .notFound)
    | some .active =>
      let T2 := T1.set old (.renamed (.clippy new))
      if (T2.get new).isNone then (T2 ++ [(new, .active)], .done true) else (T2, .done false)
    | some _ => (T1.set old (.renamed (.clippy new)), .notActive)

/-- The table found by the next command: the one in the files. -/
def runCmd (T : Table) (c : Cmd) : Table :=
  match exec T c with
  | (T', .done true) => T'
  | _ => T

/-! ## The test files -/

/-- `create_ignored_prefixes`, edit_lints.rs:202-208; lengths are counted in characters, all names being ASCII. -/
def ignoredPrefixes (name : Str) (lints : List Str) : List Str :=
  lints.filter fun x => decide (x.length > name.length) && name.isPrefixOf x

/-- `collect_ui_test_names` and `collect_ui_toml_test_names` on the entries of the right type, edit_lints.rs:210-239. -/
def collectTests (lint : Str) (ignored entries : List Str) : List Str :=
  entries.filter fun f => lint.isPrefixOf f && !(ignored.any fun p => p.isPrefixOf f)

/-- A loop over test names with a path buffer: `buf.push(name)`, an action on the path, `buf.truncate(keep)`; the paths acted on. -/
def bufPaths (keep : Nat) : Str → List Str → List Str
  | _, [] => []
  | buf, n :: ns => (buf ++ n) :: bufPaths keep ((buf ++ n).take keep) ns

/-- The paths deleted by `delete_test_files`, edit_lints.rs:278-303: both loops truncate to the length of `tests/ui/`. -/
def deletedTests (lint : Str) (lints ui uiToml : List Str) : List Str :=
  bufPaths (str!"tests/ui/").length (str!"tests/ui/") (collectTests lint (ignoredPrefixes lint lints) ui) ++
    bufPaths (str!"tests/ui/").length (str!"tests/ui-toml/") (collectTests lint (ignoredPrefixes lint lints) uiToml)

/-- The paths renamed by `rename_test_files`, edit_lints.rs:243-274: the old and the new path. -/
def renamedTests (old new : Str) (lints ui uiToml : List Str) : List (Str × Str) :=
  let u := collectTests old (ignoredPrefixes old lints) ui
  let t := collectTests old (ignoredPrefixes old lints) uiToml
  let newName := fun n : Str => new ++ n.drop old.length
  (bufPaths (str!"tests/ui/").length (str!"tests/ui/") u).zip
      (bufPaths (str!"tests/ui/").length (str!"tests/ui/") (u.map newName)) ++
    (bufPaths (str!"tests/ui/").length (str!"tests/ui-toml/") t).zip
      (bufPaths (str!"tests/ui/").length (str!"tests/ui-toml/") (t.map newName))

/-- The text left when the declaration of a lint is removed, edit_lints.rs:165-178; the range of the declaration cuts the text in
`a`, the declaration and `b`. -/
def removeDecl (a b : Str) : Str :=
  (if (str!"\n\n").isPrefixOf a.reverse then a.dropLast else a) ++ (if (str!"\n\n").isPrefixOf b then b.drop 1 else b)

end Verif.Dev
