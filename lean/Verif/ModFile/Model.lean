import Verif.ModFile.Spec

/-!
# Where the contents of an inline module would go: the linter
-/

namespace Verif.ModFile

/-- `ModState` of a module in a file: its name, whether the file is a `mod.rs`, and the folder of the file; clippy_lints/src/module_style.rs:108-115, 147-157. -/
structure Regular where
  name : Nat
  modRs : Bool
  dir : List Nat
  deriving DecidableEq, Repr

/-- `ModStyle`: the two stacks, the last entry at the end; of an inline module only its name and whether it is for tests is used; clippy_lints/src/module_style.rs:117-122. -/
structure St where
  regular : List Regular
  inline : List (Nat × Bool)
  deriving DecidableEq, Repr

/-- `inside_cfg_test_inline_mod`; clippy_lints/src/module_style.rs:125-127. -/
def insideTest (st : St) : Bool :=
  match st.inline.getLast? with
  | some x => x.2
  | none => false

/-- `is_cfg_test` of the new entry; clippy_lints/src/module_style.rs:156. -/
def testOf (st : St) (m : Mod) : Bool := insideTest st || m.test

/-- The folder of the file that is read: that of the last module in a file, or the root; clippy_lints/src/module_style.rs:148-149, 273. -/
def fileDir (src : List Nat) (st : St) : List Nat :=
  match st.regular.getLast? with
  | some r => r.dir
  | none => src

/-- `opt_extra_mod_dir`; clippy_lints/src/module_style.rs:165-171. -/
def extra (st : St) : List Nat :=
  match st.regular.getLast? with
  | some r => if r.modRs then [] else [r.name]
  | none => []

/-- `mod_folder` of `check_inline_module`; clippy_lints/src/module_style.rs:172-180, 266-281. -/
def modFolder (src : List Nat) (st : St) : List Nat := fileDir src st ++ (extra st ++ st.inline.map Prod.fst)

/-- What is reported at an inline module: its name and the folder; clippy_lints/src/module_style.rs:160-181. -/
def report (src : List Nat) (st : St) (m : Mod) : List (Nat × List Nat) :=
  if m.inline && !testOf st m && !m.exp then [(m.name, modFolder src st)] else []

/-- The entry that is pushed; clippy_lints/src/module_style.rs:150-157, 182, 188. The folder of the file of a module is the one where the language finds it. -/
def push (src : List Nat) (at_ : List Nat) (st : St) (m : Mod) : St :=
  if m.inline then { st with inline := st.inline ++ [(m.name, testOf st m)] }
  else { st with regular := st.regular ++ [⟨m.name, m.modRs, if m.modRs then src ++ at_ ++ [m.name] else src ++ at_⟩] }

/-- `check_item_post`: the entry is removed; clippy_lints/src/module_style.rs:202-219. -/
def pop (st : St) (m : Mod) : St :=
  if m.inline then { st with inline := st.inline.dropLast } else { st with regular := st.regular.dropLast }

mutual
/-- The walk through a module: `check_item`, what is inside, `check_item_post`; clippy_lints/src/module_style.rs:139-220. -/
def visit (src : List Nat) (at_ : List Nat) : Tree → St → St × List (Nat × List Nat)
  | .node m cs, st =>
    (pop (visitAll src (at_ ++ [m.name]) cs (push src at_ st m)).1 m,
      report src st m ++ (visitAll src (at_ ++ [m.name]) cs (push src at_ st m)).2)
/-- The walk through the modules inside of one; clippy_lints/src/module_style.rs:139-220. -/
def visitAll (src : List Nat) (at_ : List Nat) : List Tree → St → St × List (Nat × List Nat)
  | [], st => (st, [])
  | c :: cs, st => ((visitAll src at_ cs (visit src at_ c st).1).1, (visit src at_ c st).2 ++ (visitAll src at_ cs (visit src at_ c st).1).2)
end

/-- The reports for a crate; clippy_lints/src/module_style.rs:134-221. -/
def check (src : List Nat) (mods : List Tree) : List (Nat × List Nat) := (visitAll src [] mods ⟨[], []⟩).2

end Verif.ModFile
