import Verif.Nesting.Spec

/-!
# Blocks that are nested too deeply: the linter
-/

namespace Verif.Nesting

/-- `NestingVisitor` with the set of nodes of `ExcessiveNesting`; clippy_lints/src/excessive_nesting.rs:67-70, 120-124. -/
structure St where
  level : Nat
  nodes : List Nat
  deriving DecidableEq, Repr

/-- `check_indent`; clippy_lints/src/excessive_nesting.rs:127-137. -/
def checkIndent (t : Nat) (i : Info) (st : St) : Bool × St :=
  if st.level > t && !i.ext then (true, { st with nodes := i.id :: st.nodes }) else (false, st)

mutual
/-- `visit_block` and `visit_item`, and the walk through anything else; clippy_lints/src/excessive_nesting.rs:141-188. Blocks without braces of their own count as
made by a macro (lines 146-151). -/
def visit (t : Nat) : Tree → St → St
  | .node i cs, st =>
    match i.kind with
    | .hidden => st
    | .block => leave (enter t i cs { st with level := st.level + 1 })
    | .opener => leave (enter t i cs { st with level := st.level + 1 })
    | .file => { st with nodes := (visitAll t cs { level := 0, nodes := st.nodes }).nodes }
    | .plain => visitAll t cs st
/-- The walk below a level that is not reported; clippy_lints/src/excessive_nesting.rs:155-157, 171-173. -/
def enter (t : Nat) (i : Info) (cs : List Tree) (st : St) : St :=
  if (checkIndent t i st).1 then (checkIndent t i st).2 else visitAll t cs (checkIndent t i st).2
/-- The walk through the children of a node, or the items of a crate; clippy_lints/src/excessive_nesting.rs:106-108, 156, 172, 186. -/
def visitAll (t : Nat) : List Tree → St → St
  | [], st => st
  | c :: cs, st => visitAll t cs (visit t c st)
/-- `nest_level -= 1`; clippy_lints/src/excessive_nesting.rs:159, 175. -/
def leave (st : St) : St := { st with level := st.level - 1 }
end

/-- `check_crate`; clippy_lints/src/excessive_nesting.rs:95-109. -/
def checkCrate (t : Nat) (items : List Tree) : List Nat :=
  if t = 0 then [] else (visitAll t items { level := 0, nodes := [] }).nodes

/-- `check_node_id` for a block or an item; clippy_lints/src/excessive_nesting.rs:80-91, 111-117. -/
def linted (t : Nat) (items : List Tree) (i : Info) : Bool := (checkCrate t items).contains i.id

end Verif.Nesting
