import Verif.Fill.Spec

/-!
# Model: slow_vector_initialization.rs
-/

namespace Verif.Fill

/-- The visitor's state — clippy_lints/src/slow_vector_initialization.rs:232-243: the variable and the allocation that are looked
for, the size, the initialization that was found, `initialization_found`. -/
structure Vis where
  var : Nat
  target : Nat
  size : Option Ex
  slow : Option Nat
  found : Bool
  deriving DecidableEq, Repr

/-- `path.ident.name == sym::capacity` — clippy_lints/src/slow_vector_initialization.rs:270, 292. -/
def isCapacity : Ex → Bool
  | .cap _ => true
  | _ => false

/-- The length fits the size — clippy_lints/src/slow_vector_initialization.rs:267-274, 289-296. -/
def fits (size : Option Ex) (len : Ex) : Bool :=
  match size with
  | some e => len == e || isCapacity len
  | none => true

/-- The size afterwards — clippy_lints/src/slow_vector_initialization.rs:272, 295. -/
def newSize (size : Option Ex) (len : Ex) : Option Ex :=
  match size with
  | some e => some e
  | none => some len

/-- `search_slow_extend_filling` and `search_slow_resize_filling` for one statement —
clippy_lints/src/slow_vector_initialization.rs:247-280 (and 283-312). -/
def search (st : Vis) : S → Vis
  | .resize id v len zero =>
      if v = st.var ∧ zero = true ∧ fits st.size len = true then { st with size := newSize st.size len, slow := some id } else st
  | .extend id v len zero =>
      if v = st.var ∧ zero = true ∧ fits st.size len = true then { st with size := newSize st.size len, slow := some id } else st
  | _ => st

/-- `self.initialization_found = true` — clippy_lints/src/slow_vector_initialization.rs:344-348. -/
def atAlloc (st : Vis) (id : Nat) : Vis := if id = st.target then { st with found := true } else st

mutual
/-- `visit_stmt`, and `walk_stmt` if nothing has been found — clippy_lints/src/slow_vector_initialization.rs:316-330. -/
def visitStmt (st : Vis) (s : S) : Vis :=
  if st.found then { search st s with found := false } else walkExpr st s
termination_by (sizeOf s, 2)

/-- `visit_expr`, for an expression or statement — clippy_lints/src/slow_vector_initialization.rs:344-351. -/
def walkExpr (st : Vis) (s : S) : Vis :=
  match s with
  | .alloc id _ _ => atAlloc st id
  | .armAlloc id _ _ => atAlloc st id
  | .within b => visitBlock st b
  | _ => st
termination_by (sizeOf s, 1)

/-- `visit_block` — clippy_lints/src/slow_vector_initialization.rs:332-342: after the allocation, only the first statement. -/
def visitBlock (st : Vis) (b : S) : Vis :=
  if st.found then
    match b with
    | .cons s _ => { visitStmt st s with found := false }
    | _ => { st with found := false }
  else walkBlock st b
termination_by (sizeOf b, 1)

/-- `walk_block`: the statements and then the expression at the end — clippy_lints/src/slow_vector_initialization.rs:340. -/
def walkBlock (st : Vis) (b : S) : Vis :=
  match b with
  | .cons s rest => walkBlock (visitStmt st s) rest
  | .last s => walkExpr st s
  | _ => st
termination_by (sizeOf b, 0)
end

/-- `search_initialization` and `emit_lint` — clippy_lints/src/slow_vector_initialization.rs:164-183, 197-227: the place of the initialization, up to
which everything is replaced, and the length in `vec![0; len]`. -/
def check (block : S) (id v : Nat) (size : Option Ex) : Option (Nat × Option Ex) :=
  let st := walkBlock ⟨v, id, size, none, false⟩ block
  st.slow.map (fun f => (f, st.size))

end Verif.Fill
