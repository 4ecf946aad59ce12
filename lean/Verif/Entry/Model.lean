import Verif.Entry.Syntax

/-!
# Model: `map_entry`

`/repo/clippy_lints/src/entry.rs`.  Not modelled: macros, closures, `.await`, and the places of the texts: an edit is
applied to the insertion or to the semicolon it was made for.
-/

namespace Verif.Entry

/-- What the lint asks the compiler. -/
structure Facts where
  /-- `can_move_expr_to_closure_no_visit` inside of a number of loops, `/repo/clippy_utils/src/lib.rs:753-793`. -/
  movable : Nat → Nat → Bool
  /-- `can_have_side_effects` -/
  effects : Ex → Bool
  /-- The operands of the key mention the map. -/
  keyUsesMap : Bool
  /-- The type of the key is `Copy`. -/
  keyCopy : Bool
  /-- There is a comment in front of the first statement. -/
  comment : Bool

/-- `Edit`, `/repo/clippy_lints/src/entry.rs:335-340`. -/
inductive Edit where
  | removeSemi | insertion
  deriving DecidableEq, Repr

/-- `InsertSearcher`, `/repo/clippy_lints/src/entry.rs:361-391`. -/
structure Srch where
  allow : Bool
  can : Bool
  tail : Bool
  single : Bool
  mapUsed : Bool
  keyUsed : Bool
  edits : List Edit

/-- The start, `/repo/clippy_lints/src/entry.rs:727-743`. -/
def Srch.start : Srch := ⟨true, true, true, true, false, false, []⟩

/-- After `e;`, `/repo/clippy_lints/src/entry.rs:434-443`. -/
def Srch.afterSemi (st : Srch) : Srch :=
  if st.tail && st.allow then { st with edits := st.edits ++ [.removeSemi] } else st

/-- `allow_insert_closure &= !in_tail_pos` -/
def Srch.notTail (st : Srch) : Srch := { st with allow := st.allow && !st.tail }

/-- Before the initialiser of a variable, `/repo/clippy_lints/src/entry.rs:449-451`. -/
def Srch.forInit (st : Srch) : Srch := { st.notTail with tail := false, single := false }

/-- A statement that is not the last one is not in the tail position, `/repo/clippy_lints/src/entry.rs:474-489`. -/
def Srch.enter (st : Srch) (last : Bool) : Srch := if last then st else { st with tail := false }

/-- The arguments of an insertion do not change these, `/repo/clippy_lints/src/entry.rs:418-425`. -/
def Srch.restore (st st' : Srch) : Srch := { st' with tail := st.tail, allow := st.allow, single := st.single }

/-- After the arguments of an insertion, `/repo/clippy_lints/src/entry.rs:511-516`. -/
def Srch.record (st : Srch) : Srch :=
  { st with edits := st.edits ++ [.insertion], mapUsed := true, allow := st.allow && st.tail }

/-- Any other expression, `/repo/clippy_lints/src/entry.rs:577-582`. -/
def Srch.other (st : Srch) (movable : Bool) : Srch :=
  { st with allow := st.allow && !st.tail && movable, single := false, tail := false }

section
variable (fa : Facts)

mutual
/-- `visit_expr`, `/repo/clippy_lints/src/entry.rs:494-587`, inside of `d` loops. -/
def visit : Nat → Ex → Srch → Srch
  | d, .ins own v, st =>
    if !st.can then st else
    let st1 := st.restore (walk d v { st with mapUsed := st.mapUsed || fa.keyUsesMap })
    if st1.mapUsed || !own then { st1 with can := false } else
    let st2 := st1.record
    let st3 := visit d v { st2 with tail := false }
    { st3 with tail := st2.tail, single := st2.single }
  | _, .part _, st => if !st.can then st else { st with mapUsed := true }
  | _, .key, st => if !st.can then st else { st with keyUsed := true }
  | d, .ite c t e, st =>
    if !st.can then st else
    let st1 := visit d c { st with single := false, tail := false }
    let st2 := visit d t { st1 with tail := st.tail }
    let st3 := visit d e { st2 with mapUsed := st1.mapUsed, tail := st.tail }
    { st3 with mapUsed := st2.mapUsed || st3.mapUsed, tail := st.tail }
  | d, .when c t, st =>
    if !st.can then st else visit d t (visit d c (st.other true))
  | d, .mtch s as, st =>
    if !st.can then st else
    let st1 := visit d s { st with single := false, tail := false }
    let r := visitArms d as { st1 with tail := st.tail } st1.mapUsed
    { r.1 with mapUsed := r.2 }
  | d, .loop b, st =>
    if !st.can then st else
    let st1 := visitB (d + 1) b { st.notTail with single := false }
    if st1.edits.length != st.edits.length then { st1 with can := false } else st1
  | d, .blk b, st => if !st.can then st else visitB d b st
  | _, .asm _, st => { st with can := false }
  | d, .op n args, st =>
    if !st.can then st else visitAll d args (st.other (fa.movable n d))
  | _, .eIns _ _, st => { st with can := false }
/-- `walk_expr`: the parts of an expression. -/
def walk : Nat → Ex → Srch → Srch
  | d, .ins _ v, st => visit d v { st with mapUsed := true }
  | _, .part _, st => st
  | _, .key, st => st
  | d, .ite c t e, st => visit d e (visit d t (visit d c st))
  | d, .when c t, st => visit d t (visit d c st)
  | d, .mtch s as, st => walkArms d as (visit d s st)
  | d, .loop b, st => visitB d b st
  | d, .blk b, st => visitB d b st
  | _, .asm _, st => st
  | d, .op _ args, st => visitAll d args st
  | _, .eIns _ _, st => { st with can := false }
/-- Operands, in order. -/
def visitAll : Nat → Exs → Srch → Srch
  | _, .nil, st => st
  | d, .cons e es, st => visitAll d es (visit d e st)
/-- `visit_block` and `visit_stmt`, `/repo/clippy_lints/src/entry.rs:429-492`. -/
def visitB : Nat → Blk → Srch → Srch
  | _, .done, st => st.notTail
  | d, .tail e, st => visit d e st
  | d, .semi e r, st =>
    let st1 := (visit d e (st.enter r.isDone)).afterSemi
    if r.isDone then st1 else visitB d r { st1 with tail := st.tail }
  | d, .stmt e r, st =>
    let st1 := visit d e (st.enter r.isDone)
    if r.isDone then st1 else visitB d r { st1 with tail := st.tail }
  | d, .letWild e r, st =>
    let st1 := visit d e (st.enter r.isDone).forInit
    if r.isDone then st1 else visitB d r { st1 with tail := st.tail }
  | d, .let_ _ e r, st =>
    let st1 := visit d e (st.enter r.isDone).forInit
    if r.isDone then st1 else visitB d r { st1 with tail := st.tail }
  | d, .letElse _ e els r, st =>
    let st1 := visitB d els (visit d e (st.enter r.isDone).forInit)
    if r.isDone then st1 else visitB d r { st1 with tail := st.tail }
  | d, .decl r, st => if r.isDone then st else visitB d r st
  | d, .item r, st =>
    let st1 := { (st.enter r.isDone).notTail with single := false }
    if r.isDone then st1 else visitB d r { st1 with tail := st.tail }
/-- The arms of a `match`, `/repo/clippy_lints/src/entry.rs:548-557`. -/
def visitArms : Nat → Arms → Srch → Bool → Srch × Bool
  | _, .nil, st, acc => (st, acc)
  | d, .arm _ e r, st, acc =>
    let st1 := visit d e st
    visitArms d r { st1 with mapUsed := st.mapUsed, tail := st.tail } (acc || st1.mapUsed)
  | d, .guarded _ g e r, st, acc =>
    let st0 := visit d g { st with tail := false }
    let st1 := visit d e { st0 with tail := st.tail }
    visitArms d r { st1 with mapUsed := st0.mapUsed, tail := st.tail } (acc || st1.mapUsed)
/-- The parts of arms. -/
def walkArms : Nat → Arms → Srch → Srch
  | _, .nil, st => st
  | d, .arm _ e r, st => walkArms d r (visit d e st)
  | d, .guarded _ g e r, st => walkArms d r (visit d e (visit d g st))
end
end

mutual
/-- `snippet`, `/repo/clippy_lints/src/entry.rs:626-655`, with `snippet_occupied` (`657-669`) or `snippet_vacant`
(`671-692`); `used` is `is_expr_used_or_unified`, `/repo/clippy_utils/src/lib.rs:1996-2033`. -/
def rw_ (occ : Bool) : Bool → Ex → Ex
  | used, .ins _ v => .eIns (if used then (if occ then .someOf else .thenNone) else .raw) v
  | _, .part n => .part n
  | _, .key => .key
  | _, .ite c t e => .ite (rw_ occ true c) (rw_ occ true t) (rw_ occ true e)
  | _, .when c t => .when (rw_ occ true c) (rw_ occ false t)
  | used, .mtch s as => .mtch (rw_ occ true s) (rwArms occ (used || !as.isOne) as)
  | _, .loop b => .loop (rwB occ true b)
  | used, .blk b => .blk (rwB occ used b)
  | _, .asm n => .asm n
  | _, .op n args => .op n (rwAll occ args)
  | _, .eIns w v => .eIns w v
/-- The same for operands. -/
def rwAll (occ : Bool) : Exs → Exs
  | .nil => .nil
  | .cons e es => .cons (rw_ occ true e) (rwAll occ es)
/-- The same for blocks. -/
def rwB (occ : Bool) : Bool → Blk → Blk
  | _, .done => .done
  | used, .tail e => .tail (rw_ occ used e)
  | used, .semi e r => .semi (rw_ occ false e) (rwB occ used r)
  | used, .stmt e r => .stmt (rw_ occ false e) (rwB occ used r)
  | used, .letWild e r => .letWild (rw_ occ false e) (rwB occ used r)
  | used, .let_ p e r => .let_ p (rw_ occ true e) (rwB occ used r)
  | used, .letElse p e els r => .letElse p (rw_ occ true e) (rwB occ true els) (rwB occ used r)
  | used, .decl r => .decl (rwB occ used r)
  | used, .item r => .item (rwB occ used r)
/-- The same for arms. -/
def rwArms (occ : Bool) : Bool → Arms → Arms
  | _, .nil => .nil
  | used, .arm p e r => .arm p (rw_ occ used e) (rwArms occ used r)
  | used, .guarded p g e r => .guarded p (rw_ occ true g) (rw_ occ used e) (rwArms occ used r)
end

mutual
/-- `snippet_closure`, `/repo/clippy_lints/src/entry.rs:694-719`: the insertions are replaced by their values, the
semicolons in tail positions are removed. -/
def clo : Ex → Ex
  | .ins _ v => v
  | .part n => .part n
  | .key => .key
  | .ite c t e => .ite c (clo t) (clo e)
  | .when c t => .when c t
  | .mtch s as => .mtch s (cloArms as)
  | .loop b => .loop b
  | .blk b => .blk (cloB b)
  | .asm n => .asm n
  | .op n args => .op n args
  | .eIns w v => .eIns w v
/-- The same for blocks. -/
def cloB : Blk → Blk
  | .done => .done
  | .tail e => .tail (clo e)
  | .semi e r => if r.isDone then .tail (clo e) else .semi e (cloB r)
  | .stmt e r => if r.isDone then .tail (clo e) else .stmt e (cloB r)
  | .letWild e r => .letWild e (cloB r)
  | .let_ p e r => .let_ p e (cloB r)
  | .letElse p e els r => .letElse p e els (cloB r)
  | .decl r => .decl (cloB r)
  | .item r => .item (cloB r)
/-- The same for arms. -/
def cloArms : Arms → Arms
  | .nil => .nil
  | .arm p e r => .arm p (clo e) (cloArms r)
  | .guarded p g e r => .guarded p g (clo e) (cloArms r)
end

/-- The result of the lint: silent, a crash (`unwrap` of `None`), a report without a suggestion, or a suggestion. -/
inductive Res where
  | silent | crash | help
  | sugg (n : New)

/-- `find_insert_calls`, `/repo/clippy_lints/src/entry.rs:722-763`. -/
def find (fa : Facts) (e : Ex) : Option Srch :=
  let st := visit fa 0 e .start
  if st.can then some st else none

/-- The key is used and cannot be copied, `/repo/clippy_lints/src/entry.rs:756`. -/
def Srch.keyMoved (st : Srch) (fa : Facts) : Bool := st.keyUsed && !fa.keyCopy

/-- The insertion at the start of the block, `/repo/clippy_lints/src/entry.rs:170-172`. -/
def first (fa : Facts) : Blk → Option Ex
  | .semi (.ins _ v) _ => if fa.comment then none else some v
  | .tail (.ins _ v) => if fa.comment then none else some v
  | .stmt (.ins _ v) _ => if fa.comment then none else some v
  | _ => none

/-- `as_single_insertion`, `/repo/clippy_lints/src/entry.rs:622-624`, panics if the first edit is not an insertion. -/
def Srch.crashes (st : Srch) : Bool := st.single && st.edits.head? != some .insertion

/-- The insertion if it is the only one and at the start, `/repo/clippy_lints/src/entry.rs:169-173`. -/
def Srch.only (st : Srch) (fa : Facts) (b : Blk) : Option Ex := if st.single then first fa b else none

/-- Without `else`, `/repo/clippy_lints/src/entry.rs:153-195`. -/
def checkThen (fa : Facts) (neg : Bool) (b : Blk) (st : Srch) : Res :=
  if st.edits.isEmpty then .silent
  else if !st.allow then .sugg (.ifLet (!neg) (rw_ (!neg) false (.blk b)) none)
  else if st.crashes then .crash
  else if !neg then .silent
  else match st.only fa b with
    | some v => if fa.effects v then .sugg (.orInsertWith (.tail v)) else .sugg (.orInsert v)
    | none => .sugg (.orInsertWith (cloB b))

/-- With `else`, `/repo/clippy_lints/src/entry.rs:98-151`. -/
def checkElse (fa : Facts) (neg : Bool) (t e : Ex) (st se : Srch) : Res :=
  if st.edits.isEmpty && se.edits.isEmpty then .silent
  else if st.keyMoved fa || se.keyMoved fa then .help
  else if se.edits.isEmpty then .sugg (.ifLet (!neg) (rw_ (!neg) true t) (some e))
  else if st.edits.isEmpty then .sugg (.ifLet neg (rw_ neg true e) (some t))
  else if neg then .sugg (.both (rw_ false true t) (rw_ true true e))
  else .sugg (.both (rw_ false true e) (rw_ true true t))

/-- `check_expr`, `/repo/clippy_lints/src/entry.rs:66-213`. -/
def check (fa : Facts) (c : Check) : Res :=
  match find fa (.blk c.thn), c.els with
  | none, _ => .silent
  | some st, none => checkThen fa c.neg c.thn st
  | some st, some e =>
    match find fa e with
    | none => .silent
    | some se => checkElse fa c.neg (.blk c.thn) e st se

end Verif.Entry
