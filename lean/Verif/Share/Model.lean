import Verif.Share.Syntax

/-!
# Model: `branches_sharing_code`

`/repo/clippy_lints/src/ifs/branches_sharing_code.rs`, for `if` chains.  Not modelled: items, the hygiene of macros,
`if let`; an expression is its operation and the variables it mentions.
-/

namespace Verif.Share

/-- What the lint asks the compiler. -/
structure Facts where
  /-- `needs_ordered_drop` for the type of a variable -/
  ordered : Id → Bool
  /-- `capture_local_usage(..).is_imm_ref()` for one of the variables an operation mentions -/
  imm : Nat → Nat → Bool
  /-- `hash_stmt` -/
  hash : Stmt → Nat
  /-- `hash_expr` -/
  hashE : Code → Nat

/-- `HirEqInterExpr::locals`, `/repo/clippy_utils/src/hir_utils.rs:166`. -/
abbrev Locals := Id → Option Id

/-- `locals.insert` -/
def Locals.set (L : Locals) (l r : Id) : Locals := fun x => if x = l then some r else L x

/-- `locals.swap_remove`, for several keys. -/
def Locals.erase (L : Locals) (ks : List Id) : Locals := fun x => if ks.contains x then none else L x

/-- All variables of two patterns of the same shape. -/
def Locals.setAll (L : Locals) : List Id → List Id → Locals
  | x :: xs, y :: ys => (L.set x y).setAll xs ys
  | _, _ => L

/-- `eq_path` for variables, `/repo/clippy_utils/src/hir_utils.rs:837`. -/
def eqUses (L : Locals) : List Id → List Id → Bool
  | [], [] => true
  | u :: us, v :: vs => (u == v || L u == some v) && eqUses L us vs
  | _, _ => false

/-- `eq_expr`: the same operation on corresponding variables. -/
def eqCode (L : Locals) (l r : Code) : Bool := l.op == r.op && eqUses L l.uses r.uses

/-- `eq_stmt`, `/repo/clippy_utils/src/hir_utils.rs:177-206`: the variables of the patterns correspond, if everything else
is equal. -/
def eqStmt (L : Locals) : Stmt → Stmt → Option Locals
  | .let_ _ p xs c, .let_ _ q ys d =>
    if eqCode L c d && p == q && xs.length == ys.length then some (L.setAll xs ys) else none
  | .expr _ c, .expr _ d => if eqCode L c d then some L else none
  | _, _ => none

/-- `eq_binding_names`, `/repo/clippy_lints/src/ifs/branches_sharing_code.rs:241-269`. -/
def sameNames (nm : Id → Name) (xs : List Id) : Option Stmt → Bool
  | some (.let_ _ _ ys _) => ys.map nm == xs.map nm
  | _ => false

/-- The first part of `eq_stmts`, `/repo/clippy_lints/src/ifs/branches_sharing_code.rs:296-306`. -/
def namesOk (nm : Id → Name) : Stmt → List (Option Stmt) → Bool
  | .let_ _ _ xs _, others => others.all (sameNames nm xs)
  | .expr _ _, _ => true

/-- The second part of `eq_stmts`, `/repo/clippy_lints/src/ifs/branches_sharing_code.rs:307-312`, until one of the blocks
differs. -/
def allEq (s : Stmt) : List (Option Stmt) → Locals → Bool × Locals
  | [], L => (true, L)
  | none :: _, L => (false, L)
  | some t :: rest, L =>
    match eqStmt L t s with
    | some L' => allEq s rest L'
    | none => (false, L)

/-- `eq_stmts`, `/repo/clippy_lints/src/ifs/branches_sharing_code.rs:288-313`. -/
def eqStmts (nm : Id → Name) (L : Locals) (s : Stmt) (others : List (Option Stmt)) : Bool × Locals :=
  if namesOk nm s others then allEq s others L else (false, L)

/-- One of the variables from the `i`-th on is modified. -/
def modifiesFrom (fa : Facts) (cond : List Id) (op : Nat) : List Id → Nat → Bool
  | [], _ => false
  | u :: us, i => (cond.contains u && !fa.imm op i) || modifiesFrom fa cond op us (i + 1)

/-- `modifies_any_local`, `/repo/clippy_lints/src/ifs/branches_sharing_code.rs:272-284`. -/
def modifies (fa : Facts) (cond : List Id) (s : Stmt) : Bool := modifiesFrom fa cond s.code.op s.code.uses 0

/-- The result of the first scan. -/
structure Scan where
  i : Nat
  ordered : Bool
  locals : Locals

/-- The search for the first difference, `/repo/clippy_lints/src/ifs/branches_sharing_code.rs:337-350`. -/
def scanStart (fa : Facts) (nm : Id → Name) (cond : List Id) (others : List Block) : List Stmt → Nat → Locals → Scan
  | [], i, L => ⟨i, false, L⟩
  | s :: ss, i, L =>
    if s.binders.any fa.ordered then ⟨i, true, L⟩
    else if modifies fa cond s then ⟨i, false, L⟩
    else
      let r := eqStmts nm L s (others.map fun b => b.stmts[i]?)
      if r.1 then scanStart fa nm cond others ss (i + 1) r.2 else ⟨i, false, r.2⟩

/-- The first statement (of those with their numbers) that comes from another macro call. -/
def otherSite (site : Nat) : List (Nat × Stmt) → Nat
  | [] => 0
  | (i, s) :: rest => if s.site ≠ site then i + 1 else otherSite site rest

/-- `adjust_by_closest_callsite`, `/repo/clippy_lints/src/ifs/branches_sharing_code.rs:494-510`. -/
def adjust (i : Nat) (s : Stmt) : List (Nat × Stmt) → Nat
  | [] => 0
  | (_, t) :: rest => if t.site ≠ s.site then i else otherSite t.site rest

/-- Numbered downwards from `n - 1`. -/
def down : Nat → List Stmt → List (Nat × Stmt)
  | n + 1, s :: ss => (n, s) :: down n ss
  | _, _ => []

/-- `start_end_eq`, `/repo/clippy_lints/src/ifs/branches_sharing_code.rs:351-353`. -/
def startLen (ss : List Stmt) (i : Nat) : Nat :=
  match ss[i]? with
  | none => ss.length
  | some s => adjust i s (down i (ss.take i).reverse)

/-- The statement so far from the end; the last one is the first. -/
def back (ss : List Stmt) (o : Nat) : Option Stmt := if o ≤ ss.length then ss[ss.length - o]? else none

/-- Another block has no such statement, or a different one,
`/repo/clippy_lints/src/ifs/branches_sharing_code.rs:387-393`. -/
def hashDiffers (fa : Facts) (s : Stmt) : Option Stmt → Bool
  | none => true
  | some t => fa.hash s != fa.hash t

/-- The search for the last difference, `/repo/clippy_lints/src/ifs/branches_sharing_code.rs:382-394`, in the reversed
statements. -/
def scanEnd (fa : Facts) (others : List Block) : List Stmt → Nat → Option (Nat × Stmt)
  | [], _ => none
  | s :: ss, o =>
    if others.any fun b => hashDiffers fa s (back b.stmts (o + 1)) then some (o, s) else scanEnd fa others ss (o + 1)

/-- `end_search_start`, `/repo/clippy_lints/src/ifs/branches_sharing_code.rs:382-397`. -/
def searchLen (fa : Facts) (others : List Block) (ss : List Stmt) (n : Nat) : Nat :=
  match scanEnd fa others (ss.drop n).reverse 0 with
  | none => ss.length - n
  | some (i, s) => adjust i s (down i (ss.drop (ss.length - i)))

/-- The declarations whose correspondence is forgotten,
`/repo/clippy_lints/src/ifs/branches_sharing_code.rs:419-443`: only those of the second block. -/
def forgotten (others : List Block) (init o : Nat) : List Id :=
  match others with
  | [] => []
  | b :: _ => ((b.stmts.drop (b.stmts.length - init)).take (init - o + 1)).flatMap Stmt.binders

/-- `end_begin_eq`, `/repo/clippy_lints/src/ifs/branches_sharing_code.rs:399-447`: the statements, from the offset to the
end. -/
def foldEnd (nm : Id → Name) (others : List Block) : List Stmt → Nat → Nat → Locals → Nat × Locals
  | [], _, init, L => (init, L)
  | s :: ss, o, init, L =>
    let r := eqStmts nm L s (others.map fun b => back b.stmts o)
    if r.1 then foldEnd nm others ss (o - 1) init r.2
    else foldEnd nm others ss (o - 1) (o - 1) (r.2.erase (forgotten others init o))

/-- The hashes of the expressions at the end, `/repo/clippy_lints/src/ifs/branches_sharing_code.rs:369-374`. -/
def tailHash (fa : Facts) (first : Block) (others : List Block) : Bool :=
  match first.tail with
  | some e => others.all fun b => (b.tail.map fa.hashE) == some (fa.hashE e)
  | none => others.all fun b => b.tail.isNone

/-- The comparison of the expressions at the end, `/repo/clippy_lints/src/ifs/branches_sharing_code.rs:448-460`. -/
def tailEq (L : Locals) (first : Block) (others : List Block) : Bool :=
  match first.tail with
  | some e => others.all fun b => match b.tail with
    | some d => eqCode L d e
    | none => true
  | none => true

/-- `BlockEq`, `/repo/clippy_lints/src/ifs/branches_sharing_code.rs:211-218`. -/
structure Found where
  start : Nat
  endd : Option Nat
  deriving DecidableEq, Repr

/-- `scan_block_for_eq`, `/repo/clippy_lints/src/ifs/branches_sharing_code.rs:316-467`. -/
def scan (fa : Facts) (nm : Id → Name) (conds : List Code) (first : Block) (others : List Block) : Found :=
  let sc := scanStart fa nm (conds.flatMap Code.uses) others first.stmts 0 fun _ => none
  let n := startLen first.stmts sc.i
  if sc.ordered || !tailHash fa first others then ⟨n, none⟩
  else
    let m := searchLen fa others first.stmts n
    let r := foldEnd nm others (first.stmts.drop (first.stmts.length - m)) m m sc.locals
    ⟨n, if tailEq r.2 first others then some r.1 else none⟩

/-- The original program. -/
def original (nm : Id → Name) (conds : List Code) (first : Block) (others : List Block) : Prog :=
  ⟨[], conds.map (Code.text nm), (first :: others).map (Block.text nm), none⟩

/-- The suggestion for the start, `/repo/clippy_lints/src/ifs/branches_sharing_code.rs:39-49`: the statements of the first
block move in front of the `if`. -/
def moveStart (nm : Id → Name) (conds : List Code) (first : Block) (others : List Block) (n : Nat) : Prog :=
  ⟨(first.stmts.take n).map (Stmt.text nm), conds.map (Code.text nm),
    (first :: others).map fun b => ⟨(b.stmts.drop n).map (Stmt.text nm), b.tail.map (Code.text nm)⟩, none⟩

/-- Both suggestions; that for the end, `/repo/clippy_lints/src/ifs/branches_sharing_code.rs:50-65`, moves the statements
and the expression of the last block behind the `if`. -/
def moveBoth (nm : Id → Name) (conds : List Code) (first : Block) (others : List Block) (n m : Nat) : Prog :=
  let last := others.getLast?.getD first
  ⟨(first.stmts.take n).map (Stmt.text nm), conds.map (Code.text nm),
    (first :: others).map fun b => ⟨((b.stmts.take (b.stmts.length - m)).drop n).map (Stmt.text nm), none⟩,
    some ⟨(last.stmts.drop (last.stmts.length - m)).map (Stmt.text nm), last.tail.map (Code.text nm)⟩⟩

end Verif.Share
