import Verif.WhileIter.Syntax

/-!
# Model: `while_let_on_iterator`

`clippy_lints/src/loops/while_let_on_iterator.rs`.  Not modelled: patterns other than variables,
iterators that are no local variables, `&mut **it` for trait objects (lines 359-376).
-/

namespace Verif.WhileIter

/-- `can_have_side_effects` of the compiler, as far as it matters here: only places and constants have
none. -/
def quiet : Expr → Bool
  | .lit _ | .path _ => true
  | .field e _ | .deref _ e | .wrap e | .addr e | .auto e => quiet e
  | .index e i => quiet e && quiet i
  | _ => false

/-- `try_parse_iter_expr`: the fields, the variable, whether the iterator can be moved
(clippy_lints/src/loops/while_let_on_iterator.rs:83-130). -/
def parse : Expr → List Field → Bool → Option (List Field × Var × Bool)
  | .path x, fs, mv => some (fs, x, mv)
  | .field e f, fs, mv => parse e (fs ++ [f]) mv
  | .deref true e, fs, mv => parse e fs mv
  | .index e i, _, _ => if quiet i then parse e [] false else none
  | .deref false e, _, _ => parse e [] false
  | .auto e, _, _ => parse e [] false
  | .wrap e, fs, mv | .addr e, fs, mv => parse e fs mv
  | _, _, _ => none

/-- `is_expr_same_field` (clippy_lints/src/loops/while_let_on_iterator.rs:132-146). -/
def sameField (x : Var) : Expr → List Field → Bool
  | .field e f, g :: fs => f == g && sameField x e fs
  | .path y, [] => y == x
  | .wrap e, fs | .addr e, fs | .auto e, fs => sameField x e fs
  | _, _ => false

/-- The field itself or a parent of it (clippy_lints/src/loops/while_let_on_iterator.rs:155-166). -/
def sameOrParent (x : Var) (e : Expr) (f : Field) : List Field → Bool
  | [] => false
  | g :: fs => (f == g && sameField x e fs) || sameOrParent x e f fs

/-- A child of the field (clippy_lints/src/loops/while_let_on_iterator.rs:168-179). -/
def child (x : Var) (fs : List Field) : Expr → Bool
  | .field e f => sameField x (.field e f) fs || child x fs e
  | .wrap e | .auto e => child x fs e
  | .path y => fs.isEmpty && y == x
  | _ => false

/-- `is_expr_same_child_or_parent_field`
(clippy_lints/src/loops/while_let_on_iterator.rs:148-188). -/
def related (x : Var) (fs : List Field) : Expr → Bool
  | .field e f => sameOrParent x e f fs || child x fs e
  | .path y => y == x
  | .wrap e | .addr e | .auto e => related x fs e
  | _ => false

/-- `is_res_used`: whether the variable occurs at all (clippy_utils/src/visitors.rs:301-311). -/
def occurs (x : Var) : Expr → Bool
  | .lit _ | .brk => false
  | .path y => y == x
  | .field e _ | .deref _ e | .wrap e | .addr e | .auto e | .one _ e => occurs x e
  | .index a b | .two _ a b => occurs x a || occurs x b
  | .here _ p b => occurs x p || occurs x b

/-- `visit_expr` of the visitor that looks for uses
(clippy_lints/src/loops/while_let_on_iterator.rs:192-202, 212-230, 253-270, 312-323).  `skip`: fields
have been stripped off by `skip_fields_and_path`.  `els`: whether the block of a `let`-`else` is visited
(not at 295-306). -/
def visit (els : Bool) (x : Var) (fs : List Field) : Bool → Expr → Bool
  | skip, .field e f => (!skip && related x fs (.field e f)) || visit els x fs true e
  | skip, .wrap e => (!skip && related x fs (.wrap e)) || visit els x fs true e
  | skip, .auto e => visit els x fs skip e
  | skip, .path y => !skip && related x fs (.path y)
  | _, .lit _ | _, .brk => false
  | _, .deref _ e => visit els x fs false e
  | _, .addr e => related x fs (.addr e) || visit els x fs false e
  | _, .index a b => visit els x fs false a || visit els x fs false b
  | _, .one (.closure _) e => occurs x e
  | _, .one _ e => visit els x fs false e
  | _, .two (.letElse _) a b => visit els x fs false a || (els && visit els x fs false b)
  | _, .two _ a b => visit els x fs false a || visit els x fs false b
  | _, .here _ p b => visit els x fs false p || visit els x fs false b

/-- `uses_iter` (clippy_lints/src/loops/while_let_on_iterator.rs:205-235). -/
def usesIter (x : Var) (fs : List Field) (e : Expr) : Bool := visit true x fs false e

/-- `AfterLoopVisitor`: whether it has stopped, whether it has seen the loop
(clippy_lints/src/loops/while_let_on_iterator.rs:252-277). -/
def afterLoop (x : Var) (fs : List Field) (e : Expr) (after : Bool) : Bool × Bool :=
  if after then (visit true x fs false e, true)
  else
    match e with
    | .lit _ | .brk | .path _ => (false, false)
    | .field e _ | .deref _ e | .wrap e | .addr e | .auto e | .one _ e => afterLoop x fs e false
    | .index a b | .two _ a b =>
      if (afterLoop x fs a false).1 then afterLoop x fs a false else afterLoop x fs b (afterLoop x fs a false).2
    | .here .. => (false, true)

/-- The fields of `NestedLoopVisitor` that change
(clippy_lints/src/loops/while_let_on_iterator.rs:285-287). -/
structure Nest where
  after : Bool
  found : Bool
  used : Bool
  deriving DecidableEq, Repr

/-- `visit_local` without the initial value
(clippy_lints/src/loops/while_let_on_iterator.rs:296-302). -/
def Nest.see (x : Var) (s : Nest) (y : Var) : Nest :=
  if !s.after && y == x then { s with found := true } else s

/-- `NestedLoopVisitor` (clippy_lints/src/loops/while_let_on_iterator.rs:295-329). -/
def nested (x : Var) (fs : List Field) (e : Expr) (s : Nest) : Nest :=
  if s.used then s
  else if s.after then { s with used := visit false x fs false e }
  else
    match e with
    | .lit _ | .brk | .path _ => s
    | .field e _ | .deref _ e | .wrap e | .addr e | .auto e => nested x fs e s
    | .one (.bind y) e => nested x fs e (s.see x y)
    | .one _ e => nested x fs e s
    | .two (.letElse y) a _ => nested x fs a (s.see x y)
    | .index a b | .two _ a b => nested x fs b (nested x fs a s)
    | .here .. => { s with after := true }

/-- Whether the loop is in it. -/
def contains : Expr → Bool
  | .lit _ | .brk | .path _ => false
  | .field e _ | .deref _ e | .wrap e | .addr e | .auto e | .one _ e => contains e
  | .index a b | .two _ a b => contains a || contains b
  | .here .. => true

/-- `get_enclosing_loop_or_multi_call_closure` (clippy_utils/src/lib.rs:1190-1210). -/
def enclosing : Expr → Option Expr
  | .lit _ | .brk | .path _ | .here .. => none
  | .field e _ | .deref _ e | .wrap e | .addr e | .auto e => enclosing e
  | .one .loop e => if contains e then some ((enclosing e).getD (.one .loop e)) else none
  | .one (.closure false) e =>
    if contains e then some ((enclosing e).getD (.one (.closure false) e)) else none
  | .one _ e => enclosing e
  | .index a b | .two _ a b => if contains a then enclosing a else enclosing b

/-- The body of the closure around the loop, or of the function: `cx.enclosing_body`
(clippy_lints/src/loops/while_let_on_iterator.rs:354). -/
def closureBody : Expr → Option Expr
  | .lit _ | .brk | .path _ | .here .. => none
  | .field e _ | .deref _ e | .wrap e | .addr e | .auto e => closureBody e
  | .one (.closure _) e => if contains e then some ((closureBody e).getD e) else none
  | .one _ e => closureBody e
  | .index a b | .two _ a b => if contains a then closureBody a else closureBody b

/-- `needs_mutable_borrow` (clippy_lints/src/loops/while_let_on_iterator.rs:332-356). -/
def needsBorrow (x : Var) (fs : List Field) (fn : Expr) : Bool :=
  match enclosing fn with
  | some e => (nested x fs e ⟨false, false, false⟩).used || !(nested x fs e ⟨false, false, false⟩).found
  | none => (afterLoop x fs ((closureBody fn).getD fn) false).1

/-- What is written after `in`. -/
inductive Sugg where
  | byRef
  | byValue
  deriving DecidableEq, Repr

/-- The suggestion for the loop over `p` with this body in the function `fn`, `mutRef` if the type of
`p` is a mutable reference (clippy_lints/src/loops/while_let_on_iterator.rs:19-69). -/
def check (mutRef : Bool) (fn p body : Expr) : Option Sugg :=
  match parse p [] true with
  | none => none
  | some (fs, x, mv) =>
    if usesIter x fs body then none
    else if mutRef || !mv || !fs.isEmpty || needsBorrow x fs fn then some .byRef
    else some .byValue

end Verif.WhileIter
