import Verif.RangeLoop.Syntax

/-!
# Model: `needless_range_loop`

`clippy_lints/src/loops/needless_range_loop.rs`.  All containers are local variables and have a method
`iter`.  Not modelled: ranges without an end, literals of arrays that are indexed, calls of `Index::index`.
Only the head of the loop is in the suggestion; the elements in the body are left to the user, and `subst` in
the specification is what they are asked to do.
-/

namespace Verif.RangeLoop

/-- `is_local_used` (clippy_utils/src/visitors.rs:314-323). -/
def uses (x : Var) : Expr → Bool
  | .lit _ | .brk | .item => false
  | .path y => y == x
  | .field e _ | .one _ e => uses x e
  | .index a b | .two _ a b => uses x a || uses x b

/-- What `VarVisitor` collects (clippy_lints/src/loops/needless_range_loop.rs:232-257). -/
structure Facts where
  indexedMut : List Var := []
  indirect : List Var := []
  direct : List (Var × Expr) := []
  referenced : List Var := []
  nonindex : Bool := false
  deriving DecidableEq, Repr

def Facts.join (a b : Facts) : Facts where
  indexedMut := a.indexedMut ++ b.indexedMut
  indirect := a.indirect ++ b.indirect
  direct := a.direct ++ b.direct
  referenced := a.referenced ++ b.referenced
  nonindex := a.nonindex || b.nonindex

def isPath : Expr → Bool
  | .path _ => true
  | _ => false

/-- The nested indices: what is left, how many have been peeled off, whether all are direct
(clippy_lints/src/loops/needless_range_loop.rs:270-285). -/
def nested (i : Var) : Expr → Expr × Nat × Bool
  | .index e j =>
    if uses i j then ((nested i e).1, (nested i e).2.1 + 1, (nested i e).2.2 && isPath j)
    else (.index e j, 0, true)
  | e => (e, 0, true)

/-- The variable below indices and fields
(clippy_lints/src/loops/needless_range_loop.rs:286-292, 300-303). -/
def base : Expr → Option Var
  | .path x => some x
  | .field e _ | .index e _ => base e
  | _ => none

/-- How many indices use the variable (clippy_lints/src/loops/needless_range_loop.rs:261-285). -/
def usedCnt (i : Var) (e j : Expr) : Nat := (nested i e).2.1 + if uses i j then 1 else 0

/-- Whether all of them are the variable itself
(clippy_lints/src/loops/needless_range_loop.rs:262-285). -/
def usedDirectly (i : Var) (e j : Expr) : Bool := (nested i e).2.2 && (!uses i j || isPath j)

/-- `VarVisitor::check` for `e[j]`, `none` if the visitor goes on
(clippy_lints/src/loops/needless_range_loop.rs:260-365).  `pm` is `prefer_mutable`. -/
def checkIndex (i : Var) (pm : Bool) (e j : Expr) : Option Facts :=
  if usedCnt i e j == 0 then none
  else
    match base (nested i e).1 with
    | some x =>
      some { indexedMut := if pm then [x] else [],
             indirect := if usedDirectly i e j then [] else [x],
             direct := if usedDirectly i e j then [(x, (nested i e).1)] else [],
             nonindex := decide (1 < usedCnt i e j) }
    | none => none

/-- `VarVisitor::visit_expr` (clippy_lints/src/loops/needless_range_loop.rs:369-457).  If `check` goes on
after more than one index, `nonindex` is set, but then the variable is visited anyway. -/
def scan (i : Var) : Bool → Expr → Facts
  | _, .lit _ | _, .brk | _, .item => {}
  | _, .path x => if x == i then { nonindex := true } else { referenced := [x] }
  | pm, .field e _ => scan i pm e
  | pm, .index e j =>
    match checkIndex i pm e j with
    | some f => f
    | none => (scan i pm e).join (scan i pm j)
  | _, .one .addrMut e => scan i true e
  | _, .one .callMut e => scan i true e
  | pm, .one _ e => scan i pm e
  | _, .two .set a b => (scan i true b).join (scan i false a)
  | pm, .two _ a b => (scan i pm a).join (scan i pm b)

/-- The variables that the body declares. -/
def declared : Expr → List Var
  | .lit _ | .brk | .path _ | .item => []
  | .one (.bind x) e => x :: declared e
  | .field e _ | .one _ e => declared e
  | .index a b | .two _ a b => declared a ++ declared b

def Num.names : Num → List Var
  | .lit _ => []
  | .var x | .len x => [x]
  | .add a b => a.names ++ b.names

/-- The number after `start + …` or `… + start`
(clippy_lints/src/loops/needless_range_loop.rs:99-115). -/
def split (start stop : Num) : Option Num :=
  match stop with
  | .add a b => if start = a then some b else if start = b then some a else none
  | _ => none

/-- `is_len_call` and `is_end_eq_array_len`: no `take` is needed
(clippy_lints/src/loops/needless_range_loop.rs:117-118, 198-229). -/
def toEnd (x : Var) (arr : Option Nat) (l : Loop) : Bool :=
  (match l.stop with
    | .len y => y == x
    | _ => false) ||
  match l.stop, arr with
  | .lit n, some m => if l.closed then decide (m ≤ n + 1) else decide (m ≤ n)
  | _, _ => false

/-- `.skip(..)` (clippy_lints/src/loops/needless_range_loop.rs:86-94). -/
def skipOf (mutbl : Bool) (x : Var) (l : Loop) : Option (List Adapter) :=
  if l.start = .lit 0 then some []
  else if mutbl && l.start.names.contains x then none
  else some [.skip l.start]

/-- `.take(..)` (clippy_lints/src/loops/needless_range_loop.rs:96-134). -/
def takeOf (mutbl : Bool) (x : Var) (arr : Option Nat) (l : Loop) : Option (List Adapter) :=
  if toEnd x arr l then some []
  else if mutbl && ((split l.start l.stop).getD l.stop).names.contains x then none
  else some [if l.closed then .takeSucc ((split l.start l.stop).getD l.stop)
    else .take ((split l.start l.stop).getD l.stop)]

/-- The suggestion; `arr` is the length in the type of the sequence if that is an array
(clippy_lints/src/loops/needless_range_loop.rs:25-196). -/
def check (arr : Option Nat) (l : Loop) : Option Sugg :=
  let f := scan l.i false l.body
  if !f.indirect.isEmpty then none
  else
    match f.direct with
    | [] => none
    | (x, e) :: ps =>
      if ps.any (· != (x, e)) then none
      else if x == l.i || (declared l.body).contains x then none
      else if f.referenced.contains x then none
      else
        match skipOf (f.indexedMut.contains x) x l, takeOf (f.indexedMut.contains x) x arr l with
        | some sk, some tk =>
          some { seq := e, enumerate := f.nonindex, mutbl := f.indexedMut.contains x,
                 adapters := if (split l.start l.stop).isSome then sk ++ tk else tk ++ sk }
        | _, _ => none

end Verif.RangeLoop
