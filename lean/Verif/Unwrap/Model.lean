/-!
# Calls of `unwrap` below a check

Model of `clippy_lints/src/unwrap.rs`: `panicking_unwrap` and `unnecessary_unwrap`.

Simplifications: all code is from the same macro context (unwrap.rs:449-453), so that the model reports at least what the lint reports.
Places are given by the fields which are accessed; dereferences and other projections, which `is_potentially_local_place` skips, are left out.
Fields of unions don't occur.
-/

namespace Verif.Unwrap

/-- `UnwrappableKind` (unwrap.rs:104-107). -/
inductive Kind
  | option | result
deriving DecidableEq, Repr

/-- `unwrap`, `expect` and `unwrap_err` (unwrap.rs:446). -/
inductive Meth
  | unwrap | expect | unwrapErr
deriving DecidableEq, Repr

/-- A variable: of this function, or captured by this closure (`PlaceBase::Local` and `PlaceBase::Upvar`). -/
inductive Base
  | loc (x : Nat) | up (x : Nat)
deriving DecidableEq, Repr

/-- The id of a variable. -/
def Base.id : Base → Nat
  | .loc x | .up x => x

/-- Binary operators; `&` and `|` are `std` if both operands are of type `bool`, otherwise they may be overloaded. -/
inductive Op
  | and | or | bitAnd (std : Bool) | bitOr (std : Bool) | other
deriving DecidableEq, Repr

/-- Expressions.
* `blank`: a literal, a call, … whose parts are evaluated before (`seq`)
* `check`: `recv.is_some()` (`pos`) or `recv.is_none()`, `recv.is_ok()` or `recv.is_err()`
* `unwrap`: a call of `unwrap`, `expect` or `unwrap_err`; `id` tells the calls apart
* `asMut`: a call `recv.as_mut()`; `std` if it is the method of `Option` or `Result`
* `borrowMut`: `&mut e`, also implicit ones as in `x.take()`
* `ite`: `if` without `let`; a missing `else` is `blank`
* `seq`: blocks, arguments of calls, …
* `alt`: one of two, such as the arms of a `match`
* `jump`: `break`, `continue`, `return`
* `closure`: a closure with the places it captures by mutable reference -/
inductive E
  | blank
  | var (b : Base)
  | field (e : E) (i : Nat)
  | check (k : Kind) (pos : Bool) (recv : E)
  | unwrap (id : Nat) (m : Meth) (recv arg : E)
  | asRef (recv : E)
  | asMut (std : Bool) (recv : E)
  | borrowMut (e : E)
  | assign (l r : E)
  | not (e : E)
  | bin (op : Op) (a b : E)
  | ite (c t e : E)
  | seq (a b : E)
  | alt (a b : E)
  | loop (b : E)
  | jump
  | closure (muts : List (Base × List Nat))
deriving DecidableEq, Repr

/-- `Local` (unwrap.rs:126-139): a variable, or fields of a variable, the last one first. -/
inductive Local
  | pure (id : Nat)
  | withField (id : Nat) (rev : List Nat)
deriving DecidableEq, Repr

/-- The variable at the end of field accesses, and the fields, the last one first (the loop in unwrap.rs:305-310). -/
def stripFields : E → Option (Nat × List Nat)
  | .var b => some (b.id, [])
  | .field e i => (stripFields e).map (fun p => (p.1, i :: p.2))
  | _ => none

/-- `extract_local` (unwrap.rs:302-322). -/
def extractLocal (e : E) : Option Local :=
  (stripFields e).map (fun p => if p.2.isEmpty then .pure p.1 else .withField p.1 p.2)

/-- The place of an expression (`cat_expr` of rustc): a variable and fields, the first one first. -/
def placeOf : E → Option (Base × List Nat)
  | .var b => some (b, [])
  | .field e i => (placeOf e).map (fun p => (p.1, p.2 ++ [i]))
  | _ => none

/-- `is_potentially_local_place` (clippy_utils/src/usage.rs:35-44). -/
def potentiallyLocal (id : Nat) : Base → Bool
  | .loc x => x == id
  | .up _ => true

/-- `Local::is_potentially_local_place` (unwrap.rs:178-207). -/
def Local.potential : Local → Base × List Nat → Bool
  | .withField id rev, (b, fs) =>
    potentiallyLocal id b && decide (fs.length ≤ rev.length) && (fs.zip rev.reverse).all (fun p => p.1 == p.2)
  | .pure id, (b, _) => potentiallyLocal id b

/-- Whether the walk with `MutationVisitor` finds a mutation (unwrap.rs:330-374; the walk is `ExprUseVisitor` of rustc): assignments and mutable
borrows of the place, except as the receiver of `as_mut`. -/
def mutates (l : Local) : E → Bool
  | .blank | .var _ | .jump => false
  | .field e _ | .check _ _ e | .asRef e | .not e | .loop e => mutates l e
  | .unwrap _ _ a b | .bin _ a b | .seq a b | .alt a b => mutates l a || mutates l b
  | .asMut _ e => match placeOf e with
    | some _ => false
    | none => mutates l e
  | .borrowMut e => match placeOf e with
    | some p => l.potential p
    | none => mutates l e
  | .assign a b => match placeOf a with
    | some p => l.potential p || mutates l b
    | none => mutates l a || mutates l b
  | .ite c t e => mutates l c || mutates l t || mutates l e
  | .closure ms => ms.any l.potential

/-- `UnwrapInfo` (unwrap.rs:212-230); `pos` is the name of the check, and `els` tells for which branch it was collected. -/
structure Info where
  loc : Local
  els : Bool
  kind : Kind
  pos : Bool
  safe : Bool
  entire : Bool
deriving DecidableEq, Repr

/-- The operators both of whose operands are known to hold (or not to hold, if `inv`) — unwrap.rs:262-266. -/
def Op.splits (inv : Bool) : Op → Bool
  | .and | .bitAnd _ => !inv
  | .or | .bitOr _ => inv
  | .other => false

/-- `collect_unwrap_info` (unwrap.rs:234-298). -/
def collect (els : Bool) : Bool → Bool → E → List Info
  | inv, _, .bin op a b => if op.splits inv then collect els inv false a ++ collect els inv false b else []
  | inv, _, .not e => collect els (!inv) false e
  | inv, entire, .check k pos recv =>
    match extractLocal recv with
    | some l => [⟨l, els, k, pos, pos != inv, entire⟩]
    | none => []
  | _, _, _ => []

/-- The checks which are kept for a branch (unwrap.rs:377-405). -/
def branchInfos (c b : E) (elseBranch : Bool) : List Info :=
  (collect elseBranch elseBranch true c).filter (fun u => !(mutates u.loc c || mutates u.loc b))

/-- `consume_option_as_ref` (unwrap.rs:415-425). -/
def consumeAsRef : E → E
  | .asRef e | .asMut _ e => e
  | e => e

/-- The pattern suggested for `if let`: of success (`Some`, `Ok`) or not (`None`, `Err`). -/
structure Pat where
  kind : Kind
  success : Bool
deriving DecidableEq, Repr

/-- A report: `unnecessary` or else panicking, the check it refers to, and the suggested pattern. -/
structure Report where
  id : Nat
  unnecessary : Bool
  check : Info
  pat : Option Pat
deriving DecidableEq, Repr

/-- `unwrap` and `expect` (unwrap.rs:447). -/
def Meth.toUnwrap : Meth → Bool
  | .unwrap | .expect => true
  | .unwrapErr => false

/-- The report about one call (unwrap.rs:443-512). -/
def report (us : List Info) (id : Nat) (m : Meth) (recv : E) : List Report :=
  match extractLocal (consumeAsRef recv) with
  | none => []
  | some l =>
    match us.find? (fun u => u.loc == l) with
    | none => []
    | some u =>
      if m.toUnwrap = u.safe then [⟨id, true, u, if u.entire then some ⟨u.kind, m.toUnwrap⟩ else none⟩]
      else [⟨id, false, u, none⟩]

/-- The visitor (unwrap.rs:427-520): `visit_expr` if the first argument is `true`, otherwise `walk_expr`, which visits the parts. -/
def visit : Bool → List Info → E → List Report
  | _, _, .blank | _, _, .var _ | _, _, .jump | _, _, .closure _ => []
  | true, us, .ite c t e =>
    visit false us c ++ visit false (us ++ branchInfos c t false) t ++ visit false (us ++ branchInfos c e true) e
  | false, us, .ite c t e => visit true us c ++ visit true us t ++ visit true us e
  | b, us, .unwrap id m recv arg => (if b then report us id m recv else []) ++ visit true us recv ++ visit true us arg
  | _, us, .field e _ | _, us, .check _ _ e | _, us, .asRef e | _, us, .not e | _, us, .loop e | _, us, .asMut _ e | _, us, .borrowMut e =>
    visit true us e
  | _, us, .bin _ a b | _, us, .seq a b | _, us, .alt a b | _, us, .assign a b => visit true us a ++ visit true us b

/-- `check_fn` (unwrap.rs:522-544). -/
def checkFn (body : E) : List Report := visit true [] body

end Verif.Unwrap
