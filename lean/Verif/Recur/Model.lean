import Verif.Recur.Syntax

/-!
# Model: `only_used_in_recursion`

`/repo/clippy_lints/src/only_used_in_recursion.rs`, for one function; functions inside of it have
parameters of their own.
-/

namespace Verif.Recur

/-- What is around an expression, from the inside to the outside. -/
inductive Frame where
  /-- A block, whose last expression it is, or the only arm of a `match`. -/
  | through
  /-- A statement. -/
  | stmt
  /-- The branch of an `if` without `else`. -/
  | thenOnly
  /-- An argument of a recursive call. -/
  | arg (i : Nat)
  /-- The left side of an assignment. -/
  | assignL
  /-- The right side; the variable on the left side. -/
  | assignR (x : Option Nat)
  | bin (prim : Bool)
  | un (prim : Bool)
  | addr
  | cast
  | field (adj : Bool)
  | other

/-- What becomes of the lint at an occurrence of a parameter. -/
inductive Verdict where
  /-- `remove_by_id`. -/
  | bad
  /-- A new `Usage`. -/
  | use (i : Nat)
  /-- `return`. -/
  | fine
  deriving DecidableEq

/-- The loop in `check_expr`, `/repo/clippy_lints/src/only_used_in_recursion.rs:372-434`, with
`get_expr_use_or_unification_node`, `/repo/clippy_utils/src/lib.rs:1996-2011`. -/
def climb (p : Nat) : List Frame → Verdict
  | [] => .bad
  | .through :: fs => climb p fs
  | .stmt :: _ => .fine
  | .thenOnly :: _ => .fine
  | .arg i :: _ => .use i
  | .assignL :: _ => .fine
  | .assignR x :: _ => if x = some p then .fine else .bad
  | .bin prim :: fs => if prim then climb p fs else .bad
  | .un prim :: fs => if prim then climb p fs else .bad
  | .addr :: fs => climb p fs
  | .cast :: fs => climb p fs
  | .field adj :: fs => if adj then .bad else climb p fs
  | .other :: _ => .bad

/-- `res_local_id` of the left side, `/repo/clippy_lints/src/only_used_in_recursion.rs:403-404`. -/
def localId : Ex → Option Nat
  | .var x => some x
  | _ => none

mutual

/-- The occurrences of variables, in the order of the visitor, each with its surroundings. -/
def occs (fs : List Frame) : Ex → List (Nat × List Frame)
  | .const _ => []
  | .var x => [(x, fs)]
  | .bin _ prim a b => occs (.bin prim :: fs) a ++ occs (.bin prim :: fs) b
  | .logic _ a b => occs (.bin true :: fs) a ++ occs (.bin true :: fs) b
  | .un _ prim a => occs (.un prim :: fs) a
  | .addr a => occs (.addr :: fs) a
  | .cast _ a => occs (.cast :: fs) a
  | .field adj _ a => occs (.field adj :: fs) a
  | .call args => occsArgs fs 0 args
  | .other _ args => occsL (.other :: fs) args
  | .assign l r => occs (.assignL :: fs) l ++ occs (.assignR (localId l) :: fs) r
  | .assignOp _ _ l r => occs (.assignL :: fs) l ++ occs (.assignR (localId l) :: fs) r
  | .ifElse c a b => occs (.other :: fs) c ++ occs (.other :: fs) a ++ occs (.other :: fs) b
  | .ifThen c a => occs (.other :: fs) c ++ occs (.thenOnly :: fs) a
  | .matchOne _ s body => occs (.other :: fs) s ++ occs (.through :: fs) body
  | .block ss tail => occsS fs ss ++ occs (.through :: fs) tail
  | .loop body => occs (.other :: fs) body
  | .brk => []
  | .ret e => occs (.other :: fs) e

def occsArgs (fs : List Frame) (i : Nat) : Exs → List (Nat × List Frame)
  | .nil => []
  | .cons e es => occs (.arg i :: fs) e ++ occsArgs fs (i + 1) es

def occsL (fs : List Frame) : Exs → List (Nat × List Frame)
  | .nil => []
  | .cons e es => occs fs e ++ occsL fs es

/-- The initializer of a `let` is used by the `let`. -/
def occsS (fs : List Frame) : Stmts → List (Nat × List Frame)
  | .nil => []
  | .expr e ss => occs (.stmt :: fs) e ++ occsS fs ss
  | .bind _ e ss => occs (.other :: fs) e ++ occsS fs ss

end

/-- `Params`, `/repo/clippy_lints/src/only_used_in_recursion.rs:223-258`: the parameters that are
still in the tables, and their uses. -/
structure Params where
  known : Nat → Bool
  uses : Nat → List Nat

/-- `check_expr`, `/repo/clippy_lints/src/only_used_in_recursion.rs:366-436`, with `remove_by_id`,
`:236-244`. -/
def record (P : Params) (o : Nat × List Frame) : Params :=
  if P.known o.1 then
    match climb o.1 o.2 with
    | .bad => { known := fun i => i != o.1 && P.known i, uses := fun i => if i = o.1 then [] else P.uses i }
    | .use i => { P with uses := fun j => if j = o.1 then P.uses j ++ [i] else P.uses j }
    | .fine => P
  else P

/-- `check_body`, `/repo/clippy_lints/src/only_used_in_recursion.rs:350-364`. -/
def start (f : Fn) : Params where
  known i := i < f.arity && f.named i
  uses _ := []

/-- The tables at the end of the body. -/
def collect (f : Fn) : Params := (occs [] f.body).foldl record (start f)

section
variable (P : Params)

/-- `apply_lint` of every parameter. -/
abbrev Flags := Nat → Bool

/-- The loop over the uses, `/repo/clippy_lints/src/only_used_in_recursion.rs:284-296`; `rec` goes on
with another parameter. -/
def tryUses (rec : Nat → Flags → Bool × Flags) (i : Nat) : List Nat → Flags → Bool × Flags
  | [], fl => (false, fl)
  | u :: us, fl =>
    if u = i then tryUses rec i us fl
    else if P.known u then
      match rec u fl with
      | (true, fl') => (true, fun j => j != i && fl' j)
      | (false, fl') => tryUses rec i us fl'
    else (true, fun j => j != i && fl j)

/-- `try_disable_lint_for_param`, `/repo/clippy_lints/src/only_used_in_recursion.rs:270-298`; the
bound is never reached. -/
def tryDisable : Nat → List Nat → Nat → Flags → Bool × Flags
  | 0, _, _, fl => (false, fl)
  | n + 1, stack, i, fl =>
    if !fl i then (true, fl)
    else if P.uses i = [] then (true, fun j => j != i && fl j)
    else if stack.contains i then (false, fl)
    else tryUses P (tryDisable n (i :: stack)) i (P.uses i) fl

/-- `flag_for_linting`, `/repo/clippy_lints/src/only_used_in_recursion.rs:261-267`; `is`: the
parameters in the list. -/
def flagAll (bound : Nat) (is : List Nat) (fl : Flags) : Flags :=
  is.foldl (fun fl i => (tryDisable P bound [] i fl).2) fl

end

/-- The reported parameters, `/repo/clippy_lints/src/only_used_in_recursion.rs:438-443`. -/
def reported (f : Fn) : List Nat :=
  let is := (List.range f.arity).filter f.named
  is.filter (flagAll (collect f) (f.arity + 1) is fun _ => true)

end Verif.Recur
