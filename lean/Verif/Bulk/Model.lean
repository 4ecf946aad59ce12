import Verif.Bulk.Spec

/-! Models of `clippy_lints/src/loops/{manual_while_let_some,manual_slice_fill}.rs` and `clippy_lints/src/manual_pop_if.rs`. -/

namespace Verif.Bulk.Model

open Verif.Bulk

/-- The suggested loop: the pattern, the body. -/
structure WhileLet where
  pat : Nat
  body : NewBody
deriving DecidableEq, Repr

/-- `is_vec_pop_unwrap` for an argument (`clippy_lints/src/loops/manual_while_let_some.rs:61-72`). -/
def isPop (r : Nat) : Arg → Bool
  | .pop r' => r' == r
  | .code _ => false
  | .var _ => false

/-- The first argument that pops gets the name `element` (`clippy_lints/src/loops/manual_while_let_some.rs:87-93`, `:37`). -/
def replaceFirst (r element : Nat) : List Arg → Option (List Arg)
  | [] => none
  | a :: as => if isPop r a then some (.var element :: as) else (replaceFirst r element as).map (a :: ·)

/-- `check` (`clippy_lints/src/loops/manual_while_let_some.rs:97-107`) with `check_local` (`:74-81`), `check_call_arguments` (`:83-95`) and
`report_lint` (`:28-48`). `element` is the number of the name `element` as a variable and as a pattern. -/
def checkWhile (element r : Nat) : First → Option WhileLet
  | .letPop r' pat _ => if r' = r then some ⟨pat, .rest⟩ else none
  | .call args =>
    match replaceFirst r element args with
    | none => none
    | some args' => some ⟨element, .call args'⟩
  | .other _ => none

/-- `ManualPopIfKind` (`clippy_lints/src/manual_pop_if.rs:88-93`). -/
inductive Kind
  | vec | dequeBack | dequeFront | heap
deriving DecidableEq, Repr

/-- `peek_method` (`clippy_lints/src/manual_pop_if.rs:96-103`). -/
def Kind.peek : Kind → Meth
  | .vec => .last
  | .dequeBack => .back
  | .dequeFront => .front
  | .heap => .peek

/-- `pop_method` (`clippy_lints/src/manual_pop_if.rs:105-111`). -/
def Kind.pop : Kind → Meth
  | .vec => .pop
  | .heap => .pop
  | .dequeBack => .popBack
  | .dequeFront => .popFront

/-- `pop_if_method` (`clippy_lints/src/manual_pop_if.rs:113-119`). -/
def Kind.popIf : Kind → Meth
  | .vec => .popIf
  | .heap => .popIf
  | .dequeBack => .popBackIf
  | .dequeFront => .popFrontIf

/-- `is_diag_item` (`clippy_lints/src/manual_pop_if.rs:121-128`). -/
def Kind.isItem : Kind → Coll → Bool
  | .vec, c => c == .vec
  | .dequeBack, c => c == .deque
  | .dequeFront, c => c == .deque
  | .heap, c => c == .heap

/-- The condition of the four patterns (`clippy_lints/src/manual_pop_if.rs:198-232`, `:242-298`, `:306-346`, `:354-392`): neither patterns below
the variable nor what follows the inner `if` are looked at. The variable is used in the condition. -/
def predicate : Form → Nat
  | .isSomeAnd p => p
  | .mapUnwrapOr p => p
  | .letChain _ p => p
  | .ifLet _ p _ => p

/-- One turn of the loop in `check_expr` (`clippy_lints/src/manual_pop_if.rs:471-490`). -/
def tryKind (c : Coll) (look take : Meth) (f : Form) (k : Kind) : Option (Meth × Nat) :=
  if look = k.peek ∧ take = k.pop ∧ k.isItem c then some (k.popIf, predicate f) else none

/-- `check_expr` (`clippy_lints/src/manual_pop_if.rs:464-491`) for blocks that have only the pop: the method and the condition. -/
def checkPopIf (c : Coll) (look take : Meth) (f : Form) : Option (Meth × Nat) :=
  [Kind.vec, .dequeBack, .dequeFront, .heap].findSome? (tryKind c look take f)

/-- `manual_slice_fill::check` (`clippy_lints/src/loops/manual_slice_fill.rs:21-107`): the value. `eager` is `switch_to_eager_eval`, `uses v x`
says that the value mentions the variable. The variable of the loop over indices isn't compared with the index. -/
def checkFill (eager : Nat → Bool) (uses : Nat → Nat → Bool) : Fill → Option Nat
  | .index _ start inclusive i v => if inclusive = false ∧ start = 0 ∧ eager v ∧ !uses v i then some v else none
  | .iter x y v => if y = x ∧ eager v ∧ !uses v x then some v else none

end Verif.Bulk.Model
