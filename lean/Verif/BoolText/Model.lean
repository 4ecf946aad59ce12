import Verif.BoolText.Spec

/-!
# Model: bool_comparison.rs, operators/needless_bitwise_bool.rs
-/

namespace Verif.BoolText

/-- The syntax tree of the compiler has no parentheses: the expression inside — clippy_utils/src/sugg.rs:185-189 (a binary expression is
taken apart, so that its own parentheses are gone). -/
def peel : Tr → Tr
  | .par t => peel t
  | t => t

/-- `fetch_bool_expr` — clippy_lints/src/bool_comparison.rs:171-178. -/
def litOf (t : Tr) : Option Bool :=
  match peel t with
  | .lit x => some x
  | _ => none

/-- The table of `Not for Sugg` — clippy_utils/src/sugg.rs:535-543. -/
def inverse : Op → Option Op
  | .eq => some .ne
  | .ne => some .eq
  | .lt => some .ge
  | .ge => some .lt
  | .gt => some .le
  | .le => some .gt
  | _ => none

/-- `!h` — clippy_utils/src/sugg.rs:527-550, for an expression without parentheses. -/
def notBare : Tr → Tr
  | .node o l r => match inverse o with | some o' => .node o' l r | none => .neg (.par (.node o l r))
  | .neg t => peel t
  | t => .neg t

/-- `!h` and `into_string` — clippy_utils/src/sugg.rs:527-550, 394-400. -/
def notS (t : Tr) : Tr := notBare (peel t)

/-- `h.into_string()` — clippy_utils/src/sugg.rs:394-400: a binary expression comes without parentheses. -/
def same (t : Tr) : Tr := peel t

/-- Parentheses around the left operand of `&` — clippy_utils/src/sugg.rs:592-640. -/
def wrapL : Tr → Tr
  | .node o l r => if lvl o > 1 then .par (.node o l r) else .node o l r
  | t => t

/-- Parentheses around the right operand of `&`. Simplification: another `&` there gets no parentheses in the code, which
reads the same because `&` is associative — clippy_utils/src/sugg.rs:592-640. -/
def wrapR : Tr → Tr
  | .node o l r => .par (.node o l r)
  | t => t

/-- `l.bit_and(&r)` — clippy_lints/src/bool_comparison.rs:80, 95. -/
def andS (l r : Tr) : Tr := .node .band (wrapL l) (wrapR r)

/-- `check_comparison` — clippy_lints/src/bool_comparison.rs:105-149, with its arguments: what to do for a literal on the
left and on the right, and without one. -/
def checkComparison (lt lf rt rf : Option (Tr → Tr)) (no : Option (Tr → Tr → Tr)) (l r : Tr) : Option Tr :=
  match litOf l, litOf r with
  | some true, none => lt.map (fun h => h r)
  | none, some true => rt.map (fun h => h l)
  | some false, none => lf.map (fun h => h r)
  | none, some false => rf.map (fun h => h l)
  | none, none => no.map (fun h => h l r)
  | _, _ => none

/-- `check_expr` for two booleans — clippy_lints/src/bool_comparison.rs:39-102: the suggestion. -/
def comparison : Tr → Option Tr
  | .node .eq l r => checkComparison (some same) (some notS) (some same) (some notS) none l r
  | .node .ne l r => checkComparison (some notS) (some same) (some notS) (some same) none l r
  | .node .lt l r => checkComparison none (some same) (some notS) none (some (fun l r => andS (notS l) (same r))) l r
  | .node .gt l r => checkComparison (some notS) none none (some same) (some (fun l r => andS (same l) (notS r))) l r
  | _ => none

/-- `op_str` — clippy_lints/src/operators/needless_bitwise_bool.rs:10-14. -/
def lazy : Op → Option Op
  | .band => some .land
  | .bor => some .lor
  | _ => none

/-- The kind of the right operand — clippy_lints/src/operators/needless_bitwise_bool.rs:15-18; `calls`: the leaf is a call. -/
def kindOk (calls : Nat → Bool) (r : Tr) : Bool :=
  match peel r with
  | .leaf n => calls n
  | .lit _ => false
  | _ => true

/-- `needless_bitwise_bool::check` — clippy_lints/src/operators/needless_bitwise_bool.rs:9-36: the operator is replaced in the text. `fx`:
`can_have_side_effects`; the type is a parameter. -/
def bitwise (calls : Nat → Bool) (fx : Tr → Bool) (isBool : Bool) : Tr → Option Tr
  | .node o l r =>
      match lazy o with
      | some o' => if kindOk calls r && isBool && !fx r then some (.node o' l r) else none
      | none => none
  | _ => none

end Verif.BoolText
