import Verif.Common.POrd

/-
Model of `clippy_lints/src/manual_clamp.rs`.

Simplifications: an expression is an assignable place, an integer literal, a constant (an
expression `ConstEvalCtxt` can evaluate; `name` tells apart constants written differently) or some
other expression whose value is a function of the places.  Places are independent variables.
`eq_expr_value` is equality of these expressions, `peel_blocks` is the identity, and macro
contexts, `is_in_const_context` and the MSRV test are left out.  All operands share one type that
is a float or implements `Ord` (`TypeClampability::is_clampable`, 229-243).
-/

namespace Verif.Clamp

open Verif

/-- Operand expressions. -/
inductive E (α : Type) where
  | place (p : Nat)
  | lit (n : Nat)
  | const (name : Nat) (v : α)
  | other (k : Nat) (effects : Bool)
  deriving DecidableEq, Repr

/-- The operand type: its order, whether it is an unsigned integer or a float, the value of integer
literals, and the meaning of the expressions that are not modelled further. -/
structure Ty (α : Type) where
  ord : POrd α
  uint : Bool
  float : Bool
  ofLit : Nat → α
  other : Nat → (Nat → α) → α

/-- `can_have_side_effects` on operands. -/
def E.effects {α} : E α → Bool
  | .other _ b => b
  | _ => false

/-- `ConstEvalCtxt::eval` on operands. -/
def E.konst? {α} (t : Ty α) : E α → Option α
  | .lit n => some (t.ofLit n)
  | .const _ v => some v
  | _ => none

/-- Operators of a condition: comparisons and anything else (`&&`, `+`, ...). -/
inductive Op | cmp (c : Cmp) | other
  deriving DecidableEq, Repr

/-- `BinaryOp` (manual_clamp.rs:606-610). -/
structure Bin (α : Type) where
  op : Op
  left : E α
  right : E α

/-- The operator part of `BinaryOp::flip` (manual_clamp.rs:626-632). -/
def flipOp : Op → Op
  | .cmp .le => .cmp .ge
  | .cmp .lt => .cmp .gt
  | .cmp .ge => .cmp .le
  | .cmp .gt => .cmp .lt
  | o => o

/-- `BinaryOp::flip` (manual_clamp.rs:624-636). -/
def Bin.flip {α} (b : Bin α) : Bin α := ⟨flipOp b.op, b.right, b.left⟩

/-- `InputMinMax` (manual_clamp.rs:133-139) without the float flag. -/
structure Params (α : Type) where
  input : E α
  min : E α
  max : E α

/-- `Ge | Gt` in `check` (manual_clamp.rs:685). -/
def isUpper : Op → Bool
  | .cmp .ge | .cmp .gt => true
  | _ => false

/-- `Le | Lt` in `check` (manual_clamp.rs:685). -/
def isLower : Op → Bool
  | .cmp .le | .cmp .lt => true
  | _ => false

/-- `refers_to_input` (manual_clamp.rs:687-693). -/
def refersToInput {α} [DecidableEq α] (l1 l2 : E α) : Option (Nat × Nat) → Bool
  | some (a, b) => l1 == .place a && l2 == .place b
  | none => l1 == l2

/-- The inner `check` (manual_clamp.rs:674-706). -/
def check {α} [DecidableEq α] (b1 b2 : Bin α) (e1 e2 : E α) (ids : Option (Nat × Nat)) :
    Option (Params α) :=
  if isUpper b1.op && isLower b2.op && refersToInput b1.left b2.left ids
      && b1.right == e1 && b2.right == e2 then
    some ⟨b1.left, e2, e1⟩
  else none

/-- The compared expression of `x == 0` or `0 == x` (manual_clamp.rs:799-805). -/
def zeroCmpInput {α} [DecidableEq α] (b : Bin α) : Option (E α) :=
  if b.right = .lit 0 then some b.left
  else if b.left = .lit 0 then some b.right
  else none

/-- `try_normalize_unsigned_eq_to_ord(..).unwrap_or(..)` (manual_clamp.rs:784-816 and 726-727). -/
def normalize {α} [DecidableEq α] (t : Ty α) (b : Bin α) (result : E α) : Bin α :=
  if b.op = .cmp .eq && t.uint && result = .lit 1 then
    match zeroCmpInput b with
    | some input => ⟨.cmp .lt, input, result⟩
    | none => b
  else b

/-- `is_ord_op` (manual_clamp.rs:773-775). -/
def isOrdOp (o : Op) : Bool := isUpper o || isLower o

/-- One entry of `cases`: `check` in the given order, then swapped (manual_clamp.rs:740-758). -/
def tryCase {α} [DecidableEq α] (b1 b2 : Bin α) (e1 e2 : E α) (ids : Option (Nat × Nat)) :
    Option (Params α) :=
  (check b1 b2 e1 e2 ids).or (check b2 b1 e2 e1 (ids.map Prod.swap))

/-- The four orientations (manual_clamp.rs:732-737 and `find_map`). -/
def tryCases {α} [DecidableEq α] (b1 b2 : Bin α) (e1 e2 : E α) (ids : Option (Nat × Nat)) :
    Option (Params α) :=
  (tryCase b1 b2 e1 e2 ids).or
    ((tryCase b1.flip b2.flip e1 e2 ids).or
      ((tryCase b1.flip b2 e1 e2 ids).or (tryCase b1 b2.flip e1 e2 ids)))

/-- `is_clamp_meta_pattern` (manual_clamp.rs:659-759). -/
def metaPattern {α} [DecidableEq α] (t : Ty α) (b1 b2 : Bin α) (e1 e2 : E α)
    (ids : Option (Nat × Nat)) : Option (Params α) :=
  if [b1.left, b1.right, b2.left, b2.right, e1, e2].any E.effects then none
  else if isOrdOp (normalize t b1 e1).op && isOrdOp (normalize t b2 e2).op then
    tryCases (normalize t b1 e1) (normalize t b2 e2) e1 e2 ids
  else none

/-- The `min` and `max` methods and functions. -/
inductive M | min | max
  deriving DecidableEq, Repr

/-- Functions `segment` recognises (manual_clamp.rs:349-373): `cmp::min`/`cmp::max`, or a path to
`Ord::min`, `f64::max`, ... -/
inductive Fn | cmp (m : M) | ord (m : M)
  deriving DecidableEq, Repr

/-- The source shapes the lint looks at. -/
inductive Prog (α : Type) where
  /-- `if c1 { e1 } else if c2 { e2 } else { last }` -/
  | ifElse (c1 : Bin α) (e1 : E α) (c2 : Bin α) (e2 : E α) (last : E α)
  /-- `input.m1(a1).m2(a2)` -/
  | methods (input : E α) (m1 : M) (a1 : E α) (m2 : M) (a2 : E α)
  /-- `outer(inner(i1, i2), arg)`, or `outer(arg, inner(i1, i2))` when `swapped` -/
  | calls (outer inner : Fn) (i1 i2 arg : E α) (swapped : Bool)
  /-- `match v { b1 if c1 => e1, b2 if c2 => e2, b3 => last }` -/
  | arms (v : E α) (b1 : Nat) (c1 : Bin α) (e1 : E α) (b2 : Nat) (c2 : Bin α) (e2 : E α) (b3 : Nat)
      (last : E α)
  /-- `if c1 { p1 = e1 } else if c2 { p2 = e2 }` -/
  | ifAssign (c1 : Bin α) (p1 : Nat) (e1 : E α) (c2 : Bin α) (p2 : Nat) (e2 : E α)
  /-- `if c1 { p1 = e1 } if c2 { p2 = e2 }` -/
  | twoIf (c1 : Bin α) (p1 : Nat) (e1 : E α) (c2 : Bin α) (p2 : Nat) (e2 : E α)

/-- `ClampSuggestion` (manual_clamp.rs:105-110): `[target =] input.clamp(min, max)`. -/
structure Suggestion (α : Type) where
  params : Params α
  target : Option Nat

/-- `is_if_elseif_else_pattern` (manual_clamp.rs:265-299), from the destructured `if`. -/
def ifElsePattern {α} [DecidableEq α] (t : Ty α) (c1 : Bin α) (e1 : E α) (c2 : Bin α) (e2 last : E α) :
    Option (Suggestion α) :=
  match metaPattern t c1 c2 e1 e2 none with
  | some p => if p.input = last then some ⟨p, none⟩ else none
  | none => none

/-- `is_max_min_pattern` (manual_clamp.rs:309-338). -/
def methodsPattern {α} (input : E α) (m1 : M) (a1 : E α) (m2 : M) (a2 : E α) : Option (Suggestion α) :=
  match m1, m2 with
  | .min, .max => some ⟨⟨input, a2, a1⟩, none⟩
  | .max, .min => some ⟨⟨input, a1, a2⟩, none⟩
  | _, _ => none

/-- `(min, max)` in `check` of `is_call_max_min_pattern` (manual_clamp.rs:397-408). -/
def callMinMax {α} (inner outer : Fn) (innerArg outerArg : E α) : Option (E α × E α) :=
  match inner, outer with
  | .cmp .min, .cmp .max => some (outerArg, innerArg)
  | .cmp .max, .cmp .min => some (innerArg, outerArg)
  | .ord .min, .ord .max => some (outerArg, innerArg)
  | .ord .max, .ord .min => some (innerArg, outerArg)
  | _, _ => none

/-- `(input, inner_arg)` (manual_clamp.rs:388-395).  `is_const_evaluatable` is taken to agree with
`ConstEvalCtxt` on operands. -/
def callInput {α} (t : Ty α) (i1 i2 : E α) : Option (E α × E α) :=
  match (i1.konst? t).isSome, (i2.konst? t).isSome with
  | true, false => some (i2, i1)
  | false, true => some (i1, i2)
  | _, _ => none

/-- `is_call_max_min_pattern` (manual_clamp.rs:348-429); both argument orders lead to the same
`check`. -/
def callsPattern {α} (t : Ty α) (outer inner : Fn) (i1 i2 arg : E α) : Option (Suggestion α) :=
  match callInput t i1 i2 with
  | some (input, innerArg) =>
    match callMinMax inner outer innerArg arg with
    | some (mn, mx) => some ⟨⟨input, mn, mx⟩, none⟩
    | none => none
  | none => none

/-- `is_match_pattern` (manual_clamp.rs:443-490), from the destructured arms. -/
def armsPattern {α} [DecidableEq α] (t : Ty α) (v : E α) (b1 : Nat) (c1 : Bin α) (e1 : E α) (b2 : Nat)
    (c2 : Bin α) (e2 : E α) (b3 : Nat) (last : E α) : Option (Suggestion α) :=
  if last = .place b3 then
    match metaPattern t c1 c2 e1 e2 (some (b1, b2)) with
    | some p => some ⟨⟨v, p.min, p.max⟩, none⟩
    | none => none
  else none

/-- `is_if_elseif_pattern` (manual_clamp.rs:565-602), from the destructured `if`. -/
def ifAssignPattern {α} [DecidableEq α] (t : Ty α) (c1 : Bin α) (p1 : Nat) (e1 : E α) (c2 : Bin α)
    (p2 : Nat) (e2 : E α) : Option (Suggestion α) :=
  match metaPattern t c1 c2 e1 e2 none with
  | some p => if p1 = p2 then some ⟨p, some p1⟩ else none
  | none => none

/-- One window of `is_two_if_pattern` (manual_clamp.rs:501-552). -/
def twoIfPattern {α} [DecidableEq α] (t : Ty α) (c1 : Bin α) (p1 : Nat) (e1 : E α) (c2 : Bin α)
    (p2 : Nat) (e2 : E α) : Option (Suggestion α) :=
  if p1 = p2 then
    match metaPattern t c1 c2 e1 e2 none with
    | some p => some ⟨⟨.place p1, p.min, p.max⟩, some p1⟩
    | none => none
  else none

/-- The pattern tests of `check_expr` and `check_block` (manual_clamp.rs:142-179). -/
def pattern {α} [DecidableEq α] (t : Ty α) : Prog α → Option (Suggestion α)
  | .ifElse c1 e1 c2 e2 last => ifElsePattern t c1 e1 c2 e2 last
  | .methods input m1 a1 m2 a2 => methodsPattern input m1 a1 m2 a2
  | .calls outer inner i1 i2 arg _ => callsPattern t outer inner i1 i2 arg
  | .arms v b1 c1 e1 b2 c2 e2 b3 last => armsPattern t v b1 c1 e1 b2 c2 e2 b3 last
  | .ifAssign c1 p1 e1 c2 p2 e2 => ifAssignPattern t c1 p1 e1 c2 p2 e2
  | .twoIf c1 p1 e1 c2 p2 e2 => twoIfPattern t c1 p1 e1 c2 p2 e2

/-- `min_less_than_max` (manual_clamp.rs:115-130).  The comparison of constants is the comparison
of their values (property C19). -/
def minLessThanMax {α} (t : Ty α) (p : Params α) : Bool :=
  match p.max.konst? t, p.min.konst? t with
  | some mx, some mn =>
    match t.ord.cmp mn mx with
    | some o => o != .gt
    | none => false
  | _, _ => false

/-- The suggestion the lint emits (`check_expr`/`check_block` with `maybe_emit_suggestion`,
manual_clamp.rs:182-185). -/
def lint {α} [DecidableEq α] (t : Ty α) (p : Prog α) : Option (Suggestion α) :=
  match pattern t p with
  | some g => if minLessThanMax t g.params then some g else none
  | none => none

end Verif.Clamp
