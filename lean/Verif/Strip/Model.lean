import Verif.Strip.Syntax

/-!
# Model: `manual_strip`

`clippy_lints/src/manual_strip.rs`.  Names are resolved with the list of names that were declared on the way
(`sh`).  All lengths are those of `str`; constants are literals; no macros, and no closures in the body.
-/

namespace Verif.Strip

/-- No side effects, for `eq_expr_value` (clippy_utils/src/hir_utils.rs:1107-1109). -/
def pure : Expr → Bool
  | .num _ | .str _ | .chr _ | .var _ => true
  | .len e | .addr e => pure e
  | .sub a b => pure a && pure b
  | _ => false

/-- The variables of such an expression, which `eq_expr_value` compares as bindings
(clippy_utils/src/hir_utils.rs:1107-1109). -/
def mentioned : Expr → List Name
  | .var x => [x]
  | .len e | .addr e => mentioned e
  | .sub a b => mentioned a ++ mentioned b
  | _ => []

/-- `constant_length` (clippy_lints/src/manual_strip.rs:168-175). -/
def constLen : Expr → Option Nat
  | .str bs | .chr bs => some bs.length
  | _ => none

/-- `eq_pattern_length` and `len_arg` (clippy_lints/src/manual_strip.rs:156-193). -/
def eqLen (p : Expr) (sh : List Name) : Expr → Bool
  | .num n => constLen p == some n
  | .len e => pure p && e == p && (mentioned p).all (!sh.contains ·)
  | _ => false

/-- A path to the target (clippy_lints/src/manual_strip.rs:240-241, 259-260). -/
def isTarget (t : Name) (sh : List Name) (e : Expr) : Bool := e == .var t && !sh.contains t

/-- `peel_ref` (clippy_lints/src/manual_strip.rs:204-210). -/
def peelRef : Expr → Expr
  | .addr e => e
  | e => e

/-- `… - n` after the length of the target (clippy_lints/src/manual_strip.rs:250-261). -/
def suffixEnd (t : Name) (p : Expr) (sh : List Name) : Expr → Bool
  | .sub (.len l) r => isTarget t sh l && eqLen p sh r
  | _ => false

/-- The slice of the target (clippy_lints/src/manual_strip.rs:236-267).  The kind of the range is not tested. -/
def isSlice (k : Kind) (t : Name) (p : Expr) (sh : List Name) (e : Expr) : Bool :=
  match k, e with
  | .pre, .sliceFrom b a => isTarget t sh b && eqLen p sh a
  | .suf, .sliceTo _ b a => isTarget t sh b && suffixEnd t p sh a
  | _, _ => false

/-- The same, maybe behind a reference (clippy_lints/src/manual_strip.rs:237-238). -/
def isStrip (k : Kind) (t : Name) (p : Expr) (sh : List Name) (e : Expr) : Bool := isSlice k t p sh (peelRef e)

/-- The first of two results (`strippings[0]`, clippy_lints/src/manual_strip.rs:107). -/
def orElse (a b : Option (Option Name)) : Option (Option Name) :=
  match a with
  | some r => some r
  | none => b

/-- The first slice that is found, with the name of the variable if it is the value of a declaration without
`mut` (clippy_lints/src/manual_strip.rs:106-108, 216-292). -/
def first (k : Kind) (t : Name) (p : Expr) (sh : List Name) : Expr → Option (Option Name)
  | .num _ | .str _ | .chr _ | .var _ => none
  | .len e => first k t p sh e
  | .addr e => if isStrip k t p sh (.addr e) then some none else first k t p sh e
  | .call e => first k t p sh e
  | .set _ e => first k t p sh e
  | .sub a b => orElse (first k t p sh a) (first k t p sh b)
  | .seq a b => orElse (first k t p sh a) (first k t p sh b)
  | .sliceFrom a b =>
    if isStrip k t p sh (.sliceFrom a b) then some none else orElse (first k t p sh a) (first k t p sh b)
  | .sliceTo c a b =>
    if isStrip k t p sh (.sliceTo c a b) then some none else orElse (first k t p sh a) (first k t p sh b)
  | .letIn m x a b =>
    if isStrip k t p sh a then some (if m then none else some x)
    else orElse (first k t p sh a) (first k t p (x :: sh) b)

/-- How often a name is bound (clippy_lints/src/manual_strip.rs:273-278). -/
def bindings (y : Name) : Expr → Nat
  | .num _ | .str _ | .chr _ | .var _ => 0
  | .len e | .addr e | .call e | .set _ e => bindings y e
  | .sub a b | .sliceFrom a b | .sliceTo _ a b | .seq a b => bindings y a + bindings y b
  | .letIn _ x a b => (if x == y then 1 else 0) + (bindings y a + bindings y b)

/-- The variables that are assigned to, and not declared in the expression (clippy_utils/src/usage.rs:79-81). -/
def mutated : Expr → List Name
  | .num _ | .str _ | .chr _ | .var _ => []
  | .len e | .addr e | .call e => mutated e
  | .sub a b | .sliceFrom a b | .sliceTo _ a b | .seq a b => mutated a ++ mutated b
  | .letIn _ x a b => mutated a ++ (mutated b).filter (· != x)
  | .set x e => x :: mutated e

/-- `mutated_variables` (clippy_utils/src/usage.rs:16-29, 51-65). -/
def mutatedVariables (upvars : List Name) (e : Expr) : Option (List Name) :=
  if (mutated e).any upvars.contains then none else some (mutated e)

/-- The edits in the block (clippy_lints/src/manual_strip.rs:138-145): the slices become the new variable, and
the declaration of `rm` by a slice is removed. -/
def edit (k : Kind) (t : Name) (p : Expr) (x : Name) (rm : Option Name) (sh : List Name) : Expr → Expr
  | .num n => .num n
  | .str bs => .str bs
  | .chr bs => .chr bs
  | .var y => .var y
  | .len e => .len (edit k t p x rm sh e)
  | .addr e => if isStrip k t p sh (.addr e) then .var x else .addr (edit k t p x rm sh e)
  | .call e => .call (edit k t p x rm sh e)
  | .set y e => .set y (edit k t p x rm sh e)
  | .sub a b => .sub (edit k t p x rm sh a) (edit k t p x rm sh b)
  | .seq a b => .seq (edit k t p x rm sh a) (edit k t p x rm sh b)
  | .sliceFrom a b =>
    if isStrip k t p sh (.sliceFrom a b) then .var x
    else .sliceFrom (edit k t p x rm sh a) (edit k t p x rm sh b)
  | .sliceTo c a b =>
    if isStrip k t p sh (.sliceTo c a b) then .var x
    else .sliceTo c (edit k t p x rm sh a) (edit k t p x rm sh b)
  | .letIn m y a b =>
    if rm == some y && isStrip k t p sh a then edit k t p x rm (y :: sh) b
    else .letIn m y (edit k t p x rm sh a) (edit k t p x rm (y :: sh) b)

/-- The suggestion: the name of the new variable, or a placeholder
(clippy_lints/src/manual_strip.rs:71-152). -/
def check (c : Test) : Option (Option Name) :=
  match mutatedVariables c.upvars c.body with
  | some ms => if ms.contains c.target then none else named c
  | none => named c
where
  /-- (clippy_lints/src/manual_strip.rs:94-119) -/
  named (c : Test) : Option (Option Name) :=
    match first c.kind c.target c.pattern [] c.body with
    | none => none
    | some none => some none
    | some (some x) => if bindings x c.body == 1 then some (some x) else some none

/-- The new block (clippy_lints/src/manual_strip.rs:128-147). -/
def newBody (c : Test) (s : Option Name) (placeholder : Name) : Expr :=
  edit c.kind c.target c.pattern (s.getD placeholder) s [] c.body

end Verif.Strip
