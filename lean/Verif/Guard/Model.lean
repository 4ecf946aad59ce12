import Verif.Guard.Syntax

/-!
# Model: `redundant_guards`

`/repo/clippy_lints/src/matches/redundant_guards.rs`.  Checks about macros and about the supported Rust version are not
modelled.  `snippet`s are the expressions and patterns they were taken from.
-/

namespace Verif.Guard

/-- What the lint asks the compiler. -/
structure Facts where
  /-- `expr_ty(l) == expr_ty(r)` -/
  sameTy : Ex → Ex → Bool
  /-- The type of the receiver, `ty.is_slice() || ty.is_array()` and `ty.is_str()` outside of constants. -/
  recvTy : Ex → RTy

mutual
/-- The bindings of a variable `pat.walk` finds, `/repo/clippy_lints/src/matches/redundant_guards.rs:175-188`, with
whether they are `ref`. -/
def found (x : Id) : Pat → List Bool
  | .wild => []
  | .bind r y => if y = x then [r] else []
  | .bindAt r y p => if y = x then r :: found x p else found x p
  | .lit _ => []
  | .con _ ps => foundAll x ps
  | .strct _ fs => foundFields x fs
  | .ref p => found x p
  | .or ps => foundAll x ps
  | .slice ps => foundAll x ps
  | .front ps => foundAll x ps
  | .back ps => foundAll x ps
/-- The same for rows. -/
def foundAll (x : Id) : Pats → List Bool
  | .nil => []
  | .cons p ps => found x p ++ foundAll x ps
/-- The same for fields. -/
def foundFields (x : Id) : Fields → List Bool
  | .nil => []
  | .short r y fs => if y = x then r :: foundFields x fs else foundFields x fs
  | .named _ p fs => found x p ++ foundFields x fs
end

/-- The variables of the guard hide the name from the body. -/
def hides (x : Id) : Option Grd → Bool
  | some (.let_ p _) => !(found x p).isEmpty
  | _ => false

/-- `is_local_used(outer_arm.body, x)`. -/
def usedInBody (x : Id) (arm : Arm) : Bool := arm.body.uses.contains x && !hides x arm.guard

/-- `get_pat_binding`, `/repo/clippy_lints/src/matches/redundant_guards.rs:163-202`: the variable, and whether it is
bound by `ref`. -/
def patBinding (e : Ex) (arm : Arm) : Option (Id × Bool) :=
  match e with
  | .loc x =>
    if usedInBody x arm then none
    else match found x arm.pat with
      | [r] => some (x, r)
      | _ => none
  | _ => none

mutual
/-- `expr_can_be_pat`, `/repo/clippy_lints/src/matches/redundant_guards.rs:247-275`, and the pattern with the same text. -/
def toPat : Ex → Option Pat
  | .loc _ => none
  | .lit n => some (.lit n)
  | .neg n => some (.lit (-n))
  | .con c es => (toPats es).map (.con c)
  | .strct c fs => (toFields fs).map (.strct c)
  | .arr es => (toPats es).map .slice
  | .addr e => (toPat e).map .ref
  | .other _ _ => none
/-- The same for rows. -/
def toPats : Exs → Option Pats
  | .nil => some .nil
  | .cons e es => (toPat e).bind fun p => (toPats es).map (.cons p)
/-- The same for fields. -/
def toFields : EFields → Option Fields
  | .nil => some .nil
  | .cons f e fs => (toPat e).bind fun p => (toFields fs).map (.named f p)
end

/-- `pat_span` for patterns, `/repo/clippy_lints/src/matches/redundant_guards.rs:32-36` and `51-55`. -/
def peel : Pat → Bool → Option Pat
  | .ref p, true => some p
  | .ref _, false => none
  | _, true => none
  | p, false => some p

/-- `matches!(e, Binding)`: the whole pattern of a field is a binding of the variable. -/
def bindsAll (x : Id) : Pat → Bool
  | .bind _ y => y == x
  | .bindAt _ y _ => y == x
  | _ => false

mutual
/-- The edit of the pattern, `/repo/clippy_lints/src/matches/redundant_guards.rs:218-228`: the whole binding (with its
subpattern) is replaced; in a field, the new pattern is inserted behind the binding as `: pat`, which gives no pattern
for `field: x`. -/
def edit (x : Id) (q : Pat) : Pat → Option Pat
  | .wild => some .wild
  | .bind r y => if y = x then some q else some (.bind r y)
  | .bindAt r y p => if y = x then some q else (edit x q p).map (.bindAt r y)
  | .lit n => some (.lit n)
  | .con c ps => (editAll x q ps).map (.con c)
  | .strct c fs => (editFields x q fs).map (.strct c)
  | .ref p => (edit x q p).map .ref
  | .or ps => (editAll x q ps).map .or
  | .slice ps => (editAll x q ps).map .slice
  | .front ps => (editAll x q ps).map .front
  | .back ps => (editAll x q ps).map .back
/-- The same for rows. -/
def editAll (x : Id) (q : Pat) : Pats → Option Pats
  | .nil => some .nil
  | .cons p ps => (edit x q p).bind fun p' => (editAll x q ps).map (.cons p')
/-- The same for fields. -/
def editFields (x : Id) (q : Pat) : Fields → Option Fields
  | .nil => some .nil
  | .short r y fs =>
    if y = x then (editFields x q fs).map (.named y q) else (editFields x q fs).map (.short r y)
  | .named f p fs =>
    if bindsAll x p then none
    else (edit x q p).bind fun p' => (editFields x q fs).map (.named f p')
end

/-- `emit_redundant_guards`, `/repo/clippy_lints/src/matches/redundant_guards.rs:204-244`: `none` if the new text is not
a pattern. -/
def emit (arm : Arm) (q : Pat) (x : Id) (inner : Option Code) : Option Arm :=
  (edit x q arm.pat).map fun p => ⟨p, inner.map .other, arm.body⟩

/-- The result: silent, or a suggestion. -/
inductive Res where
  | silent
  | sugg (a : Option Arm)

/-- `emit_redundant_guards` for a pattern, if there is one. -/
def emitIf (arm : Arm) (q : Option Pat) (x : Id) (inner : Option Code) : Res :=
  match q with
  | none => .silent
  | some q => .sugg (emit arm q x inner)

/-- The binding on the left or on the right side, with the other side,
`/repo/clippy_lints/src/matches/redundant_guards.rs:78-80`. -/
def eqSides (l r : Ex) (arm : Arm) : Option ((Id × Bool) × Ex) :=
  match patBinding l arm with
  | some b => some (b, r)
  | none => (patBinding r arm).map fun b => (b, l)

/-- `&[..]` with elements that can be patterns, `/repo/clippy_lints/src/matches/redundant_guards.rs:127-131`. -/
def needles : List Ex → Option Pats
  | .addr (.arr es) :: _ => toPats es
  | _ => none

/-- The new pattern for a method call, `/repo/clippy_lints/src/matches/redundant_guards.rs:113-154`. -/
def methodPat (ty : RTy) (m : Nat) (args : List Ex) : Option Pat :=
  if m = isEmpty then
    match ty with
    | .str => some (.lit emptyStr)
    | .slice => some (.slice .nil)
    | .other => none
  else if ty = .slice then
    match needles args with
    | none => none
    | some .nil => some (.front .nil)
    | some ps => if m = startsWith then some (.front ps) else if m = endsWith then some (.back ps) else none
  else none

/-- `check` for one arm, `/repo/clippy_lints/src/matches/redundant_guards.rs:20-102`. -/
def check (fa : Facts) (arm : Arm) : Res :=
  match arm.guard with
  | none => .silent
  | some (.matches e p g) =>
    match patBinding e arm with
    | some (x, r) => emitIf arm (peel p r) x g
    | none => .silent
  | some (.let_ p e) =>
    match patBinding e arm with
    | some (x, r) => emitIf arm (peel p r) x none
    | none => .silent
  | some (.eq l r) =>
    if fa.sameTy l r then
      match eqSides l r arm with
      | some ((x, b), e) => emitIf arm ((toPat e).bind fun p => peel p b) x none
      | none => .silent
    else .silent
  | some (.method recv m args) =>
    match patBinding recv arm with
    | some (x, _) => emitIf arm (methodPat (fa.recvTy recv) m args) x none
    | none => .silent
  | some (.other _) => .silent

end Verif.Guard
