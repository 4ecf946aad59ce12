import Verif.LetElse.Syntax

/-!
# Model: `manual_let_else`

`/repo/clippy_lints/src/manual_let_else.rs`.  Patterns are printed by the code; here the result is what is read
back, if it can be read.  Not modelled: macros, the version of the compiler, the interplay with `question_mark`.
-/

namespace Verif.LetElse

/-- What the compiler says. -/
structure Facts where
  /-- `is_never_expr`. -/
  never : Ex → Bool
  /-- The pattern is made of well-known types, or that isn't asked for (`check_types`). -/
  known : Pat → Bool
  /-- The path is a variant of an enum. -/
  isVariant : Nat → Bool

/-- `peel_blocks`, `/repo/clippy_utils/src/lib.rs:1236-1250`. -/
def peel : Ex → Ex
  | .blk e => peel e
  | e => e

mutual
/-- `each_binding_or_first`: the variables of a pattern, only the first alternative of `|`; used in
`/repo/clippy_lints/src/manual_let_else.rs:428-430`. -/
def binders : Pat → List (Name × Mode)
  | .bind m x => [(x, m)]
  | .bindAt m x p => (x, m) :: binders p
  | .tuple _ ps => bindersL ps
  | .ts _ _ ps => bindersL ps
  | .strct _ _ fs => bindersF fs
  | .or ps => bindersFirst ps
  | .slice ps => bindersL ps
  | .ref p => binders p
  | .wild => []
  | .lit _ => []
  | .path _ => []
/-- All patterns of a list. -/
def bindersL : Pats → List (Name × Mode)
  | .nil => []
  | .cons p ps => binders p ++ bindersL ps
/-- The first pattern of a list. -/
def bindersFirst : Pats → List (Name × Mode)
  | .nil => []
  | .cons p _ => binders p
/-- All fields. -/
def bindersF : Fields → List (Name × Mode)
  | .nil => []
  | .cons _ p fs => binders p ++ bindersF fs
end

/-- What a variable becomes: a pattern, and the prefix of the variable. -/
abbrev Map := List (Name × Pat × Mode)

/-- `FxHashMap::get`. -/
def get (x : Name) : Map → Option (Pat × Mode)
  | [] => none
  | (y, r) :: rest => if y = x then some r else get x rest

/-- `pat_bindings.remove`, `/repo/clippy_lints/src/manual_let_else.rs:443`. -/
def take (x : Name) : List (Name × Mode) → Option (Mode × List (Name × Mode))
  | [] => none
  | (y, m) :: rest => if y = x then some (m, rest.filter fun b => b.1 ≠ x) else
      (take x rest).map fun r => (r.1, (y, m) :: r.2)

/-- The loop over both lists, `/repo/clippy_lints/src/manual_let_else.rs:439-449`. -/
def buildMap : List Pat → List (Option Name) → List (Name × Mode) → Option Map
  | [], [], _ => some []
  | p :: ps, some x :: es, bs =>
    (take x bs).bind fun r => (buildMap ps es r.2).map fun m => (x, p, r.1) :: m
  | _, _, _ => none

/-- `expr_simple_identity_map`, `/repo/clippy_lints/src/manual_let_else.rs:406-451`.  Lists of different length
end in `none`, as does a variable that isn't bound or is used twice. -/
def identityMap (loc : Pat) (p : Pat) (e : Ex) : Option Map :=
  match loc, peel e with
  | .tuple _ ps, .tuple es => buildMap ps.toList es (binders p)
  | .slice ps, .array es => buildMap ps.toList es (binders p)
  | loc, .path x => buildMap [loc] [some x] (binders p)
  | _, _ => none

/-- A prefix in front of a printed pattern, as it is read back: `prefix_str`,
`/repo/clippy_lints/src/manual_let_else.rs:242-248`. -/
def withPrefix (m : Mode) (p : Pat) : Option Pat :=
  if m = .plain then some p
  else match p with
    | .bind m' x =>
      if m' = .plain then some (.bind m x)
      else if m = ⟨some false, false⟩ ∧ m' = ⟨none, true⟩ then some (.bind ⟨some true, false⟩ x)
      else none
    | .bindAt m' x q =>
      if m' = .plain then some (.bindAt m x q)
      else if m = ⟨some false, false⟩ ∧ m' = ⟨none, true⟩ then some (.bindAt ⟨some true, false⟩ x q)
      else none
    | _ => none

/-- `p @ sub` as it is read back, `/repo/clippy_lints/src/manual_let_else.rs:244-247`: `@` binds stronger than
`|`. -/
def atPat (m : Mode) (x : Name) : Pat → Pat
  | .or (.cons q qs) => .or (.cons (.bindAt m x q) qs)
  | q => .bindAt m x q

/-- `p @ sub` for a printed pattern. -/
def withAt (p : Pat) (sub : Pat) : Option Pat :=
  match p with
  | .bind m x => some (atPat m x sub)
  | _ => none

/-- A variable of that name is put in, `/repo/clippy_lints/src/manual_let_else.rs:254-263`. -/
def shadowed (map : Map) (x : Name) : Bool :=
  map.any fun r => match r.2.1 with
    | .bind _ y => decide (y = x)
    | .bindAt _ y _ => decide (y = x)
    | _ => false

/-- A printed tuple as it is read back, `/repo/clippy_lints/src/manual_let_else.rs:322-332`: `(p)` is `p`. -/
def readTuple : Option Nat → Pats → Pat
  | none, .cons p .nil => p
  | r, ps => .tuple r ps

/-- A printed struct, `/repo/clippy_lints/src/manual_let_else.rs:303-307`: `C { , .. }` can't be read. -/
def readStruct (c : Nat) : Bool → Fields → Option Pat
  | true, .nil => none
  | d, fs => some (.strct c d fs)

mutual
/-- `replace_in_pattern`, `/repo/clippy_lints/src/manual_let_else.rs:219-338`. -/
def replace (map : Map) : Pat → Option Pat
  | .bind m x =>
    match get x map with
    | some (p, m') => withPrefix m' p
    | none => some (.bind m x)
  | .bindAt m x q =>
    match get x map with
    | some (p, m') => (replace map q).bind fun q' => (withPrefix m' p).bind fun p' => withAt p' q'
    | none => (replace map q).map fun q' => if shadowed map x then q' else atPat m x q'
  | .tuple r ps => (replaceL map ps).map (readTuple r)
  | .ts c r ps => (replaceL map ps).map (.ts c r)
  | .strct c d fs => (replaceF map fs).bind (readStruct c d)
  | .or ps => (replaceL map ps).map .or
  | .wild => some .wild
  | .lit n => some (.lit n)
  | .path c => some (.path c)
  | .slice ps => some (.slice ps)
  | .ref p => some (.ref p)
/-- The arguments and alternatives. -/
def replaceL (map : Map) : Pats → Option Pats
  | .nil => some .nil
  | .cons p ps => (replace map p).bind fun p' => (replaceL map ps).map fun ps' => .cons p' ps'
/-- The fields, `/repo/clippy_lints/src/manual_let_else.rs:281-308`: only variables are replaced. -/
def replaceF (map : Map) : Fields → Option Fields
  | .nil => some .nil
  | .cons f (.bind m x) fs =>
    match get x map with
    | some (p, m') => (withPrefix m' p).bind fun p' => (replaceF map fs).map (.cons f p')
    | none => (replaceF map fs).map (.cons f (.bind m x))
  | .cons f p fs => (replaceF map fs).map (.cons f p)
end

/-- `is_wild` or a variable. -/
def wildOrBind : Pat → Bool
  | .wild => true
  | .bind _ _ => true
  | .bindAt _ _ _ => true
  | _ => false

/-- All of a list. -/
def allWild : Pats → Bool
  | .nil => true
  | .cons p ps => wildOrBind p && allWild ps

/-- All of the fields. -/
def allWildF : Fields → Bool
  | .nil => true
  | .cons _ p fs => wildOrBind p && allWildF fs

/-- `is_enum_variant`, `/repo/clippy_lints/src/manual_let_else.rs:129-153`. -/
def isEnumVariant (fa : Facts) : Pat → Bool
  | .strct c _ fs => allWildF fs && fa.isVariant c
  | .ts c _ ps => allWild ps && fa.isVariant c
  | .path c => fa.isVariant c
  | _ => false

/-- `pat_allowed_for_else`, `/repo/clippy_lints/src/manual_let_else.rs:340-383`. -/
def allowedElse (fa : Facts) (p : Pat) : Bool := (binders p).isEmpty && fa.known p

/-- The search for the arm that leaves, `/repo/clippy_lints/src/manual_let_else.rs:90-92`. -/
def leaving (fa : Facts) (a : Arm) : Bool := fa.never a.body && allowedElse fa a.pat

/-- The suggestion, `/repo/clippy_lints/src/manual_let_else.rs:155-197`. -/
def emit (map : Map) (p : Pat) (els : Ex) : Edit :=
  ⟨if map.isEmpty then some p else replace map p, els⟩

/-- `check_manual_let_else`, `/repo/clippy_lints/src/manual_let_else.rs:52-113`. -/
def check (fa : Facts) (loc : Pat) : Init → Option Edit
  | .ifLet p t (some e) =>
    if fa.never e then (identityMap loc p t).map fun m => emit m p e else none
  | .ifLet _ _ none => none
  | .mtch [a, b] =>
    if a.guard || b.guard then none
    else if leaving fa a then
      if isEnumVariant fa a.pat && isEnumVariant fa b.pat then
        (identityMap loc b.pat b.body).map fun m => emit m b.pat a.body
      else none
    else if leaving fa b then (identityMap loc a.pat a.body).map fun m => emit m a.pat b.body
    else none
  | .mtch _ => none

end Verif.LetElse
