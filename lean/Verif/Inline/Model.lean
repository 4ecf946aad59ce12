import Verif.Inline.Syntax

/-!
# Model: `uninlined_format_args`

`clippy_lints/src/format_args.rs`.  The edits of the source text are modelled by what becomes of the
pieces and the arguments.  Not modelled: macros and hygiene, the editions.
-/

namespace Verif.Inline

/-- The variable that can be written instead of a reference
(clippy_lints/src/format_args.rs:634-642). -/
def inlined (args : List Arg) : Target → Option Name
  | .arg i =>
    match args[i]? with
    | some ⟨_, .var x⟩ => some x
    | _ => none
  | .captured _ => none

/-- `check_one_arg` without the edits (clippy_lints/src/format_args.rs:633-659). -/
def checkOne (ignoreMixed : Bool) (args : List Arg) (r : Ref) : Bool :=
  match inlined args r.target with
  | some _ => true
  | none =>
    (match r.pos with
      | .number _ => false
      | _ => true) &&
    (!ignoreMixed ||
      match r.target with
      | .captured _ => true
      | .arg _ => false)

/-- `check_uninlined_args` (clippy_lints/src/format_args.rs:591-605). -/
def check (ignoreMixed : Bool) (args : List Arg) (rs : List RPiece) : Bool :=
  (refs rs).all (checkOne ignoreMixed args) && (refs rs).any (fun r => (inlined args r.target).isSome)

/-- The replacement for a reference (clippy_lints/src/format_args.rs:644-649). -/
def newPos (args : List Arg) (r : Ref) : Pos :=
  match inlined args r.target with
  | some x => .named x
  | none => r.pos

/-- The string after the edits (clippy_lints/src/format_args.rs:768-785, 649). -/
def newPiece (args : List Arg) : RPiece → Piece
  | .lit s => .lit s
  | .hole h => .hole ⟨newPos args h.arg, h.width.map (newPos args), h.prec.map (newPos args), h.spec⟩

/-- The arguments from index `i` on that are not removed
(clippy_lints/src/format_args.rs:650, clippy_utils/src/macros.rs:534-546). -/
def keepFrom (args : List Arg) (rs : List RPiece) : Nat → List Arg → List Arg
  | _, [] => []
  | i, a :: as =>
    if (refs rs).any (fun r => r.target == .arg i && (inlined args r.target).isSome) then keepFrom args rs (i + 1) as
    else a :: keepFrom args rs (i + 1) as

def newArgs (args : List Arg) (rs : List RPiece) : List Arg := keepFrom args rs 0 args

end Verif.Inline
