import Verif.Inline.Syntax

/-!
# Specification: what a call of `format!` prints
-/

namespace Verif.Inline

section
variable {V : Type}

/-- What is printed: a text, or a value with a width and a precision. -/
inductive Out (V : Type) where
  | lit (s : Nat)
  | value (v : V) (width prec : Option V) (spec : Nat)
  deriving DecidableEq, Repr

variable (vars : Name → V) (exprs : Nat → V)

def Val.eval : Val → V
  | .var x => vars x
  | .expr e => exprs e

/-- The value that a reference stands for. -/
def Target.eval (args : List Arg) : Target → Option V
  | .arg i => args[i]?.map (fun a => a.val.eval vars exprs)
  | .captured x => some (vars x)

/-- What a piece prints. -/
def RPiece.eval (args : List Arg) : RPiece → Option (Out V)
  | .lit s => some (.lit s)
  | .hole h =>
    (h.arg.target.eval vars exprs args).map
      (fun v => .value v (h.width.bind (fun r => r.target.eval vars exprs args))
        (h.prec.bind (fun r => r.target.eval vars exprs args)) h.spec)

/-- What a call prints; `none` is an error. -/
def prints (args : List Arg) (ps : List Piece) : Option (List (Option (Out V))) :=
  (lower args ps).map (fun rs => rs.map (RPiece.eval vars exprs args))

end

/-- No argument that is not a mere name has the name of a variable that is an argument. -/
def NoClash (args : List Arg) : Prop :=
  ∀ a ∈ args, ∀ e, a.val = .expr e → ∀ x, a.name = some x → ∀ b ∈ args, b.val ≠ .var x

end Verif.Inline
