import Verif.LateInit.Syntax

/-!
# A declaration and an `if`

Statements and branches are those of `Verif.LateInit`.
-/

namespace Verif.LetIf

open LateInit

/-- The `else` of the `if`. -/
inductive Els where
  | none
  | block (b : Branch)
  /-- `else if` -/
  | other

/-- `let x = init; if cond { then } else { .. }` -/
structure Seq where
  x : Id
  init : Option Code
  cond : Code
  then_ : Branch
  els : Els

end Verif.LetIf
