import Verif.Guard.Syntax

/-!
# Arms whose body is another `match`, `if let` or `if`

Patterns and values are those of `Verif.Guard.Syntax`; variables are the compiler's ids, so different variables with the
same name are different.
-/

namespace Verif.Collapse

open Verif.Guard (Id Pat Pats Fields Val Code)

deriving instance DecidableEq for Code

/-- Expressions as far as they matter: the empty block or `()`, and others with the variables they use. -/
inductive Blk where
  | unit
  | code (c : Code)
  deriving DecidableEq

/-- What the inner `match` looks at: a variable or something else. -/
inductive Scrut where
  | loc (x : Id)
  | other (k : Nat) (uses : List Id)

/-- The arms of the inner `match`. -/
structure IArm where
  pat : Pat
  guard : Option Code
  body : Blk

/-- The body of an arm. -/
inductive Body where
  | blk (b : Blk)
  /-- `if c { t } else { e }` -/
  | ite (c : Code) (t : Blk) (e : Option Blk)
  /-- `if let q = s { t } else { e }` -/
  | ifLet (q : Pat) (s : Scrut) (t : Blk) (e : Option Blk)
  /-- `match s { .. }` -/
  | mtch (s : Scrut) (arms : List IArm)

/-- An arm; the guard is a conjunction, `[]` means that there is none. -/
structure Arm where
  pat : Pat
  guard : List Code
  body : Body

/-- The constructor `None`. -/
abbrev noneCon : Nat := 1

end Verif.Collapse
