/-!
# Loops with labels
-/

namespace Verif.InfLoop

abbrev Label := Nat

mutual
inductive Ex where
  | ret
  | retVal (e : Ex)
  | become (e : Ex)
  | cont (l : Option Label)
  | brk (l : Option Label)
  | brkVal (l : Option Label) (e : Ex)
  | ifThen (c t : Ex)
  | ifElse (c t e : Ex)
  | mtch (s : Ex) (as : Arms)
  /-- `while` and `for` are loops with `break`. -/
  | loop (l : Option Label) (b : Stmts)
  | block (l : Option Label) (b : Stmts)
  /-- `a && b` and `a || b` -/
  | lazy (and : Bool) (a b : Ex)
  /-- Any other expression: an operation on operands. -/
  | op (n : Nat) (args : Exs)
inductive Exs where
  | nil
  | cons (e : Ex) (es : Exs)
/-- `pat => body` and `pat if guard => body`. -/
inductive Arms where
  | nil
  | arm (pat : Nat) (body : Ex) (as : Arms)
  | guarded (pat : Nat) (guard body : Ex) (as : Arms)
/-- The statements of a block, with the final expression if there is one. -/
inductive Stmts where
  | nil
  | last (e : Ex)
  | expr (e : Ex) (s : Stmts)
  | let_ (pat : Nat) (e : Ex) (s : Stmts)
  | letElse (pat : Nat) (e : Ex) (els : Stmts) (s : Stmts)
end

end Verif.InfLoop
