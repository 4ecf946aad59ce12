/-!
# Expressions with jumps
-/

namespace Verif.Never

/-- The target of `break` and `continue`. -/
abbrev Id := Nat

mutual
inductive Ex where
  /-- `DropTemps`, parentheses. -/
  | temps (e : Ex)
  | ret
  /-- `return e` and `become e` -/
  | retVal (e : Ex)
  | cont (l : Id)
  | brk (l : Id)
  | brkVal (l : Id) (e : Ex)
  | ifThen (c t : Ex)
  | ifElse (c t e : Ex)
  | mtch (s : Ex) (as : Arms)
  | loop (l : Id) (b : Stmts)
  /-- A block; `some l` if a `break` goes to it (`targeted_by_break`). -/
  | block (l : Option Id) (b : Stmts)
  /-- `a && b` and `a || b` -/
  | lazy (and : Bool) (a b : Ex)
  /-- Any other expression: an operation on operands, in the order of evaluation. -/
  | op (n : Nat) (args : Exs)
inductive Exs where
  | nil
  | cons (e : Ex) (es : Exs)
/-- `pat => body` and `pat if guard => body`. -/
inductive Arms where
  | nil
  | arm (pat : Nat) (body : Ex) (as : Arms)
  | guarded (pat : Nat) (guard body : Ex) (as : Arms)
/-- The statements of a block, with the final expression if there is one. -/
inductive Stmts where
  | nil
  | last (e : Ex)
  | expr (e : Ex) (s : Stmts)
  | let_ (pat : Nat) (e : Ex) (s : Stmts)
  | letElse (pat : Nat) (e : Ex) (els : Stmts) (s : Stmts)
end

/-- Is there a final expression? -/
def Stmts.hasLast : Stmts → Bool
  | .nil => false
  | .last _ => true
  | .expr _ s => s.hasLast
  | .let_ _ _ s => s.hasLast
  | .letElse _ _ _ s => s.hasLast

end Verif.Never
