/-!
# Patterns with variables
-/

namespace Verif.LetElse

abbrev Name := Nat

/-- `ref`, `ref mut` and `mut` in front of a variable. -/
structure Mode where
  ref : Option Bool
  mt : Bool
  deriving DecidableEq

/-- No prefix. -/
def Mode.plain : Mode := ⟨none, false⟩

mutual
inductive Pat where
  | wild
  | lit (n : Nat)
  /-- A variant without fields. -/
  | path (c : Nat)
  | bind (m : Mode) (x : Name)
  | bindAt (m : Mode) (x : Name) (p : Pat)
  /-- `(p, .., q)`, with the position of `..`. -/
  | tuple (rest : Option Nat) (ps : Pats)
  | ts (c : Nat) (rest : Option Nat) (ps : Pats)
  /-- `C { f: p, .. }`, with or without `..`. -/
  | strct (c : Nat) (dots : Bool) (fs : Fields)
  | or (ps : Pats)
  | slice (ps : Pats)
  /-- `&p` -/
  | ref (p : Pat)
inductive Pats where
  | nil
  | cons (p : Pat) (ps : Pats)
inductive Fields where
  | nil
  | cons (f : Nat) (p : Pat) (fs : Fields)
end

def Pats.toList : Pats → List Pat
  | .nil => []
  | .cons p ps => p :: ps.toList

def Fields.toList : Fields → List Pat
  | .nil => []
  | .cons _ p fs => p :: fs.toList

/-- What is on the right of a branch. -/
inductive Ex where
  | path (x : Name)
  | tuple (es : List (Option Name))
  | array (es : List (Option Name))
  | blk (e : Ex)
  | other (n : Nat)

structure Arm where
  pat : Pat
  guard : Bool
  body : Ex

/-- `let P = if let p = s { t } else { e };` or `let P = match s { a, … };` -/
inductive Init where
  | ifLet (p : Pat) (t : Ex) (e : Option Ex)
  | mtch (as : List Arm)

/-- `let p = s else { e };`.  Without a pattern: it can't be read. -/
structure Edit where
  pat : Option Pat
  els : Ex

end Verif.LetElse
