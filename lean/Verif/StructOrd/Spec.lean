/-!
# Fields of constructors in the order of the definition: what is meant
-/

namespace Verif.StructOrd

/-- A field of a constructor: its name, its text with attributes, whether it is short for the variable of the same name, and what it does: from a state to a value and
a state. -/
structure Field where
  name : Nat
  text : List Char
  short : Bool
  eval : Nat → Nat × Nat

/-- A variable is read without changing anything. -/
def Reads (f : Field) : Prop := ∀ st, (f.eval st).2 = st

/-- The fields of the value that is made, in order, and the state afterwards. -/
def make : List Field → Nat → List (Nat × Nat) × Nat
  | [], st => ([], st)
  | f :: r, st => ((f.name, (f.eval st).1) :: (make r (f.eval st).2).1, (make r (f.eval st).2).2)

/-- The value of a field. -/
def field (v : List (Nat × Nat)) (n : Nat) : Option Nat := (v.find? fun x => x.1 = n).map Prod.snd

/-- The fields are in the order of the definition. -/
def InOrder (defs : List Nat) (l : List Field) : Prop := l.Pairwise fun f g => defs.idxOf f.name ≤ defs.idxOf g.name

/-- A text: pieces with separators between them. -/
inductive Text : List (List Char) → List (List Char) → List Char → Prop
  | one (a : List Char) : Text [a] [] a
  | more (a w : List Char) (as ws : List (List Char)) (t : List Char) : Text as ws t → Text (a :: as) (w :: ws) (a ++ w ++ t)

end Verif.StructOrd
