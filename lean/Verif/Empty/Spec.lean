/-!
# Specification: comparisons of lengths with zero and of sequences with empty ones
-/

namespace Verif.Empty

inductive Op | eq | ne | lt | gt | le | ge | other
  deriving DecidableEq, Repr

/-- Operands of a comparison. -/
inductive Opd
  /-- `x.len()` -/
  | len (x : Nat)
  /-- Another method without arguments, as in `x.trim()`. -/
  | meth (k x : Nat)
  /-- A variable. -/
  | obj (x : Nat)
  | int (n : Nat)
  /-- The literal of a string. -/
  | str (l : List Nat)
  /-- An array written down. -/
  | arr (l : List Nat)
  deriving DecidableEq, Repr

/-- What the objects are: their lengths, their elements, whether they say that they are empty, and the sequences that
methods give. -/
structure Sem where
  len : Nat → Nat
  elems : Nat → List Nat
  empty : Nat → Bool
  meth : Nat → Nat → List Nat

/-- Lengths, elements and `is_empty` fit together. -/
structure Sane (I : Sem) : Prop where
  len : ∀ x, I.empty x = true ↔ I.len x = 0
  elems : ∀ x, I.empty x = true ↔ I.elems x = []

inductive Val
  | int (n : Nat)
  | seq (l : List Nat)
  deriving DecidableEq, Repr

def Opd.eval (I : Sem) : Opd → Val
  | .len x => .int (I.len x)
  | .meth k x => .seq (I.meth k x)
  | .obj x => .seq (I.elems x)
  | .int n => .int n
  | .str l => .seq l
  | .arr l => .seq l

/-- The order of dictionaries. -/
def before : List Nat → List Nat → Bool
  | _, [] => false
  | [], _ :: _ => true
  | x :: xs, y :: ys => decide (x < y) || (x == y && before xs ys)

def ints : Op → Nat → Nat → Bool
  | .eq, a, b => a == b
  | .ne, a, b => a != b
  | .lt, a, b => decide (a < b)
  | .gt, a, b => decide (b < a)
  | .le, a, b => decide (a ≤ b)
  | .ge, a, b => decide (b ≤ a)
  | .other, _, _ => false

def seqs : Op → List Nat → List Nat → Bool
  | .eq, a, b => a == b
  | .ne, a, b => a != b
  | .lt, a, b => before a b
  | .gt, a, b => before b a
  | .le, a, b => !before b a
  | .ge, a, b => !before a b
  | .other, _, _ => false

/-- The value of a comparison; `none`: it does not type-check. -/
def compare (I : Sem) (o : Op) (a b : Opd) : Option Bool :=
  match a.eval I, b.eval I with
  | .int x, .int y => some (ints o x y)
  | .seq x, .seq y => some (seqs o x y)
  | _, _ => none

/-- The value of `x.is_empty()` (`not`: of `!x.is_empty()`). -/
def isEmpty (I : Sem) (not : Bool) : Opd → Option Bool
  | .obj x => some (not != I.empty x)
  | .meth k x => some (not != (I.meth k x).isEmpty)
  | .str l => some (not != l.isEmpty)
  | .arr l => some (not != l.isEmpty)
  | _ => none

end Verif.Empty
