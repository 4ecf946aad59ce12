/-!
# Specification: assignments and assignments with an operator
-/

namespace Verif.Assign

inductive Op | add | sub | mul | div | rem | xor | band | bor | shl | shr | land | lor | cmp
  deriving DecidableEq, Repr

/-- Places: a variable or field, or an element of an array at an index that is in a variable. -/
inductive Place
  | cell (n : Nat)
  | idx (base i : Nat)
  deriving DecidableEq, Repr

inductive E
  | lit (n : Int)
  | read (p : Place)
  /-- A call, which may change memory. -/
  | call (k : Nat) (a : E)
  | bin (op : Op) (a b : E)
  deriving DecidableEq, Repr

abbrev Mem := Nat → Int

/-- The rest of the program: operators (`none`: a panic), operators with assignment as far as they are not built in,
and calls. -/
structure Sem where
  op : Op → Int → Int → Option Int
  opAssign : Op → Int → Int → Option Int
  call : Nat → Int → Mem → Option (Int × Mem)

def addr (m : Mem) : Place → Nat
  | .cell n => n
  | .idx base i => base + (m i).toNat

def put (m : Mem) (a : Nat) (x : Int) : Mem := fun b => if b = a then x else m b

/-- Operands from left to right. -/
def eval (I : Sem) : E → Mem → Option (Int × Mem)
  | .lit n, m => some (n, m)
  | .read p, m => some (m (addr m p), m)
  | .call k a, m => (eval I a m).bind fun r => I.call k r.1 r.2
  | .bin op a b, m => (eval I a m).bind fun r => (eval I b r.2).bind fun s => (I.op op r.1 s.1).map fun x => (x, s.2)

/-- `p = e`: first the value, then the place. -/
def assign (I : Sem) (p : Place) (e : E) (m : Mem) : Option Mem :=
  (eval I e m).map fun r => put r.2 (addr r.2 p) r.1

/-- `p op= e` for built-in types: first the operand, then the place. -/
def opAssign (I : Sem) (p : Place) (op : Op) (e : E) (m : Mem) : Option Mem :=
  (eval I e m).bind fun r => (I.op op (r.2 (addr r.2 p)) r.1).map fun x => put r.2 (addr r.2 p) x

/-- `p op= e` for other types: first the place, then the operand, then the trait's method. -/
def opAssignTrait (I : Sem) (p : Place) (op : Op) (e : E) (m : Mem) : Option Mem :=
  (eval I e m).bind fun r => (I.opAssign op (r.2 (addr m p)) r.1).map fun x => put r.2 (addr m p) x

/-- `e` changes nothing. -/
def Quiet (I : Sem) (e : E) : Prop := ∀ m r, eval I e m = some r → r.2 = m

/-- How often place `p` is written in the expression (also as an index). -/
def times (p : Place) : E → Nat
  | .lit _ => 0
  | .read q => (if q = p then 1 else 0) + (match q with | .idx _ i => if Place.cell i = p then 1 else 0 | .cell _ => 0)
  | .call _ a => times p a
  | .bin _ a b => times p a + times p b

/-- Operators whose operands may be swapped. -/
def Swappable (I : Sem) (op : Op) : Prop := ∀ x y, I.op op x y = I.op op y x

end Verif.Assign
