import Verif.Indexing.Syntax

/-!
# Specification: when does an index panic?
-/

namespace Verif.Indexing

/-- What happens when the expression is evaluated: the number of items, and the value of the index. -/
inductive Val where
  | usize (n : Nat)
  /-- A range with its bounds, where it has them. -/
  | range (start end_ : Option Nat) (closed : Bool)

/-- `core::slice::index`: an item must be there. -/
def itemPanics (len n : Nat) : Prop := len ≤ n

/-- Where a range ends: `a..=b` is `a..b+1`. -/
def endVal (len : Nat) (closed : Bool) : Option Nat → Nat
  | none => len
  | some e => if closed then e + 1 else e

/-- A range must begin before it ends, and end in the slice. -/
def rangePanics (len : Nat) (start end_ : Option Nat) (closed : Bool) : Prop :=
  endVal len closed end_ < start.getD 0 ∨ len < endVal len closed end_

/-- The slice, array or vector has `len` items; does indexing it with the value panic? -/
def panics (len : Nat) : Val → Prop
  | .usize n => itemPanics len n
  | .range s e c => rangePanics len s e c

/-- The value of an expression agrees with what is known about it. -/
def agrees (b : Bound) (n : Nat) : Prop := ∀ c, b.const = some (.int c) → c = n

/-- A bound that is there has a value, which is a `usize` (with `bits` bits). -/
inductive BoundVal (bits : Nat) : Option Bound → Option Nat → Prop
  | none : BoundVal bits none none
  | some {b n} : n < 2 ^ bits → agrees b n → BoundVal bits (some b) (some n)

/-- The values that the index can have.  Indices that are no `usize` and not written as a range
are ranges with any bounds. -/
inductive Has (bits : Nat) : Index → Val → Prop
  | range {r s e} : BoundVal bits r.start s → BoundVal bits r.end_ e →
      Has bits (.range r) (.range s e r.closed)
  | single {b cb n} : n < 2 ^ bits → agrees b n → Has bits (.single b cb true) (.usize n)
  | other {b cb s e c} : Has bits (.single b cb false) (.range s e c)

/-- The numbers of items that a value of the type can have. -/
def lenOk (bits : Nat) : Base → Nat → Prop
  | .array (some size), len => len = size
  | _, len => len < 2 ^ bits

end Verif.Indexing
