/-!
# Files loaded as modules more than once: what is meant
-/

namespace Verif.DupMod

/-- A module in a file: the file (after links are followed), the place of the item, whether the lint is allowed or expected there, and the expectation, if there is one. -/
structure Item where
  file : Nat
  span : Nat
  quiet : Bool
  expect : Option Nat
  deriving DecidableEq, Repr

/-- The items that load a file. -/
def loads (its : List Item) (f : Nat) : List Item := its.filter (fun i => decide (i.file = f))

/-- The items that load a file and want to hear of it. -/
def loud (its : List Item) (f : Nat) : List Item := (loads its f).filter (fun i => !i.quiet)

end Verif.DupMod
