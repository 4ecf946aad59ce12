import Verif.StructOrd.Spec

/-!
# Fields of constructors in the order of the definition: the linter
-/

namespace Verif.StructOrd

/-- The loop that fills `def_order_map`; clippy_lints/src/inconsistent_struct_constructor.rs:104-107. -/
def orderMap (i : Nat) (m : List (Nat × Nat)) : List Nat → List (Nat × Nat)
  | [] => m
  | n :: r => orderMap (i + 1) ((n, i) :: m) r

/-- `def_order_map[…]`; a name that is missing would be a panic, here it is zero; clippy_lints/src/inconsistent_struct_constructor.rs:142, 168. -/
def look (n : Nat) : List (Nat × Nat) → Nat
  | [] => 0
  | (k, i) :: r => if k == n then i else look n r

/-- `is_consistent_order`; clippy_lints/src/inconsistent_struct_constructor.rs:139-150. -/
def isConsistent (m : List (Nat × Nat)) (cur : Nat) : List Field → Bool
  | [] => true
  | f :: r => if cur > look f.name m then false else isConsistent m (look f.name m) r

/-- One step of the sort: a field is put before the first that does not come before it; clippy_lints/src/inconsistent_struct_constructor.rs:168. -/
def insert (m : List (Nat × Nat)) (f : Field) : List Field → List Field
  | [] => [f]
  | g :: r => if look f.name m ≤ look g.name m then f :: g :: r else g :: insert m f r

/-- `sort_unstable_by_key` as an insertion sort (the keys are different, so there is only one result); clippy_lints/src/inconsistent_struct_constructor.rs:167-168. -/
def sort (m : List (Nat × Nat)) : List Field → List Field
  | [] => []
  | f :: r => insert m f (sort m r)

/-- The loop that joins the texts and the separators; clippy_lints/src/inconsistent_struct_constructor.rs:176-183. -/
def join : List (List Char) → List (List Char) → List Char
  | [], _ => []
  | a :: as, [] => a ++ join as []
  | a :: as, w :: ws => a ++ w ++ join as ws

/-- `suggestion` with the texts between the fields; clippy_lints/src/inconsistent_struct_constructor.rs:152-184. -/
def suggestion (m : List (Nat × Nat)) (fields : List Field) (ws : List (List Char)) : List Char :=
  join ((sort m fields).map Field.text) ws

/-- What is reported: the fields in their new order, the new text, and whether it is for machines; clippy_lints/src/inconsistent_struct_constructor.rs:84-134. -/
structure Report where
  fields : List Field
  text : List Char
  machine : Bool

/-- `check_expr` for a constructor of a local structure that is not from a macro; clippy_lints/src/inconsistent_struct_constructor.rs:84-134. -/
def check (config : Bool) (defs : List Nat) (fields : List Field) (ws : List (List Char)) : Option Report :=
  if !fields.all Field.short && !config then none
  else if isConsistent (orderMap 0 [] defs) 0 fields then none
  else some { fields := sort (orderMap 0 [] defs) fields, text := suggestion (orderMap 0 [] defs) fields ws, machine := fields.all Field.short }

end Verif.StructOrd
