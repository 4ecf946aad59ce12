import Verif.Empty.Spec

/-!
# Model: len_zero.rs
-/

namespace Verif.Empty

/-- The surroundings — clippy_lints/src/len_zero.rs:198, 295-348: whether this is in a function `is_empty`, and whether the type of a
variable or of what a method gives has a method `is_empty`. -/
structure Info where
  inEmpty : Bool
  objHas : Nat → Bool
  methHas : Nat → Nat → Bool

/-- `has_is_empty` — clippy_lints/src/len_zero.rs:295-348: arrays, slices and strings have it, numbers do not. -/
def hasIsEmpty (t : Info) : Opd → Bool
  | .obj x => t.objHas x
  | .meth k x => t.methHas k x
  | .str _ => true
  | .arr _ => true
  | _ => false

/-- `is_empty_array` and `is_empty_string` — clippy_lints/src/len_zero.rs:277-292. -/
def isEmptyLit : Opd → Bool
  | .str l => l.isEmpty
  | .arr l => l.isEmpty
  | _ => false

/-- `check_empty_expr` — clippy_lints/src/len_zero.rs:243-260: whether there is a `!`, and the operand. -/
def checkEmpty (t : Info) (a b : Opd) (not : Bool) : List (Bool × Opd) :=
  if isEmptyLit b && hasIsEmpty t a then [(not, a)] else []

/-- `check_len` for the literal `n` — clippy_lints/src/len_zero.rs:209-241. -/
def checkLen (t : Info) (x n : Nat) (not : Bool) (to : Nat) : List (Bool × Opd) :=
  if n ≠ to then [] else if t.objHas x then [(not, .obj x)] else []

/-- `check_cmp` — clippy_lints/src/len_zero.rs:183-206: a method call and a literal, or anything else. -/
def checkCmp (t : Info) (a b : Opd) (not : Bool) (to : Nat) : List (Bool × Opd) :=
  match a, b with
  | .len x, .int n => if t.inEmpty then [] else checkLen t x n not to
  | .len _, .str _ => []
  | .meth _ _, .int _ => []
  | .meth _ _, .str _ => []
  | a, b => checkEmpty t a b not

/-- `check_expr` for a comparison — clippy_lints/src/len_zero.rs:152-178. -/
def check (t : Info) (o : Op) (a b : Opd) : List (Bool × Opd) :=
  match o with
  | .eq => checkCmp t a b false 0 ++ checkCmp t b a false 0
  | .ne => checkCmp t a b true 0 ++ checkCmp t b a true 0
  | .gt => checkCmp t a b true 0 ++ checkCmp t b a false 1
  | .lt => checkCmp t a b false 1 ++ checkCmp t b a true 0
  | .ge => checkCmp t a b true 1
  | .le => checkCmp t b a true 1
  | .other => []

/-- `a.eq(b)` and `a.ne(b)` — clippy_lints/src/len_zero.rs:135-150. -/
def checkMethod (t : Info) (isNe : Bool) (a b : Opd) : List (Bool × Opd) := checkEmpty t a b isNe

/-- `if let "" = x` — clippy_lints/src/len_zero.rs:105-133; `pat`: the pattern is an empty slice or string. -/
def checkLet (t : Info) (pat : Bool) (a : Opd) : List (Bool × Opd) :=
  if pat && hasIsEmpty t a then [(false, a)] else []

end Verif.Empty
