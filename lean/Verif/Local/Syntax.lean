/-!
# Expressions with the places they come from
-/

namespace Verif.Local

/-- Where code was written: 0 is the file itself, other numbers are expansions of macros. -/
abbrev Ctxt := Nat

/-- Tokens of source text, as far as it matters. -/
inductive Tok where
  | whitespace
  | lineComment
  | blockComment
  | semi
  | openBrace
  | other (n : Nat)
  deriving DecidableEq

/-- Constants. -/
inductive Const where
  | bool (b : Bool)
  | int (n : Nat)
  /-- A floating point number of some width, given by its bits. -/
  | float (width bits : Nat)
  | other (n : Nat)
  /-- A value of a struct. -/
  | adt (n : Nat)
  | vec (cs : List Const)
  | tuple (cs : List Const)
  | rep (c : Const) (n : Nat)
  | ref (c : Const)

inductive UnOp where
  | not | neg | deref
  deriving DecidableEq

inductive BinOp where
  | and | or | other (n : Nat)
  deriving DecidableEq

/-- The length in `[x; n]`: written as a number, or as a name. -/
inductive Len where
  | num (n : Nat)
  | named (n : Nat)

mutual
/-- An expression, and where it was written. -/
inductive Ex where
  | mk (c : Ctxt) (k : Kind)
inductive Kind where
  | constBlock (e : Ex)
  | temps (e : Ex)
  /-- A path, with the places its segments come from. -/
  | path (segs : List Ctxt) (p : Nat)
  /-- `{ stmts; tail }`: where the block was written, the source text from its start up to the final expression (if
  it can be had), and whether there are statements. -/
  | block (c : Ctxt) (text : Option (List Tok)) (stmts : Bool) (tail : Ex)
  /-- A block without final expression. -/
  | unitBlock (c : Ctxt)
  | lit (c : Ctxt) (v : Const)
  | arr (es : Elems)
  | tup (es : Elems)
  | rep (e : Ex) (n : Len)
  /-- An operator, with the type of its result. -/
  | un (op : UnOp) (ty : Nat) (e : Ex)
  | ifThen (c t : Ex)
  | ifElse (c t e : Ex)
  /-- An operator, with the type of its left operand. -/
  | bin (op : BinOp) (ty : Nat) (l r : Ex)
  /-- `f()`: the function, and where its name was written. -/
  | call (c : Ctxt) (f : Nat)
  | idx (a i : Ex)
  | ref (e : Ex)
  /-- `e.f`: where the name of the field was written, and whether `e` is a struct without adjustments. -/
  | field (e : Ex) (c : Ctxt) (plain : Bool) (f : Nat)
  | other
/-- Elements; `cfg`: with an attribute `#[cfg(…)]`. -/
inductive Elems where
  | nil
  | cons (cfg : Bool) (e : Ex) (es : Elems)
end

end Verif.Local
