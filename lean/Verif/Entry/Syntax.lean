/-!
# Syntax: a check for a key, followed by insertions
-/

namespace Verif.Entry

/-- How the result of `e.insert(v)` is used: not at all, as `Some(e.insert(v))`, or as `{ e.insert(v); None }`. -/
inductive Wrap where
  | raw | someOf | thenNone
  deriving DecidableEq, Repr

mutual
/-- Expressions. -/
inductive Ex where
  /-- `map.insert(key, v)` for the map of the check, with the key of the check or another one. -/
  | ins (own : Bool) (v : Ex)
  /-- The map, or a part of the place that holds it. -/
  | part (n : Nat)
  /-- The key of the check. -/
  | key
  | ite (c t e : Ex)
  /-- `if` without `else`. -/
  | when (c t : Ex)
  | mtch (s : Ex) (as : Arms)
  | loop (b : Blk)
  | blk (b : Blk)
  | asm (n : Nat)
  /-- Any other expression: a call, a `return`, ... -/
  | op (n : Nat) (args : Exs)
  /-- Only in suggestions: an insertion by the entry. -/
  | eIns (w : Wrap) (v : Ex)
/-- Operands. -/
inductive Exs where
  | nil
  | cons (e : Ex) (es : Exs)
/-- Blocks: statements, and at the end an expression or nothing. -/
inductive Blk where
  | done
  | tail (e : Ex)
  /-- `e;` -/
  | semi (e : Ex) (r : Blk)
  /-- An expression statement without semicolon. -/
  | stmt (e : Ex) (r : Blk)
  /-- `let _ = e;` -/
  | letWild (e : Ex) (r : Blk)
  | let_ (p : Nat) (e : Ex) (r : Blk)
  | letElse (p : Nat) (e : Ex) (els : Blk) (r : Blk)
  /-- `let p;` -/
  | decl (r : Blk)
  | item (r : Blk)
/-- The arms of a `match`: a pattern, perhaps a guard, and an expression. -/
inductive Arms where
  | nil
  | arm (p : Nat) (e : Ex) (r : Arms)
  | guarded (p : Nat) (g e : Ex) (r : Arms)
end

/-- The block has no statements and no expression. -/
def Blk.isDone : Blk → Bool
  | .done => true
  | _ => false

/-- There is exactly one arm. -/
def Arms.isOne : Arms → Bool
  | .arm _ _ .nil => true
  | .guarded _ _ _ .nil => true
  | _ => false

/-- `if [!]map.contains_key(&key) { thn } else { els }` -/
structure Check where
  neg : Bool
  thn : Blk
  els : Option Ex

/-- What is written instead. -/
inductive New where
  /-- `map.entry(key).or_insert(v);` -/
  | orInsert (v : Ex)
  /-- `map.entry(key).or_insert_with(|| b);` -/
  | orInsertWith (b : Blk)
  /-- `if let Vacant(e) = map.entry(key) { b } else { els }`, or `Occupied(mut e)` -/
  | ifLet (occ : Bool) (b : Ex) (els : Option Ex)
  /-- `match map.entry(key) { Vacant(e) => .., Occupied(mut e) => .. }` -/
  | both (vac occ : Ex)

end Verif.Entry
