/-!
# `manual_memcpy`

Model of `clippy_lints/src/loops/manual_memcpy.rs`. Texts of suggestions are expressions: two texts are the same exactly if the expressions are,
and parentheses are right (property C16). All bases have slice-like types (`get_slice_like_element_ty`), and whether `copy_from_slice` or
`clone_from_slice` is suggested is left out, as is `clone()` (`fetch_cloned_expr`).
-/

namespace Verif.Memcpy

/-- What is indexed: a variable, or another expression, with the variables it mentions. -/
inductive Base
  | loc (x : Nat)
  | other (k : Nat) (vars : List Nat)
deriving DecidableEq, Repr

/-- `res_local_id`. -/
def Base.resLocal : Base → Option Nat
  | .loc x => some x
  | .other _ _ => none

/-- Arithmetic: a literal, a variable, the path of a constant, `base.len()`, something else, and what suggestions are made of. -/
inductive A
  | lit (n : Nat)
  | var (x : Nat)
  | const (k : Nat)
  | len (b : Base)
  | atom (k : Nat)
  | add (a b : A)
  | sub (a b : A)
  | neg (a : A)
deriving DecidableEq, Repr

/-- What is assigned or read: `base[index]` or something else. -/
inductive Place
  | index (b : Base) (i : A)
  | other
deriving DecidableEq, Repr

/-- Statements in the body of the loop: a `let` (with an effect `k`), an assignment, `x += 1`, another compound assignment to a variable, a
compound assignment to something else, and any other expression. -/
inductive Stmt
  | letS (k : Nat)
  | assign (l r : Place)
  | incr (x : Nat)
  | opLocal (x : Nat)
  | opPlace (k : Nat)
  | other (k : Nat)
deriving DecidableEq, Repr

/-- A loop `for var in start..end { body }`, or with `..=`. `init` are the initial values found by `InitializeVisitor` for the variables declared
in the enclosing block; `arrLen` are the known lengths of arrays. -/
structure Loop where
  var : Nat
  start : A
  stop : A
  closed : Bool
  body : List Stmt
  init : Nat → Option A
  arrLen : Base → Option Nat

/-! ### Loop counters -/

/-- How a variable occurs: `x += 1`, another assignment or a mutable borrow, or else. -/
inductive Occ
  | use (x : Nat) | inc (x : Nat) | write (x : Nat)
deriving DecidableEq, Repr

/-- The variable. -/
def Occ.var : Occ → Nat
  | .use x | .inc x | .write x => x

/-- The variables a base mentions. -/
def Base.vars : Base → List Nat
  | .loc x => [x]
  | .other _ xs => xs

/-- The variables an expression mentions. -/
def A.vars : A → List Nat
  | .lit _ | .const _ | .atom _ => []
  | .var x => [x]
  | .len b => b.vars
  | .add a b | .sub a b => a.vars ++ b.vars
  | .neg a => a.vars

/-- The variables of a place. -/
def Place.vars : Place → List Nat
  | .index b i => b.vars ++ i.vars
  | .other => []

/-- The occurrences in a statement, in the order they are visited. -/
def Stmt.occs : Stmt → List Occ
  | .assign l r => (r.vars ++ l.vars).map .use
  | .incr x => [.inc x]
  | .opLocal x => [.write x]
  | _ => []

/-- `IncrementVisitorVarState` (loops/utils.rs:15-19). -/
inductive VarState
  | initial | incrOnce | dontWarn
deriving DecidableEq, Repr

/-- One occurrence of a variable (loops/utils.rs:60-95). -/
def VarState.step : VarState → Occ → VarState
  | .incrOnce, _ => .dontWarn
  | .initial, .inc _ => .incrOnce
  | .dontWarn, .inc _ => .dontWarn
  | _, .write _ => .dontWarn
  | s, .use _ => s

/-- The state of a variable in the end. -/
def varState (x : Nat) (os : List Occ) : VarState := (os.filter (fun o => o.var == x)).foldl VarState.step .initial

/-- Where an index starts: at the start of the range, or at the initial value of a counter. The variable of the counter isn't in the code, it is
used in the statements of theorems only. -/
inductive Start
  | range
  | counter (x : Nat) (init : A)
deriving DecidableEq, Repr

/-- The initial value of a loop counter (`get_loop_counters`, manual_memcpy.rs:459-484). -/
def Loop.counter (L : Loop) (x : Nat) : Option A :=
  if varState x (L.body.flatMap Stmt.occs) = .incrOnce then L.init x else none

/-- `get_start` (manual_memcpy.rs:382-385): the range first, then the counters. -/
def Loop.getStart (L : Loop) : A → Option Start
  | .var x => if x = L.var then some .range else (L.counter x).map (.counter x)
  | _ => none

/-- `get_offset` (manual_memcpy.rs:387-396). -/
def Loop.getOffset (L : Loop) : A → Option A
  | .lit n => some (.lit n)
  | .var x => if (L.getStart (.var x)).isNone then some (.var x) else none
  | .const k => some (.const k)
  | _ => none

/-- `Offset` (manual_memcpy.rs:303-306). -/
structure Offset where
  value : A
  neg : Bool
deriving DecidableEq, Repr

/-- `get_details_from_idx` (manual_memcpy.rs:377-415). -/
def Loop.details (L : Loop) : A → Option (Start × Offset)
  | .add l r =>
    match L.getStart l, L.getOffset r with
    | some s, some o => some (s, ⟨o, false⟩)
    | _, _ =>
      match L.getStart r, L.getOffset l with
      | some s, some o => some (s, ⟨o, false⟩)
      | _, _ => none
  | .sub l r =>
    match L.getStart l, L.getOffset r with
    | some s, some o => some (s, ⟨o, true⟩)
    | _, _ => none
  | .var x => (L.getStart (.var x)).map (fun s => (s, ⟨.lit 0, false⟩))
  | _ => none

/-- `IndexExpr` (manual_memcpy.rs:347-351). -/
structure Idx where
  base : Base
  start : Start
  offset : Offset
deriving DecidableEq, Repr

/-- The two sides of an assignment the lint accepts (manual_memcpy.rs:61-90). -/
def Loop.pair (L : Loop) : Place → Place → Option (Idx × Idx)
  | .index bl il, .index br ir =>
    match L.details il, L.details ir with
    | some (sl, ol), some (sr, or) =>
      if L.var ∈ bl.vars ∨ L.var ∈ br.vars ∨ bl.resLocal = br.resLocal then none else some (⟨bl, sl, ol⟩, ⟨br, sr, or⟩)
    | _, _ => none
  | _, _ => none

/-- `get_assignments` and the checks of each (manual_memcpy.rs:57-98, 417-457). A compound assignment to something which isn't a variable is
dropped: `is_some_and` is `false`. -/
def Loop.pairs (L : Loop) : List Stmt → Option (List (Idx × Idx))
  | [] => some []
  | .letS _ :: ss => L.pairs ss
  | .opPlace _ :: ss => L.pairs ss
  | .incr x :: ss | .opLocal x :: ss => if (L.counter x).isSome then L.pairs ss else none
  | .assign l r :: ss =>
    match L.pair l r, L.pairs ss with
    | some p, some ps => some (p :: ps)
    | _, _ => none
  | .other _ :: _ => none

/-! ### The suggestion -/

/-- `MinifyingSugg::is_zero` (manual_memcpy.rs:238-240). -/
def A.isZero : A → Bool
  | .lit n => n == 0
  | _ => false

/-- Addition of `MinifyingSugg`s (manual_memcpy.rs:249-258, 275-284). -/
def mAdd (a b : A) : A := if a.isZero then b else if b.isZero then a else .add a b

/-- Subtraction of `MinifyingSugg`s (manual_memcpy.rs:260-273, 286-299). -/
def mSub (a b : A) : A := if b.isZero then a else if a.isZero then .neg b else if a = b then .lit 0 else .sub a b

/-- `apply_offset` (manual_memcpy.rs:334-339). -/
def applyOffset (a : A) (o : Offset) : A := if o.neg then mSub a o.value else mAdd a o.value

/-- `print_offset` (manual_memcpy.rs:126-132); `none` is the empty text. -/
def printOffset (a : A) : Option A := if a.isZero then none else some a

/-- `print_limit` (manual_memcpy.rs:134-150). -/
def Loop.printLimit (L : Loop) (b : Base) (a : A) : Option A :=
  let other := some (if L.closed then mAdd a (.lit 1) else a)
  match L.stop with
  | .len b' => if b'.resLocal = b.resLocal then (if a = L.stop then none else some a) else other
  | _ => other

/-- `print_offset_and_limit` (manual_memcpy.rs:155-179). -/
def Loop.bounds (L : Loop) (i : Idx) : Option A × Option A :=
  match i.start with
  | .range => (printOffset (applyOffset L.start i.offset), L.printLimit i.base (applyOffset L.stop i.offset))
  | .counter _ c =>
    (printOffset (applyOffset c i.offset), L.printLimit i.base (mSub (mAdd (applyOffset L.stop i.offset) c) L.start))

/-- `is_array_length_equal_to_range` (manual_memcpy.rs:486-515). The subtraction isn't checked in the code; it is done here as in release
builds, where it wraps. -/
def Loop.wholeArray (L : Loop) (b : Base) : Bool :=
  match L.arrLen b, L.start, L.stop with
  | some n, .lit s, .lit e => n == (e + 2 ^ 128 - s) % 2 ^ 128
  | _, _, _ => false

/-- One suggested call: `dst[lo..hi].copy_from_slice(&src[lo..hi]);`. Without brackets the whole is meant. -/
structure Copy where
  dst : Base
  dstRange : Option (Option A × Option A)
  src : Base
  srcRange : Option (Option A × Option A)
deriving DecidableEq, Repr

/-- `build_manual_memcpy_suggestion` (manual_memcpy.rs:117-218). -/
def Loop.build (L : Loop) (p : Idx × Idx) : Copy where
  dst := p.1.base
  dstRange := if L.bounds p.1 = (none, none) ∨ L.wholeArray p.1.base = true then none else some (L.bounds p.1)
  src := p.2.base
  srcRange := if L.wholeArray p.2.base then none else some (L.bounds p.2)

/-- `check` (manual_memcpy.rs:20-115). -/
def Loop.suggest (L : Loop) : Option (List Copy) :=
  match L.pairs L.body with
  | some ps => if ps.isEmpty then none else some (ps.map L.build)
  | none => none

end Verif.Memcpy
