/-!
# `manual_swap` and `almost_swapped`

Model of `clippy_lints/src/swap.rs` and of `can_mut_borrow_both` in `clippy_utils/src/lib.rs`. Variables are their names; a `let` shadows what had
the name before. Left out: overloaded `Deref` (for which the code takes places for not borrowable), macros.
-/

namespace Verif.Swap

/-- An expression. -/
inductive E
  | lit (n : Nat)
  | var (x : Nat)
  | field (p : E) (i : Nat)
  | index (p e : E)
  | deref (p : E)
  | add (a b : E)
  | cast (e : E)
deriving DecidableEq, Repr

/-- A statement; `out` uses the value of an expression, within a closure or not. -/
inductive Stmt
  | letS (mutable : Bool) (x : Nat) (e : E)
  | assign (l r : E)
  | xor (l r : E)
  | out (closure : Bool) (e : E)
deriving DecidableEq, Repr

/-- The end of a block: three statements, those after them, and the value. -/
structure Block where
  s1 : Stmt
  s2 : Stmt
  s3 : Stmt
  rest : List Stmt
  tail : Option E
deriving Repr

/-- Whether a variable occurs. -/
def E.uses (x : Nat) : E → Bool
  | .lit _ => false
  | .var y => x == y
  | .field p _ | .deref p | .cast p => p.uses x
  | .index p e => p.uses x || e.uses x
  | .add a b => a.uses x || b.uses x

/-- A step from a place to a place in it. -/
inductive Proj
  | field (i : Nat)
  | index (e : E)
deriving DecidableEq, Repr

/-- `projection_stack` (clippy_utils/src/lib.rs:475-492): outermost first. -/
def projStack : E → List Proj × E
  | .index p e => ((projStack p).1 ++ [.index e], (projStack p).2)
  | .field p i => ((projStack p).1 ++ [.field i], (projStack p).2)
  | e => ([], e)

/-- The loop of `can_mut_borrow_both` (clippy_utils/src/lib.rs:523-537). -/
def apartProj : List Proj → List Proj → Bool
  | .field i :: s, .field j :: t => i != j || apartProj s t
  | _, _ => false

/-- `can_mut_borrow_both` (clippy_utils/src/lib.rs:509-538). -/
def canBorrow (a b : E) : Bool :=
  (projStack a).2 ≠ (projStack b).2 || apartProj (projStack a).1 (projStack b).1

/-- `is_used_slice_indexed` (swap.rs:416-427). -/
def usedIndexed (x : Nat) : E → Bool
  | .add (.lit _) (.lit _) => false
  | .add a b => usedIndexed x a || usedIndexed x b
  | .var y => y == x
  | _ => false

/-- `is_used_after_swap` (swap.rs:394-414, 443-456): the statements, but not closures (which the visitor doesn't enter), nor the value of the block. -/
def usedAfter (x : Nat) (rest : List Stmt) : Bool :=
  rest.any fun
    | .letS _ _ e => e.uses x
    | .assign l r | .xor l r => l.uses x || r.uses x
    | .out closure e => !closure && e.uses x

/-- `snippet_index_binding` (swap.rs:343-383): whether the variable declared in the statements replaced is bound. -/
def bindsIn (x : Nat) (used : Bool) : E → Bool
  | .add (.lit _) (.lit _) => false
  | .add a b => bindsIn x used a || bindsIn x used b
  | .var y => y == x && used
  | _ => false

/-- What is suggested: `mem::swap(&mut a, &mut b)`, or `v.swap(i, j)` after `let x = e;`. -/
inductive Sugg
  | mem (a b : E)
  | slice (bind : Option (Nat × E)) (v i j : E)
deriving DecidableEq, Repr

/-- `generate_swap_warning` (swap.rs:88-167). The declaration among the statements replaced is `decl`: `let x = e;`, or `let mut x = e;`, for which
`expr_or_init` gives `x` itself. Repetitions of the binding are left out. `ty` is whether a place is a slice, array, `Vec` or `VecDeque`. -/
def generate (ty : E → Bool) (decl : Option (Bool × Nat × E)) (rest : List Stmt) (e1 e2 r1 r2 : E) : Option Sugg :=
  if canBorrow e1 e2 then some (.mem e1 e2)
  else match e1, e2 with
    | .index v i, .index w j =>
      if v = w ∧ ty v = true then
        some (.slice (match decl with
          | none => none
          | some (m, x, init) =>
            let used := usedIndexed x i || usedIndexed x j || usedAfter x rest
            if [i, j, r1, r2].any (bindsIn x used) then some (x, if m then .var x else init) else none) v i j)
      else none
    | _, _ => none

/-- `check_manual_swap` (swap.rs:170-206). Expressions before and after the declaration are the same only if it doesn't shadow their variables. -/
def manualSwap (ty : E → Bool) (b : Block) : Option Sugg :=
  match b.s1, b.s2, b.s3 with
  | .letS m x init, .assign l1 r1, .assign l2 r2 =>
    if r2 = .var x ∧ (init = l1 ∧ init.uses x = false) ∧ r1 = l2 then generate ty (some (m, x, init)) b.rest l1 l2 r1 r2 else none
  | _, _, _ => none

/-- `check_xor_swap` (swap.rs:283-300). -/
def xorSwap (ty : E → Bool) (b : Block) : Option Sugg :=
  match b.s1, b.s2, b.s3 with
  | .xor l0 r0, .xor l1 r1, .xor l2 r2 =>
    if l0 = r1 ∧ l2 = r1 ∧ l1 = r0 ∧ l1 = r2 then generate ty none b.rest l0 r0 r1 r2 else none
  | _, _, _ => none

/-- `parse` (swap.rs:268-280): the name or place that is set, and the value. -/
def parse : Stmt → Option ((Nat ⊕ E) × E)
  | .assign l r => some (.inr l, r)
  | .letS _ x e => some (.inl x, e)
  | _ => none

/-- `is_same` (swap.rs:246-260), for an occurrence before (or after) the declarations of `shadowed`. -/
def isSame (shadowed : List Nat) : Nat ⊕ E → E → Bool
  | .inl x, e => e == .var x
  | .inr l, e => l == e && shadowed.all fun x => !e.uses x

/-- `check_suspicious_swap` (swap.rs:209-244): whether the two statements are reported. -/
def almostSwapped (s t : Stmt) : Bool :=
  match parse s, parse t with
  | some (l0, r0), some (l1, r1) =>
    let sh := match l0 with | .inl x => [x] | _ => []
    isSame [] l0 r1 && isSame sh l1 r0 && !isSame [] l1 r1
  | _, _ => false

end Verif.Swap
