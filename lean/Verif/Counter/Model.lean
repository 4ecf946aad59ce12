/-!
# `explicit_counter_loop`

Model of `clippy_lints/src/loops/explicit_counter_loop.rs` and of the visitors of `clippy_lints/src/loops/utils.rs`. One variable is followed, with
all others left out; expressions have only what matters for it: occurrences, control flow, closures.
-/

namespace Verif.Counter

/-- An expression, as seen by the visitors, in the order of evaluation (which is the order of visiting). -/
inductive E
  /-- Nothing about the variable. -/
  | blank
  /-- The variable is read; whether its parent is an expression. It isn't in `let y = x;`, in `S { f: x }`, as the value of a block and as the body
  of an arm of `match`. -/
  | use (parent : Bool)
  /-- `x += 1`. -/
  | inc
  /-- `x = k`. -/
  | assign (k : Nat)
  /-- Another compound assignment, or `&mut x`. -/
  | change
  /-- A method call which borrows the variable mutably. -/
  | autoref
  | seq (a b : E)
  /-- `if` and `match`: condition and two branches. -/
  | cond (c a b : E)
  /-- `a && b` and `a || b`. -/
  | lazy (a b : E)
  /-- `let p = a else { b };` -/
  | letElse (a b : E)
  /-- `loop`, with a label. -/
  | loop (l : Nat) (a : E)
  /-- A block with a label. -/
  | block (l : Nat) (a : E)
  | brk (l : Nat)
  | cont (l : Nat)
  | ret
  | closure (a : E)
deriving DecidableEq, Repr

/-- `IncrementVisitorVarState` (loops/utils.rs:15-19). -/
inductive IncState
  | initial | incrOnce | dontWarn
deriving DecidableEq, Repr

/-- `IncrementVisitor` (loops/utils.rs:48-106): the state of the variable and the depth. Closures aren't entered. -/
def visitInc : E → IncState × Nat → IncState × Nat
  | .blank, p | .use false, p | .brk _, p | .ret, p | .closure _, p => p
  | .use true, (s, d) | .autoref, (s, d) => (if s = .incrOnce then .dontWarn else s, d)
  | .inc, (s, d) => (if s = .initial ∧ d = 0 then .incrOnce else .dontWarn, d)
  | .assign _, (_, d) | .change, (_, d) => (.dontWarn, d)
  | .seq a b, p | .lazy a b, p => visitInc b (visitInc a p)
  | .cond c a b, (s, d) =>
    let r := visitInc b (visitInc a (visitInc c (s, d + 1)))
    (r.1, r.2 - 1)
  | .letElse a b, p =>
    let q := visitInc a p
    let r := visitInc b (q.1, q.2 + 1)
    (r.1, r.2 - 1)
  | .loop _ a, (s, d) =>
    let r := visitInc a (s, d + 1)
    (r.1, r.2 - 1)
  | .block _ a, p => visitInc a p
  | .cont _, (s, d) => (s, d + 1)

/-- `InitializeVisitorState` (loops/utils.rs:108-117), without names and types. -/
inductive InitState
  | initial | declared | init (k : Nat) | dontWarn
deriving DecidableEq, Repr

/-- `InitializeVisitor` before the loop (loops/utils.rs:174-250): the state of the variable. Closures are entered. -/
def visitInit : E → Nat → InitState → InitState
  | _, _, .dontWarn => .dontWarn
  | _, _, .initial => .initial
  | .blank, _, s | .use _, _, s | .autoref, _, s | .brk _, _, s | .cont _, _, s | .ret, _, s => s
  | .inc, _, _ | .change, _, _ | .loop _ _, _, _ => .dontWarn
  | .assign k, d, _ => if d = 0 then .init k else .dontWarn
  | .seq a b, d, s | .lazy a b, d, s | .letElse a b, d, s => visitInit b d (visitInit a d s)
  | .cond c a b, d, s => visitInit b (d + 1) (visitInit a (d + 1) (visitInit c (d + 1) s))
  | .block _ a, d, s | .closure a, d, s => visitInit a d s

/-- Whether the variable occurs. -/
def E.mentions : E → Bool
  | .blank | .brk _ | .cont _ | .ret => false
  | .use _ | .inc | .assign _ | .change | .autoref => true
  | .seq a b | .lazy a b | .letElse a b => a.mentions || b.mentions
  | .cond c a b => c.mentions || a.mentions || b.mentions
  | .loop _ a | .block _ a | .closure a => a.mentions

/-- A statement of the block: the declaration of the variable, or something else. -/
inductive Stmt
  | decl (k : Option Nat)
  | expr (e : E)
deriving DecidableEq, Repr

/-- A statement before the loop (loops/utils.rs:154-171). -/
def visitStmt : Stmt → InitState → InitState
  | .decl (some k), _ => .init k
  | .decl none, _ => .declared
  | .expr e, s => visitInit e 0 s

/-- A block with the loop: what is before, the body of the loop, what comes after. -/
structure Block where
  pre : List Stmt
  body : E
  post : E
deriving Repr

/-- The initial value of the counter, if the loop is reported for the variable (explicit_counter_loop.rs:27-47). After the loop each occurrence
counts (loops/utils.rs:188-192). -/
def Block.counter (b : Block) : Option Nat :=
  if (visitInc b.body (.initial, 0)).1 = .incrOnce then
    match b.pre.foldl (fun s x => visitStmt x s) .initial with
    | .init k => if b.post.mentions then none else some k
    | _ => none
  else none

/-! ### The suggestion -/

/-- The type of the variable, as far as it is known: none is written down, `usize`, another one (with the largest value). -/
inductive Ty
  | none | usize | other (max : Nat)
deriving DecidableEq, Repr

/-- What is suggested: `iter.enumerate()`, `(init..).take(n)` or `(init..).zip(iter)`. -/
inductive Sugg
  | enumerate | take | zip
deriving DecidableEq, Repr

/-- Which one (explicit_counter_loop.rs:60-121): `zero` is whether the initial value is the literal `0`, `unused` whether the loop is
`for _ in 0..n`. -/
def suggestion (ty : Ty) (zero unused : Bool) : Sugg :=
  match ty with
  | .none | .usize => if zero then .enumerate else if unused then .take else .zip
  | .other _ => if unused then .take else .zip

end Verif.Counter
