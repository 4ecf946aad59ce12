import Verif.Entry.Syntax

/-!
# Spec: what checks, insertions and entries do
-/

namespace Verif.Entry

/-- How the evaluation of an expression ends: with a value, by leaving a loop (counted from the inside), by returning
from the function, or by a panic. -/
inductive Flow (V : Type) where
  | val (v : V)
  | leave (j : Nat)
  | ret
  | panic

/-- The map and everything else. -/
structure World (σ V : Type) where
  map : Nat → Option V
  rest : σ

/-- A key gets a value. -/
def World.set {σ V : Type} (s : World σ V) (k : Nat) (v : V) : World σ V :=
  { s with map := fun j => if j = k then some v else s.map j }

/-- The parts of the program the lint does not look into. -/
structure Sys (σ V : Type) where
  /-- The key of the check. -/
  key : World σ V → World σ V × Nat
  /-- Another key. -/
  otherKey : World σ V → World σ V × Nat
  ofKey : Nat → V
  part : Nat → World σ V → V
  asm : Nat → World σ V → World σ V × Flow V
  op : Nat → List V → World σ V → World σ V × Flow V
  truth : V → Bool
  /-- Does the pattern match? -/
  test : Nat → V → World σ V → Bool
  bind : Nat → V → World σ V → World σ V
  loop : (World σ V → World σ V × Flow V) → World σ V → World σ V × Flow V
  unit : V
  opt : Option V → V
  /-- What `e.insert(v)` returns. -/
  raw : Option V → V → V

section
variable {σ V : Type}

/-- Go on with the value, if there is one. -/
def andThen {α : Type} (r : World σ V × Flow V) (f : World σ V → V → World σ V × α) (stop : Flow V → α) :
    World σ V × α :=
  match r.2 with
  | .val v => f r.1 v
  | .leave j => (r.1, stop (.leave j))
  | .ret => (r.1, stop .ret)
  | .panic => (r.1, stop .panic)

/-- The values of the operands, or how their evaluation ended. -/
abbrev Vals (V : Type) := Except (Flow V) (List V)

variable (S : Sys σ V)

/-- The result of `e.insert(v)`, in its context. -/
def wrapped (w : Wrap) (old : Option V) (v : V) : V :=
  match w with
  | .raw => S.raw old v
  | .someOf => S.opt (some (old.getD v))
  | .thenNone => S.opt none

variable (k : Nat)

mutual
/-- Expressions; `k` is the key of the entry `e`. -/
def eval : Ex → World σ V → World σ V × Flow V
  | .ins own v, s =>
    let r := if own then S.key s else S.otherKey s
    andThen (eval v r.1) (fun s v => (s.set r.2 v, .val (S.opt (s.map r.2)))) id
  | .part n, s => (s, .val (S.part n s))
  | .key, s => ((S.key s).1, .val (S.ofKey (S.key s).2))
  | .ite c t e, s => andThen (eval c s) (fun s v => if S.truth v then eval t s else eval e s) id
  | .when c t, s =>
    andThen (eval c s) (fun s v =>
      if S.truth v then andThen (eval t s) (fun s _ => (s, .val S.unit)) id else (s, .val S.unit)) id
  | .mtch e as, s => andThen (eval e s) (fun s v => evalArms as v s) id
  | .loop b, s => S.loop (fun s => evalB b s) s
  | .blk b, s => evalB b s
  | .asm n, s => S.asm n s
  | .op n args, s =>
    let r := evalAll args s
    match r.2 with
    | .ok vs => S.op n vs r.1
    | .error f => (r.1, f)
  | .eIns w v, s =>
    andThen (eval v s) (fun s v => (s.set k v, .val (wrapped S w (s.map k) v))) id
/-- Operands. -/
def evalAll : Exs → World σ V → World σ V × Vals V
  | .nil, s => (s, .ok [])
  | .cons e es, s =>
    andThen (eval e s) (fun s v =>
      let r := evalAll es s
      (r.1, r.2.map (v :: ·))) .error
/-- Blocks. -/
def evalB : Blk → World σ V → World σ V × Flow V
  | .done, s => (s, .val S.unit)
  | .tail e, s => eval e s
  | .semi e r, s => andThen (eval e s) (fun s _ => evalB r s) id
  | .stmt e r, s => andThen (eval e s) (fun s _ => evalB r s) id
  | .letWild e r, s => andThen (eval e s) (fun s _ => evalB r s) id
  | .let_ p e r, s => andThen (eval e s) (fun s v => evalB r (S.bind p v s)) id
  | .letElse p e els r, s =>
    andThen (eval e s) (fun s v =>
      if S.test p v s then evalB r (S.bind p v s) else andThen (evalB els s) (fun s _ => (s, .panic)) id) id
  | .decl r, s => evalB r s
  | .item r, s => evalB r s
/-- Arms: the first one whose pattern matches and whose guard holds. -/
def evalArms : Arms → V → World σ V → World σ V × Flow V
  | .nil, _, s => (s, .panic)
  | .arm p e r, v, s => if S.test p v s then eval e (S.bind p v s) else evalArms r v s
  | .guarded p g e r, v, s =>
    if S.test p v s then
      andThen (eval g (S.bind p v s)) (fun s b => if S.truth b then eval e s else evalArms r v s) id
    else evalArms r v s
end

/-- A missing `else`. -/
def runElse (e : Option Ex) (s : World σ V) : World σ V × Flow V :=
  match e with
  | none => (s, .val S.unit)
  | some e => eval S k e s
end

section
variable {σ V : Type} (S : Sys σ V)

/-- The program that was written; there are no entries in it. -/
def run (c : Check) (s : World σ V) : World σ V × Flow V :=
  let r := S.key s
  if (r.1.map r.2).isSome != c.neg then evalB S r.2 c.thn r.1 else runElse S r.2 c.els r.1

/-- The program that is suggested.  `or_insert(v)` evaluates `v` in any case; `return` inside of the closure of
`or_insert_with` only leaves the closure. -/
def runNew (n : New) (s : World σ V) : World σ V × Flow V :=
  let r := S.key s
  match n with
  | .orInsert v =>
    andThen (eval S r.2 v r.1) (fun s v => (if (s.map r.2).isSome then s else s.set r.2 v, .val S.unit)) id
  | .orInsertWith b =>
    if (r.1.map r.2).isSome then (r.1, .val S.unit)
    else
      let q := evalB S r.2 b r.1
      match q.2 with
      | .val v => (q.1.set r.2 v, .val S.unit)
      | .panic => (q.1, .panic)
      | _ => (q.1, .val S.unit)
  | .ifLet occ b e => if (r.1.map r.2).isSome == occ then eval S r.2 b r.1 else runElse S r.2 e r.1
  | .both v o => if (r.1.map r.2).isSome then eval S r.2 o r.1 else eval S r.2 v r.1

/-- The same end; if nobody uses the value, any other value will do. -/
def Same (used : Bool) : Flow V → Flow V → Prop
  | .val a, .val b => used = true → a = b
  | f, g => f = g

/-- What Rust promises about code that does not mention the map and does not change the key: `good` says that the key
has the value `k` and nothing but the map's own name leads to the map, `clean` that a value does not lead to it. -/
structure Law (movable : Nat → Nat → Bool) (k : Nat) (good : World σ V → Prop) (clean : V → Prop) : Prop where
  /-- The key is `k`, and its evaluation changes nothing. -/
  key : ∀ s, good s → S.key s = (s, k)
  ofKey : clean (S.ofKey k)
  unit : clean S.unit
  op : ∀ n vs s, good s → (∀ v ∈ vs, clean v) →
    good (S.op n vs s).1 ∧ (S.op n vs s).1.map k = s.map k ∧ ∀ v, (S.op n vs s).2 = .val v → clean v
  bind : ∀ p v s, good s → clean v → good (S.bind p v s) ∧ (S.bind p v s).map k = s.map k
  /-- A loop does nothing but run its body. -/
  loop : ∀ (body : World σ V → World σ V × Flow V) (P : World σ V → Prop),
    (∀ s, P s → P (body s).1 ∧ ∀ v, (body s).2 = .val v → clean v) →
    ∀ s, P s → P (S.loop body s).1 ∧ ∀ v, (S.loop body s).2 = .val v → clean v
  /-- Code that can be moved into a closure does not leave it. -/
  stays : ∀ n d vs s, movable n d = true →
    (S.op n vs s).2 ≠ .ret ∧ ∀ j, (S.op n vs s).2 = .leave j → j < d
  loopStays : ∀ (body : World σ V → World σ V × Flow V) d,
    (∀ s, (body s).2 ≠ .ret ∧ ∀ j, (body s).2 = .leave j → j < d + 1) →
    ∀ s, (S.loop body s).2 ≠ .ret ∧ ∀ j, (S.loop body s).2 = .leave j → j < d
end

mutual
/-- The last expression of some path only mentions the key or the map, or is a declaration without a value. -/
def idle : Ex → Bool
  | .part _ => true
  | .key => true
  | .ite _ t e => idle t || idle e
  | .mtch _ as => idleArms as
  | .blk b => idleB b
  | _ => false
/-- The same for blocks. -/
def idleB : Blk → Bool
  | .done => false
  | .tail e => idle e
  | .semi e r => if r.isDone then idle e else idleB r
  | .stmt e r => if r.isDone then idle e else idleB r
  | .letWild _ r => idleB r
  | .let_ _ _ r => idleB r
  | .letElse _ _ _ r => idleB r
  | .decl r => r.isDone || idleB r
  | .item r => idleB r
/-- The same for arms. -/
def idleArms : Arms → Bool
  | .nil => false
  | .arm _ e r => idle e || idleArms r
  | .guarded _ _ e r => idle e || idleArms r
end

mutual
/-- The key is mentioned, not counting the insertions' own keys. -/
def hasKey : Ex → Bool
  | .ins _ v => hasKey v
  | .part _ => false
  | .key => true
  | .ite c t e => hasKey c || hasKey t || hasKey e
  | .when c t => hasKey c || hasKey t
  | .mtch s as => hasKey s || hasKeyArms as
  | .loop b => hasKeyB b
  | .blk b => hasKeyB b
  | .asm _ => false
  | .op _ args => hasKeyAll args
  | .eIns _ v => hasKey v
/-- The same for operands. -/
def hasKeyAll : Exs → Bool
  | .nil => false
  | .cons e es => hasKey e || hasKeyAll es
/-- The same for blocks. -/
def hasKeyB : Blk → Bool
  | .done => false
  | .tail e => hasKey e
  | .semi e r => hasKey e || hasKeyB r
  | .stmt e r => hasKey e || hasKeyB r
  | .letWild e r => hasKey e || hasKeyB r
  | .let_ _ e r => hasKey e || hasKeyB r
  | .letElse _ e els r => hasKey e || hasKeyB els || hasKeyB r
  | .decl r => hasKeyB r
  | .item r => hasKeyB r
/-- The same for arms. -/
def hasKeyArms : Arms → Bool
  | .nil => false
  | .arm _ e r => hasKey e || hasKeyArms r
  | .guarded _ g e r => hasKey g || hasKey e || hasKeyArms r
end

/-- The key is mentioned in the suggestion although `entry(key)` has moved it. -/
def New.usesMovedKey : New → Bool
  | .orInsert v => hasKey v
  | .orInsertWith b => hasKeyB b
  | .ifLet _ b e => hasKey b || e.any hasKey
  | .both v o => hasKey v || hasKey o

end Verif.Entry
