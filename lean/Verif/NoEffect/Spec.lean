/-!
# Statements that do nothing

Expressions are evaluated from left to right in a world. Calls and destructors change the world; operators of the language don't, but may panic.
-/

namespace Verif.NoEffect

/-- Kinds of nodes. `own` says that the type has a destructor of its own, `sig` that dropping a value of the type can be seen. The result of
a call with `drops` has a destructor. -/
inductive Kind
  | index | binary (o : Nat) | unary (o : Nat) | field (o : Nat) | addr | ascribe | cast (o : Nat) (certain : Bool)
  | array | tup | rep
  | adt (k : Nat) (own sig : Bool)
  | ctor (k : Nat) (own sig : Bool)
  | range (sig : Bool)
  | call (f : Nat) (drops : Bool)
deriving DecidableEq, Repr

/-- Blocks without statements: `{ e }`, `unsafe { e }`, and `unsafe` blocks made by the compiler. -/
inductive BlockKind
  | plain | user | compiler
deriving DecidableEq, Repr

/-- Expressions, and lists of them. In `node k over never args`, `over` says that the operator, or the dereference in front of the field, is
implemented by user code, `never` that the type is `!`. A variable with `drops` has a destructor. A closure has the variables with
destructors that move into it. `andOr true` is `&&`. -/
inductive Expr
  | lit (v : Nat)
  | var (x : Nat) (drops : Bool)
  | closure (k : Nat) (caps : List Nat)
  | node (k : Kind) (over never : Bool) (args : Expr)
  | andOr (isAnd : Bool) (a b : Expr)
  | block (k : BlockKind) (e : Expr)
  | nil
  | cons (e : Expr) (es : Expr)
deriving DecidableEq, Repr

/-- The list as a list. -/
def Expr.toList : Expr → List Expr
  | .cons e es => e :: es.toList
  | _ => []

/-- What things do. A call gives nothing if it panics or doesn't return, and so does an operator. `len` is the number of elements. -/
structure Meaning (W : Type) where
  read : Nat → W → Nat
  call : Kind → List Nat → W → Option Nat × W
  builtin : Kind → List Nat → Option Nat
  destroy : Nat → W → W
  len : Nat → Nat

/-- What evaluation has done: the values, what has to be dropped with them, the temporaries, and the world. -/
structure Res (W : Type) where
  vals : Option (List Nat)
  owned : List Nat
  temps : List Nat
  world : W

/-- The operands stay where they are: they are borrowed or only read. -/
def Kind.places : Kind → Bool
  | .index | .unary _ | .field _ | .addr => true
  | _ => false

/-- The parts become parts of the value. -/
def Kind.keeps : Kind → Bool
  | .array | .tup | .rep | .adt .. | .ctor .. | .range _ | .ascribe => true
  | _ => false

/-- Evaluation of the node once the operands have values. User code gets the operands. -/
def apply {W : Type} (M : Meaning W) (k : Kind) (over : Bool) (vs : List Nat) (r : Res W) : Res W :=
  let called (drops : Bool) : Res W :=
    match M.call k vs r.world with
    | (some v, w) => ⟨some [v], if drops then [v] else [], r.temps, w⟩
    | (none, w) => ⟨none, [], r.temps, w⟩
  match k with
  | .call _ drops => called drops
  | _ =>
    if over then called false
    else
      match M.builtin k vs with
      | none => ⟨none, [], r.temps ++ r.owned, r.world⟩
      | some v =>
        match k with
        | .adt _ own _ | .ctor _ own _ => ⟨some [v], if own then v :: r.owned else r.owned, r.temps, r.world⟩
        | _ => if k.keeps then ⟨some [v], r.owned, r.temps, r.world⟩ else ⟨some [v], [], r.temps ++ r.owned, r.world⟩

/-- Evaluation; `place` says that the value isn't moved. A value of `&&` and `||` is `0` for false. -/
def eval {W : Type} (M : Meaning W) : Bool → Expr → W → Res W
  | _, .lit v, w => ⟨some [v], [], [], w⟩
  | place, .var x drops, w => ⟨some [M.read x w], if drops && !place then [M.read x w] else [], [], w⟩
  | _, .closure k caps, w => ⟨some [k], caps.map (M.read · w), [], w⟩
  | _, .node k over _ args, w =>
    let r := eval M k.places args w
    match r.vals with
    | none => r
    | some vs => apply M k over vs r
  | _, .andOr isAnd a b, w =>
    let r := eval M false a w
    match r.vals with
    | none => r
    | some vs =>
      if (vs == [0]) == isAnd then r
      else
        let s := eval M false b r.world
        ⟨s.vals, s.owned, r.temps ++ r.owned ++ s.temps, s.world⟩
  | _, .block _ e, w => eval M false e w
  | _, .nil, w => ⟨some [], [], [], w⟩
  | place, .cons e es, w =>
    let r := eval M place e w
    match r.vals with
    | none => r
    | some vs =>
      let s := eval M place es r.world
      match s.vals with
      | none => ⟨none, [], r.temps ++ r.owned ++ s.temps ++ s.owned, s.world⟩
      | some vs' => ⟨some (vs ++ vs'), r.owned ++ s.owned, r.temps ++ s.temps, s.world⟩

/-- Dropping values, one after the other. -/
def dropAll {W : Type} (M : Meaning W) (vs : List Nat) (w : W) : W := vs.foldl (fun w v => M.destroy v w) w

/-- The statement `e;`: evaluation, then dropping the value and the temporaries, the last one first. Says whether it comes to its end. -/
def run {W : Type} (M : Meaning W) (e : Expr) (w : W) : Bool × W :=
  let r := eval M false e w
  (r.vals.isSome, dropAll M r.temps.reverse (dropAll M r.owned r.world))

/-- Statements `e₁; e₂; …`. -/
def runAll {W : Type} (M : Meaning W) : List Expr → W → Bool × W
  | [], w => (true, w)
  | e :: es, w =>
    match run M e w with
    | (true, w') => runAll M es w'
    | (false, w') => (false, w')

/-- The statement `assert!(a.len() > b);`. -/
def runAssert {W : Type} (M : Meaning W) (a b : Expr) (w : W) : Bool × W :=
  let r := eval M true (.cons a (.cons b .nil)) w
  let ok :=
    match r.vals with
    | some [x, i] => decide (i < M.len x)
    | _ => false
  (ok, dropAll M r.temps.reverse (dropAll M r.owned r.world))

/-- Indexing by the language panics exactly if the index isn't below the number of elements. -/
def Meaning.Indexes {W : Type} (M : Meaning W) : Prop := ∀ x i, (M.builtin .index [x, i]).isSome = decide (i < M.len x)

/-- No user code behind operators, in the whole expression. -/
def NoOver : Expr → Prop
  | .lit _ | .var _ _ | .closure _ _ | .nil => True
  | .node _ over _ args => over = false ∧ NoOver args
  | .andOr _ a b => NoOver a ∧ NoOver b
  | .block _ e => NoOver e
  | .cons e es => NoOver e ∧ NoOver es

/-- Nothing with a destructor, in the whole expression. -/
def DropFree : Expr → Prop
  | .lit _ | .nil => True
  | .var _ drops => drops = false
  | .closure _ caps => caps = []
  | .node k _ _ args =>
    (match k with
      | .adt _ own _ | .ctor _ own _ => own = false
      | .call _ drops => drops = false
      | _ => True) ∧ DropFree args
  | .andOr _ a b => DropFree a ∧ DropFree b
  | .block _ e => DropFree e
  | .cons e es => DropFree e ∧ DropFree es

/-- No closure takes anything with a destructor. -/
def NoCaps : Expr → Prop
  | .lit _ | .nil | .var _ _ => True
  | .closure _ caps => caps = []
  | .node _ _ _ args => NoCaps args
  | .andOr _ a b => NoCaps a ∧ NoCaps b
  | .block _ e => NoCaps e
  | .cons e es => NoCaps e ∧ NoCaps es

/-- One expression, not a list. -/
def Expr.isItem : Expr → Bool
  | .nil | .cons _ _ => false
  | _ => true

/-- A list. -/
def Expr.isList : Expr → Bool
  | .nil | .cons _ _ => true
  | _ => false

/-- Kinds with one operand. -/
def Kind.single : Kind → Bool
  | .rep | .ascribe | .unary _ | .field _ | .addr | .cast _ _ => true
  | _ => false

/-- Operands are lists of expressions, of the right length. -/
def Shaped : Expr → Prop
  | .lit _ | .var _ _ | .closure _ _ | .nil => True
  | .node k _ _ args =>
    args.isList = true ∧ Shaped args ∧ (k.single = true → args.toList.length = 1) ∧ (k = .index → args.toList.length = 2)
  | .andOr _ a b => (a.isItem = true ∧ b.isItem = true) ∧ Shaped a ∧ Shaped b
  | .block _ e => e.isItem = true ∧ Shaped e
  | .cons e es => (e.isItem = true ∧ es.isList = true) ∧ Shaped e ∧ Shaped es

/-- The operators from the root down to the first one with several operands, or to a call, are those of the language. -/
def Bare : Expr → Prop
  | .lit _ | .var _ _ | .closure _ _ | .nil | .andOr _ _ _ => True
  | .node k over _ args => ((∀ f d, k ≠ .call f d) → over = false) ∧ (k.single = true → Bare args)
  | .block _ e => Bare e
  | .cons e _ => Bare e

/-- A type with a destructor is one whose values can be seen to be dropped. -/
def Typed : Expr → Prop
  | .lit _ | .nil | .var _ _ | .closure _ _ => True
  | .node k _ _ args =>
    (match k with
      | .adt _ own sig | .ctor _ own sig => own = true → sig = true
      | _ => True) ∧ Typed args
  | .andOr _ a b => Typed a ∧ Typed b
  | .block _ e => Typed e
  | .cons e es => Typed e ∧ Typed es

/-- No calls, no blocks, and nothing whose dropping can be seen. -/
def Inert : Expr → Prop
  | .lit _ | .nil | .closure _ _ => True
  | .var _ drops => drops = false
  | .node k _ _ args =>
    (match k with
      | .adt _ _ sig | .ctor _ _ sig | .range sig => sig = false
      | .call _ _ => False
      | _ => True) ∧ Inert args
  | .andOr _ a b => Inert a ∧ Inert b
  | .block _ _ => False
  | .cons e es => Inert e ∧ Inert es

end Verif.NoEffect
