import Verif.Lazily.Syntax

/-!
# Specification: what evaluating an expression may do

Values, effects, panics.  Arithmetic on integers panics when it overflows; everything else that is
not control flow is a parameter.
-/

namespace Verif.Lazily

/-- How an evaluation ends without a value. -/
inductive Stop where
  | panic | undefined | leave | forever
  deriving DecidableEq

inductive Outcome where
  | ok (v : V)
  | stop (s : Stop)
  deriving DecidableEq

abbrev Env := Nat → V

/-- What the operations mean. -/
structure Sem where
  W : Type
  truth : V → Bool
  plain : Nat → List V → V
  closure : Nat → Env → V
  union : Nat → V → Option V
  /-- Constants and statics. -/
  global : Nat → W → V
  /-- Making a value with a destructor: the destructor will run. -/
  make : Nat → List V → W → V × W
  fn : Nat → List V → W → Outcome × W
  /-- Calling a value. -/
  fnVal : V → List V → W → Outcome × W
  /-- Operators of other types than the primitive ones. -/
  opFn : BinOp → V → V → W → Outcome × W
  unFn : V → W → Outcome × W
  /-- A user's `Deref`. -/
  userDeref : V → W → Outcome × W
  index : V → V → Option V
  read : V → W → V
  readRaw : V → W → Option V
  prim : BinOp → V → V → V
  primU : V → V
  store : V → V → W → W
  pick : Nat → V → Nat
  ext : Nat → V → Env → Env

/-- The least integer of a type. -/
def least (signed : Bool) (bits : Nat) : Int := if signed then -2 ^ (bits - 1) else 0

/-- The greatest integer of a type. -/
def greatest (signed : Bool) (bits : Nat) : Int :=
  if signed then 2 ^ (bits - 1) - 1 else 2 ^ bits - 1

def InType (signed : Bool) (bits : Nat) (n : Int) : Prop :=
  least signed bits ≤ n ∧ n ≤ greatest signed bits

instance (s : Bool) (b : Nat) (n : Int) : Decidable (InType s b n) :=
  inferInstanceAs (Decidable (_ ∧ _))

/-- An operation on integers overflows, divides by zero or shifts too far. -/
def Overflows (signed : Bool) (bits : Nat) : BinOp → Int → Int → Prop
  | .add, a, b => ¬InType signed bits (a + b)
  | .sub, a, b => ¬InType signed bits (a - b)
  | .mul, a, b => ¬InType signed bits (a * b)
  | .div, a, b => b = 0 ∨ (signed = true ∧ b = -1 ∧ a = least signed bits)
  | .rem, a, b => b = 0 ∨ (signed = true ∧ b = -1 ∧ a = least signed bits)
  | .shl, _, b => b < 0 ∨ (bits : Int) ≤ b
  | .shr, _, b => b < 0 ∨ (bits : Int) ≤ b
  | .and, _, _ => False
  | .or, _, _ => False
  | .other _, _, _ => False

instance (s : Bool) (bits : Nat) (op : BinOp) (a b : Int) : Decidable (Overflows s bits op a b) := by
  cases op <;> unfold Overflows <;> infer_instance

/-- Do the operands make the operator panic? -/
def Panics (t : Ty) (op : BinOp) (a b : V) : Prop :=
  match t, a, b with
  | .int s bits, .num x, .num y => Overflows s bits op x y
  | _, _, _ => False

instance (t : Ty) (op : BinOp) (a b : V) : Decidable (Panics t op a b) := by
  unfold Panics; split <;> infer_instance

/-- Does `-` panic? -/
def NegPanics (t : Ty) (a : V) : Prop :=
  match t, a with
  | .int s bits, .num x => ¬InType s bits (-x)
  | _, _ => False

instance (t : Ty) (a : V) : Decidable (NegPanics t a) := by
  unfold NegPanics; split <;> infer_instance

variable (S : Sem)

/-- Go on with the value. -/
def andThen {α : Type} (x : Except Stop α × S.W) (f : α → S.W → Except Stop V × S.W) :
    Except Stop V × S.W :=
  match x with
  | (.ok v, w) => f v w
  | (.error s, w) => (.error s, w)

/-- The same for lists. -/
def andThenL (x : Except Stop V × S.W) (f : V → S.W → Except Stop (List V) × S.W) :
    Except Stop (List V) × S.W :=
  match x with
  | (.ok v, w) => f v w
  | (.error s, w) => (.error s, w)

def ofOutcome (x : Outcome × S.W) : Except Stop V × S.W :=
  match x with
  | (.ok v, w) => (.ok v, w)
  | (.stop s, w) => (.error s, w)

def ofOption (s : Stop) (x : Option V) (w : S.W) : Except Stop V × S.W :=
  match x with
  | some v => (.ok v, w)
  | none => (.error s, w)

/-- An operator on two values. -/
def evalBin (op : BinOp) (ta tb : Ty) (a b : V) (w : S.W) : Except Stop V × S.W :=
  if ta = .adt ∨ tb = .adt then ofOutcome S (S.opFn op a b w)
  else if Panics ta op a b then (.error .panic, w)
  else (.ok (S.prim op a b), w)

mutual

/-- The meaning of an expression. -/
def eval : Ex → Env → S.W → Except Stop V × S.W
  | .plain k es, ρ, w => andThen S (evalL es ρ w) fun vs w => (.ok (S.plain k vs), w)
  | .closure k, ρ, w => (.ok (S.closure k ρ), w)
  | .union k e, ρ, w => andThen S (eval e ρ w) fun v w => ofOption S .undefined (S.union k v) w
  | .path .loc _ x, ρ, w => (.ok (ρ x), w)
  | .path .static _ x, _, w => (.ok (S.global x w), w)
  | .path .const drops x, _, w =>
    if drops then (.ok (S.make x [] w).1, (S.make x [] w).2) else (.ok (S.global x w), w)
  | .path .ctor drops x, _, w =>
    if drops then (.ok (S.make x [] w).1, (S.make x [] w).2) else (.ok (S.global x w), w)
  | .ctor drops k es, ρ, w => andThen S (evalL es ρ w) fun vs w =>
      if drops then (.ok (S.make k vs w).1, (S.make k vs w).2) else (.ok (S.plain k vs), w)
  | .promo f es, ρ, w => andThen S (evalL es ρ w) fun vs w => ofOutcome S (S.fn f vs w)
  | .call f _ es, ρ, w => andThen S (evalL es ρ w) fun vs w => ofOutcome S (S.fn f vs w)
  | .callVal f es, ρ, w => andThen S (eval f ρ w) fun v w => andThen S (evalL es ρ w) fun vs w =>
      ofOutcome S (S.fnVal v vs w)
  | .method f _ e es, ρ, w => andThen S (eval e ρ w) fun v w => andThen S (evalL es ρ w) fun vs w =>
      ofOutcome S (S.fn f (v :: vs) w)
  | .index _ _ a i, ρ, w => andThen S (eval a ρ w) fun va w => andThen S (eval i ρ w) fun vi w =>
      ofOption S .panic (S.index va vi) w
  | .neg t e, ρ, w => andThen S (eval e ρ w) fun v w =>
      if t = .adt then ofOutcome S (S.unFn v w)
      else if NegPanics t v then (.error .panic, w) else (.ok (S.primU v), w)
  | .not t e, ρ, w => andThen S (eval e ρ w) fun v w =>
      if t = .adt then ofOutcome S (S.unFn v w) else (.ok (S.primU v), w)
  | .deref .builtin e, ρ, w => andThen S (eval e ρ w) fun v w => (.ok (S.read v w), w)
  | .deref .user e, ρ, w => andThen S (eval e ρ w) fun v w => ofOutcome S (S.userDeref v w)
  | .deref .raw e, ρ, w => andThen S (eval e ρ w) fun v w => ofOption S .undefined (S.readRaw v w) w
  | .bin op ta tb _ a b, ρ, w => andThen S (eval a ρ w) fun va w =>
      if op = .and ∧ S.truth va = false ∨ op = .or ∧ S.truth va = true then (.ok va, w)
      else andThen S (eval b ρ w) fun vb w => evalBin S op ta tb va vb w
  | .leave _ es, ρ, w => andThen S (evalL es ρ w) fun _ w => (.error .leave, w)
  | .lp e, ρ, w =>
    match eval e ρ w with
    | (.error .leave, w) => (.ok (.obj 0), w)
    | (.error s, w) => (.error s, w)
    | (.ok _, w) => (.error .forever, w)
  | .branch k c a rest, ρ, w => andThen S (eval c ρ w) fun v w =>
      match S.pick k v with
      | 0 => eval a (S.ext k v ρ) w
      | n + 1 => evalNth rest n (S.ext k v ρ) w
  | .block e, ρ, w => eval e ρ w
  | .stmts es e, ρ, w => andThen S (evalL es ρ w) fun _ w => eval e ρ w
  | .assign l r, ρ, w => andThen S (eval r ρ w) fun vr w => andThen S (eval l ρ w) fun vl w =>
      (.ok (.obj 0), S.store vl vr w)
  | .adj e, ρ, w => andThen S (eval e ρ w) fun v w => ofOutcome S (S.userDeref v w)

/-- Operands from left to right. -/
def evalL : Exs → Env → S.W → Except Stop (List V) × S.W
  | .nil, _, w => (.ok [], w)
  | .cons e es, ρ, w => andThenL S (eval e ρ w) fun v w =>
      match evalL es ρ w with
      | (.ok vs, w) => (.ok (v :: vs), w)
      | (.error s, w) => (.error s, w)

/-- One of the branches; without that branch there is the value `()`. -/
def evalNth : Exs → Nat → Env → S.W → Except Stop V × S.W
  | .nil, _, _, w => (.ok (.obj 0), w)
  | .cons e _, 0, ρ, w => eval e ρ w
  | .cons _ es, n + 1, ρ, w => evalNth es n ρ w

end

/-- Evaluating the expression has a value, no effect and no other end, whenever it happens. -/
def Harmless (e : Ex) : Prop := ∀ ρ w, ∃ v, eval S e ρ w = (.ok v, w)

/-- What is called a constant has that value. -/
def ConstSound (const? : Ex → Option V) : Prop :=
  ∀ e v, const? e = some v → ∀ ρ w, eval S e ρ w = (.ok v, w)

/-- `len`, `is_empty` and `as_…` of the standard library, unless they are `unsafe`, and the
functions that can be promoted have no effects and do not panic. -/
structure LibPure (stdFn promoFn : Nat → Prop) : Prop where
  std : ∀ f, stdFn f → ∀ vs w, ∃ v, S.fn f vs w = (.ok v, w)
  promo : ∀ f, promoFn f → ∀ vs w, ∃ v, S.fn f vs w = (.ok v, w)

section
variable (const? : Ex → Option V)

/-- What the compiler rejects by itself: an operator that panics for its constant operands, and
one that panics for its constant right operand whatever the left one is. -/
def opOk (t : Ty) (op : BinOp) (a b : Ex) : Prop :=
  (∀ va vb, const? a = some va → const? b = some vb → ¬Panics t op va vb) ∧
    (∀ vb, const? b = some vb → ∃ n, ¬Panics t op (.num n) vb)

variable (stdFn promoFn : Nat → Prop)

mutual

/-- The expression is accepted by the compiler, its functions are what they are said to be, and it
has no union field, no `unsafe` function and no constant with a destructor. -/
def Tame : Ex → Prop
  | .plain _ es => TameL es
  | .closure _ => True
  | .union _ _ => False
  | .path r drops _ => r = .const → drops = false
  | .ctor _ _ es => TameL es
  | .promo f es => promoFn f ∧ TameL es
  | .call f i es => (i.std = true → i.accessor = true → stdFn f) ∧ i.isUnsafe = false ∧ TameL es
  | .callVal f es => Tame f ∧ TameL es
  | .method f i e es =>
    (i.std = true → i.accessor = true → stdFn f) ∧ i.isUnsafe = false ∧ Tame e ∧ TameL es
  | .index _ _ a i => Tame a ∧ Tame i
  | .neg t e => (∀ v, const? e = some v → ¬NegPanics t v) ∧ Tame e
  | .not _ e => Tame e
  | .deref _ e => Tame e
  | .bin op ta _ t a b =>
    (∀ s n, ta = .int s n → t ≠ .float) ∧ opOk const? ta op a b ∧ Tame a ∧ Tame b
  | .leave _ es => TameL es
  | .lp e => Tame e
  | .branch _ c a rest => Tame c ∧ Tame a ∧ TameL rest
  | .block e => Tame e
  | .stmts es e => TameL es ∧ Tame e
  | .assign l r => Tame l ∧ Tame r
  | .adj e => Tame e

def TameL : Exs → Prop
  | .nil => True
  | .cons e es => Tame e ∧ TameL es

end
end

/-- A method that asks for a further value only sometimes: `needs` says when, `keep` is what it does
without it and `use` what it does with it. -/
structure Lazy where
  needs : V → Bool
  keep : V → S.W → V × S.W
  use : V → V → S.W → V × S.W

/-- With a closure: its body is run when it is needed. -/
def withClosure (m : Lazy S) (recv body : Ex) (ρ : Env) (w : S.W) : Except Stop V × S.W :=
  andThen S (eval S recv ρ w) fun r w =>
    if m.needs r then andThen S (eval S body ρ w) fun v w => (.ok (m.use r v w).1, (m.use r v w).2)
    else (.ok (m.keep r w).1, (m.keep r w).2)

/-- With a value: it is there before the method runs. -/
def withValue (m : Lazy S) (recv arg : Ex) (ρ : Env) (w : S.W) : Except Stop V × S.W :=
  andThen S (eval S recv ρ w) fun r w => andThen S (eval S arg ρ w) fun v w =>
    if m.needs r then (.ok (m.use r v w).1, (m.use r v w).2)
    else (.ok (m.keep r w).1, (m.keep r w).2)

mutual

/-- Somewhere outside of closures the expression is left. -/
def leaves : Ex → Bool
  | .leave _ _ => true
  | .plain _ es => leavesL es
  | .closure _ => false
  | .union _ e => leaves e
  | .path _ _ _ => false
  | .ctor _ _ es => leavesL es
  | .promo _ es => leavesL es
  | .call _ _ es => leavesL es
  | .callVal f es => leaves f || leavesL es
  | .method _ _ e es => leaves e || leavesL es
  | .index _ _ a i => leaves a || leaves i
  | .neg _ e => leaves e
  | .not _ e => leaves e
  | .deref _ e => leaves e
  | .bin _ _ _ _ a b => leaves a || leaves b
  | .lp e => leaves e
  | .branch _ c a rest => leaves c || leaves a || leavesL rest
  | .block e => leaves e
  | .stmts es e => leavesL es || leaves e
  | .assign l r => leaves l || leaves r
  | .adj e => leaves e

def leavesL : Exs → Bool
  | .nil => false
  | .cons e es => leaves e || leavesL es

end

end Verif.Lazily
