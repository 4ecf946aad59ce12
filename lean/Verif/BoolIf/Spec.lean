/-!
# Conditions and boolean literals

Expressions with `return`, evaluated in a world.
-/

namespace Verif.BoolIf

/-- Expressions. `wrap k e` calls a tuple-like constructor, `call f e` a function. `block` is `{ e }`, `semi` is `{ e; }`. A place that is
assigned to is known by its text. `other` is anything else. -/
inductive Expr
  | bool (b : Bool)
  | not (e : Expr)
  | wrap (k : Nat) (e : Expr)
  | call (f : Nat) (e : Expr)
  | ret (e : Expr)
  | assign (place : Nat) (e : Expr)
  | ite (c t e : Expr)
  | ifThen (c t : Expr)
  | block (e : Expr)
  | semi (e : Expr)
  | seq (a b : Expr)
  | other (k : Nat)
deriving DecidableEq, Repr

/-- Values. -/
inductive Val
  | unit
  | bool (b : Bool)
  | wrap (k : Nat) (v : Val)
  | num (n : Nat)
deriving DecidableEq, Repr

/-- How evaluation ends: with a value, with `return`, or by leaving in another way. -/
inductive Out
  | val (v : Val)
  | ret (v : Val)
  | leave (n : Nat)
deriving DecidableEq, Repr

/-- What things do. Storing evaluates the place, which can leave, after the value. -/
structure Meaning (W : Type) where
  other : Nat → W → Out × W
  call : Nat → Val → W → Out × W
  store : Nat → Val → W → Out × W

/-- Goes on with the value. -/
def andThen {W : Type} (r : Out × W) (f : Val → W → Out × W) : Out × W :=
  match r with
  | (.val v, w) => f v w
  | r => r

/-- Takes the branch of a condition. Conditions have boolean values. -/
def branch {W : Type} (v : Val) (t e : W → Out × W) (w : W) : Out × W :=
  match v with
  | .bool true => t w
  | .bool false => e w
  | _ => (.leave 0, w)

/-- The opposite of a boolean value. -/
def Val.not : Val → Out
  | .bool b => .val (.bool !b)
  | _ => .leave 0

/-- Evaluation. -/
def eval {W : Type} (M : Meaning W) : Expr → W → Out × W
  | .bool b, w => (.val (.bool b), w)
  | .not e, w => andThen (eval M e w) fun v w => (v.not, w)
  | .wrap k e, w => andThen (eval M e w) fun v w => (.val (.wrap k v), w)
  | .call f e, w => andThen (eval M e w) (M.call f)
  | .ret e, w => andThen (eval M e w) fun v w => (.ret v, w)
  | .assign p e, w => andThen (eval M e w) (M.store p)
  | .ite c t e, w => andThen (eval M c w) fun v => branch v (eval M t) (eval M e)
  | .ifThen c t, w => andThen (eval M c w) fun v => branch v (eval M t) fun w => (.val .unit, w)
  | .block e, w => eval M e w
  | .semi e, w => andThen (eval M e w) fun _ w => (.val .unit, w)
  | .seq a b, w => andThen (eval M a w) fun _ => eval M b
  | .other k, w => M.other k w

/-- Conditions are of type `bool`. -/
def Bools {W : Type} (M : Meaning W) (c : Expr) : Prop := ∀ w v w', eval M c w = (.val v, w') → ∃ b, v = .bool b

/-- Assignments have the value `()`. -/
def Units {W : Type} (M : Meaning W) : Prop := ∀ p v w u w', M.store p v w = (.val u, w') → u = .unit

/-- What a function gives back whose body is evaluated. -/
def asBody {W : Type} : Out × W → Out × W
  | (.ret v, w) => (.val v, w)
  | r => r

/-- A block with statements and a last expression. -/
def blockOf : List Expr → Expr → Expr
  | [], t => t
  | s :: ss, t => .seq s (blockOf ss t)

/-- What is around an expression whose value is the result of the function. -/
inductive Tail
  | hole
  | block (t : Tail)
  | seq (a : Expr) (t : Tail)
  | thenOf (c : Expr) (t : Tail) (e : Expr)
  | elseOf (c t : Expr) (e : Tail)

/-- Puts an expression in. -/
def Tail.fill : Tail → Expr → Expr
  | .hole, x => x
  | .block t, x => .block (t.fill x)
  | .seq a t, x => .seq a (t.fill x)
  | .thenOf c t e, x => .ite c (t.fill x) e
  | .elseOf c t e, x => .ite c t (e.fill x)

end Verif.BoolIf
