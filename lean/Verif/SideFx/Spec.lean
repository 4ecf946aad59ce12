import Verif.SideFx.Syntax

/-!
# Specification: what arithmetic does when the program runs

With overflow checks.  Values of other types than integers are numbered; what other operators do is
part of the state.
-/

namespace Verif.SideFx

open Verif.RInt

/-- A moment in the execution of the program. -/
structure State where
  /-- The variables. -/
  loc : Nat → Int
  /-- The values of expressions that are not arithmetic, by their spans. -/
  other : Nat → Ty → Int
  /-- Operators of other types. -/
  userOp : BinOp → Ty → Ty → Ty → Int → Int → Res
  userNeg : Ty → Int → Res

variable (P : Platform)

/-- The value belongs to the type. -/
def HasTy : Ty → Int → Prop
  | .int t, v => (t.it P).In v
  | .nonZero t, v => (t.it P).In v ∧ v ≠ 0
  | _, _ => True

/-- Rust's operators on integers; comparisons and bit operations never fail. -/
def intOp (t : IT) (v : Int) : BinOp → Int → Int → Res
  | .add, a, b => t.add a b
  | .sub, a, b => t.sub a b
  | .mul, a, b => t.mul a b
  | .div, a, b => t.div a b
  | .rem, a, b => t.rem a b
  | .shl, a, b => t.shl a b
  | .shr, a, b => t.shr a b
  | .other _, _, _ => .ok v

/-- The operators of the standard library that are meant. -/
inductive Native where
  | int (t : ITy)
  | wrap
  | float
  | user

def native : Ty → Ty → Native
  | .int t, .int _ => .int t
  | .int t, .nonZero _ => .int t
  | .wrapLike, .wrapLike => .wrap
  | .wrapLike, .int _ => .wrap
  | .f32, .f32 => .float
  | .f64, .f64 => .float
  | _, _ => .user

/-- Comparisons and bit operations are no arithmetic. -/
def isOther : BinOp → Bool
  | .other _ => true
  | _ => false

/-- An operator; `v` is the value where it does not matter. -/
def evalBin (ρ : State) (op : BinOp) (ta tb t : Ty) (a b v : Int) : Res :=
  match native ta tb with
  | .int s => intOp (s.it P) v op a b
  | .wrap => if (op = .div ∨ op = .rem) ∧ b = 0 then .error .divByZero else .ok v
  | .float => .ok v
  | .user => if isOther op then .ok v else ρ.userOp op ta tb t a b

def evalNeg (ρ : State) (t : Ty) (a v : Int) : Res :=
  match t with
  | .int t => (t.it P).neg a
  | .wrapLike => .ok v
  | .f32 => .ok v
  | .f64 => .ok v
  | t => ρ.userNeg t a

def evalUn (ρ : State) (op : UnOp) (t : Ty) (a v : Int) : Res :=
  match op with
  | .deref => .ok a
  | .neg => evalNeg P ρ t a v
  | .not => .ok (match t with
    | .int t => (t.it P).not a
    | _ => v)

/-- Conversions between integers wrap; `From` only exists where nothing is lost. -/
def evalConv (t s : Ty) (a v : Int) : Int :=
  match t, s with
  | .int t, .int _ => (t.it P).wrap a
  | _, _ => v

/-- A method call with its first argument. -/
def evalMeth (ρ : State) (m : Meth) (tr ta t : Ty) (a b v : Int) : Res :=
  match m with
  | .sugar true op => (evalBin P ρ op tr ta t a b v).bind fun _ => .ok v
  | .sugar false op => evalBin P ρ op tr ta t a b v
  | .divLike _ => if b = 0 then .error .divByZero else .ok v
  | _ => .ok v

def isNZ : Ty → Bool
  | .nonZero _ => true
  | _ => false

/-- The value, or the panic. -/
def eval (ρ : State) : Ex → Res
  | .lit _ n _ => .ok n
  | .loc _ x _ => .ok (ρ.loc x)
  | .bound _ x _ _ => .ok (ρ.loc x)
  | .un sp op t e => (eval ρ e).bind fun a => evalUn P ρ op t a (ρ.other sp t)
  | .ref _ e => eval ρ e
  | .conv sp _ t e => (eval ρ e).bind fun a => .ok (evalConv P t e.ty a (ρ.other sp t))
  | .bin sp asg op t a b => (eval ρ a).bind fun x => (eval ρ b).bind fun y =>
      (evalBin P ρ op a.ty b.ty t x y (ρ.other sp t)).bind fun z =>
        .ok (if asg then ρ.other sp t else z)
  | .method sp m t r .nil => (eval ρ r).bind fun a =>
      .ok (if m = .get ∧ isNZ r.ty = true then a else ρ.other sp t)
  | .method sp m t r (.cons arg _) => (eval ρ r).bind fun a => (eval ρ arg).bind fun b =>
      evalMeth P ρ m r.ty arg.ty t a b (ρ.other sp t)
  | .node sp t _ => .ok (ρ.other sp t)
  | .constItem sp t _ => .ok (ρ.other sp t)
  | .fnItem sp t _ => .ok (ρ.other sp t)

/-- Every value belongs to its type.  `Γ` are the types of the variables. -/
structure Typed (Γ : Nat → Ty) (ρ : State) : Prop where
  loc : ∀ x, HasTy P (Γ x) (ρ.loc x)
  other : ∀ sp t, HasTy P t (ρ.other sp t)
  userOp : ∀ op ta tb t a b v, ρ.userOp op ta tb t a b = .ok v → HasTy P t v
  userNeg : ∀ t a v, ρ.userNeg t a = .ok v → HasTy P t v

/-- An immutable variable has the value its initializer had at some earlier moment. -/
def Past (Γ : Nat → Ty) : Ex → State → Prop
  | .bound _ x _ e, ρ => ∃ ρ', Typed P Γ ρ' ∧ Past Γ e ρ' ∧ eval P ρ' e = .ok (ρ.loc x)
  | .un _ _ _ e, ρ => Past Γ e ρ
  | .ref _ e, ρ => Past Γ e ρ
  | .conv _ _ _ e, ρ => Past Γ e ρ
  | .bin _ _ _ _ a b, ρ => Past Γ a ρ ∧ Past Γ b ρ
  | .method _ _ _ r (.cons arg _), ρ => Past Γ r ρ ∧ Past Γ arg ρ
  | .method _ _ _ r .nil, ρ => Past Γ r ρ
  | _, _ => True

/-- The expression has this value at every moment. -/
def Always (Γ : Nat → Ty) (e : Ex) (v : Int) : Prop :=
  ∀ ρ, Typed P Γ ρ → Past P Γ e ρ → eval P ρ e = .ok v

/-- What is called a constant is one.  The evaluator gives bit patterns. -/
def ConstSound (Γ : Nat → Ty) (const? : Ex → Option Nat) : Prop :=
  ∀ e n, const? e = some n → ∃ v s, Always P Γ e v ∧ e.ty = .int s ∧ (s.it P).toBits v = n

def LocalSound (Γ : Nat → Ty) (local? : Ex → Bool) : Prop :=
  ∀ e, local? e = true → ∃ v, Always P Γ e v

/-! ### Types -/

def isLit : Ex → Bool
  | .lit _ _ _ => true
  | _ => false

/-- The type of the result of an operator of the standard library. -/
def opTyped (op : BinOp) (t ta tb : Ty) : Prop :=
  ((∀ n, op ≠ .other n) → ∀ s, native ta tb = .int s → t = .int s) ∧
    (∀ s s', ta = .int s → tb = .int s' → op ≠ .shl → op ≠ .shr → s = s') ∧
    (∀ s s', ta = .int s → tb = .nonZero s' → s = s' ∧ s.signed = false ∧ (op = .div ∨ op = .rem))

/-- `-128i8` is the literal `128` with an operator. -/
def litTyped (n : Nat) (t : Ty) : Prop := ∃ s, t = .int s ∧ (s.it P).In n

mutual

/-- The expression passes the type checker. -/
def WF (Γ : Nat → Ty) : Ex → Prop
  | .lit _ n t => litTyped P n t
  | .loc _ x t => t = Γ x
  | .bound _ x t e => t = Γ x ∧ e.ty = t ∧ WF Γ e
  | .un _ op t e => t = e.ty ∧ (op = .neg ∧ isLit e = true ∨ WF Γ e)
  | .ref _ e => WF Γ e
  | .conv _ _ _ e => WF Γ e
  | .bin _ asg op t a b => (asg = false → opTyped op t a.ty b.ty) ∧ (asg = true → opTyped op a.ty a.ty b.ty) ∧
      WF Γ a ∧ WF Γ b
  | .method _ m t r args => WF Γ r ∧ WFL Γ args ∧ methTyped m t r.ty args
  | .node _ _ es => WFL Γ es
  | .constItem _ _ e => WF Γ e
  | .fnItem _ _ e => WF Γ e

def WFL (Γ : Nat → Ty) : Exs → Prop
  | .nil => True
  | .cons e es => WF Γ e ∧ WFL Γ es

def methTyped (m : Meth) (t tr : Ty) : Exs → Prop
  | .nil => m = .get → ∀ s, tr = .nonZero s → t = .int s
  | .cons arg _ => match m with
    | .sugar false op => opTyped op t tr arg.ty
    | .sugar true op => opTyped op tr tr arg.ty
    | _ => True

end

/-- A usual machine that is like the one clippy runs on. -/
structure Platform.Usual : Prop where
  same : P.host = P.target
  bits : 8 ≤ P.target

/-! ### What runs -/

mutual

/-- The expressions in a body that are evaluated when the program runs, and not by the compiler:
not those of constants, but those of the functions in constants. -/
def runtime (inConst : Bool) : Ex → List Ex
  | .lit sp n t => if inConst then [] else [.lit sp n t]
  | .loc sp x t => if inConst then [] else [.loc sp x t]
  | .bound sp x t e => if inConst then [] else [.bound sp x t e]
  | .un sp op t e => (if inConst then [] else [.un sp op t e]) ++ runtime inConst e
  | .ref sp e => (if inConst then [] else [.ref sp e]) ++ runtime inConst e
  | .conv sp f t e => (if inConst then [] else [.conv sp f t e]) ++ runtime inConst e
  | .bin sp asg op t a b =>
    (if inConst then [] else [.bin sp asg op t a b]) ++ runtime inConst a ++ runtime inConst b
  | .method sp m t r args =>
    (if inConst then [] else [.method sp m t r args]) ++ runtime inConst r ++ runtimeL inConst args
  | .node sp t es => (if inConst then [] else [.node sp t es]) ++ runtimeL inConst es
  | .constItem _ _ e => runtime true e
  | .fnItem _ _ e => runtime false e

def runtimeL (inConst : Bool) : Exs → List Ex
  | .nil => []
  | .cons e es => runtime inConst e ++ runtimeL inConst es

end

/-! ### The user's options -/

/-- The user takes responsibility for operators between these types, or they are strings. -/
def Listed (c : Conf) (ta tb : Ty) : Prop :=
  (∃ p ∈ c.binary, (p.1 = ta.name ∨ p.1 = str!"*") ∧ (p.2 = tb.name ∨ p.2 = str!"*")) ∨
    ta.name ∈ c.allowed ∨ tb.name ∈ c.allowed ∨
    ta.name = str!"std::string::String" ∧ (tb.name = str!"str" ∨ tb.name = str!"std::string::String") ∨
    ta.name = tb.name ∧ (ta.name = str!"f32" ∨ ta.name = str!"f64") ∨
    str!"*" ∈ c.allowed

def ListedUn (c : Conf) (t : Ty) : Prop :=
  t.name ∈ c.unary ∨ t.name ∈ c.allowed ∨
    t.name ∈ [str!"f32", str!"f64", str!"std::num::Saturating", str!"std::num::Wrapping"]

/-- The operators the user takes responsibility for do not panic. -/
structure Trusts (c : Conf) (ρ : State) : Prop where
  bin : ∀ op ta tb t a b, Listed c ta tb → ∃ v, ρ.userOp op ta tb t a b = .ok v
  neg : ∀ t a, ListedUn c t → ∃ v, ρ.userNeg t a = .ok v

/-- They are not those of integers or `Wrapping`. -/
structure NoInts (c : Conf) : Prop where
  int : ∀ ta tb s, native ta tb = .int s → ¬Listed c ta tb
  wrap : ∀ ta tb, native ta tb = .wrap → ¬Listed c ta tb
  neg : ∀ s, ¬ListedUn c (.int s)

/-! ### What the theorem leaves out -/

def unref : Ex → Ex
  | .ref _ e => unref e
  | e => e

def initOf : Ex → Ex
  | .bound _ _ _ e => initOf e
  | e => e

/-- What an operand stands for: first references and then variables with initializers are looked
through. -/
def source (e : Ex) : Ex := initOf (unref e)

/-- A literal, with operators. -/
def endsInLit : Ex → Bool
  | .lit _ _ _ => true
  | .un _ _ _ e => endsInLit e
  | _ => false

/-- A literal with an operator, like `-1` or `!0`. -/
def signedLit (e : Ex) : Bool := endsInLit e && !isLit e

def isRef : Ex → Bool
  | .ref _ _ => true
  | _ => false

/-- The compiler knows the value. -/
def known (const? : Ex → Option Nat) (e : Ex) : Bool := endsInLit e || (const? e).isSome

/-- A conversion of an integer to another type. -/
def strangeConv : Ex → Prop
  | .conv _ _ t e => (∃ s, e.ty = .int s) ∧ ∀ s, t ≠ .int s
  | _ => False

section
variable (Γ : Nat → Ty) (const? : Ex → Option Nat) (local? : Ex → Bool)

/-- The compiler knows both values. -/
def bothKnown (a b : Ex) : Bool :=
  !isRef a && !isRef b && known const? (source a) && known const? (source b)

/-- An operator the theorem is about. -/
structure BinOk (op : BinOp) (a b : Ex) : Prop where
  /-- The compiler reports an operation that panics for constants. -/
  accepted : bothKnown const? a b = true → ∀ ρ, Typed P Γ ρ → Past P Γ a ρ → Past P Γ b ρ → ∀ x y,
    eval P ρ a = .ok x → eval P ρ b = .ok y → ∀ t v, ∃ z, evalBin P ρ op a.ty b.ty t x y v = .ok z
  /-- No operand is a literal with an operator. -/
  plain : bothKnown const? a b = false → signedLit (source a) = false ∧ signedLit (source b) = false
  /-- Not `0 - x`. -/
  sub : bothKnown const? a b = false → op = .sub → ¬Always P Γ (source a) 0
  /-- Not `x / -1`. -/
  div : bothKnown const? a b = false → op = .div ∨ op = .rem → ¬Always P Γ (source b) (-1)
  /-- Shifts stay in range. -/
  shift : op = .shl ∨ op = .shr → ∀ s, native a.ty b.ty = .int s → ∀ ρ, Typed P Γ ρ → Past P Γ b ρ →
    ∀ y, eval P ρ b = .ok y → 0 ≤ y ∧ y < (s.it P).bits
  /-- A user's operator has no operand of the types that are always let through. -/
  user : (match native a.ty b.ty with | .user => True | _ => False) →
    a.ty ≠ .wrapLike ∧ (∀ s, b.ty ≠ .nonZero s) ∧ ¬strangeConv (source a) ∧ ¬strangeConv (source b)

def MethOk (m : Meth) (r : Ex) : Exs → Prop
  | .nil => True
  | .cons arg _ => match m with
    | .sugar _ op => (∃ s, r.ty = .int s) ∧ local? r = false ∧
        op ∈ [BinOp.add, .sub, .mul, .div, .rem] ∧ BinOk P Γ const? op r arg
    | .divLike _ => (∃ s, r.ty = .int s) ∧ local? r = false ∧ signedLit (unref arg) = false
    | _ => True

mutual

/-- There is no function inside. -/
def noFn : Ex → Bool
  | .lit _ _ _ => true
  | .loc _ _ _ => true
  | .bound _ _ _ _ => true
  | .un _ _ _ e => noFn e
  | .ref _ e => noFn e
  | .conv _ _ _ e => noFn e
  | .bin _ _ _ _ a b => noFn a && noFn b
  | .method _ _ _ r args => noFn r && noFnL args
  | .node _ _ es => noFnL es
  | .constItem _ _ e => noFn e
  | .fnItem _ _ _ => false

def noFnL : Exs → Bool
  | .nil => true
  | .cons e es => noFn e && noFnL es

end

mutual

/-- All operators are of that kind, and constants have no functions inside. -/
def Tame : Ex → Prop
  | .un _ op t e => (op = .neg → known const? e = true ∨ known const? (unref e) = true →
      ∀ ρ, Typed P Γ ρ → Past P Γ e ρ → ∀ x, eval P ρ e = .ok x → ∀ v, ∃ z, evalNeg P ρ t x v = .ok z) ∧ Tame e
  | .ref _ e => Tame e
  | .conv _ _ _ e => Tame e
  | .bin _ _ op _ a b => BinOk P Γ const? op a b ∧ Tame a ∧ Tame b
  | .method _ m _ r args => MethOk P Γ const? local? m r args ∧ Tame r ∧ TameL args
  | .node _ _ es => TameL es
  | .constItem _ _ e => noFn e = true
  | .fnItem _ _ e => Tame e
  | _ => True

def TameL : Exs → Prop
  | .nil => True
  | .cons e es => Tame e ∧ TameL es

end

end

end Verif.SideFx
