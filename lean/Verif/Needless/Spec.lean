import Verif.Needless.Syntax

/-!
# What such matches do
-/

namespace Verif.Needless

/-- Values. -/
inductive Val where
  | unit
  | int (n : Int)
  | float (neg : Bool) (n : Nat)
  | ctor (c : Nat) (vs : List Val)
  | ref (v : Val)

/-- The meaning of everything else.  `scrut`: the other expressions; `fields`: the types of the fields
of a constructor of a type. -/
structure Sem where
  W : Type
  scrut : Nat → W → Val × W
  const : Nat → Val
  other : Nat → Val → Bool
  item : Name → Nat → Val
  block : Nat → W → Val × W
  guard : Nat → (Name → Val) → W → Bool × W
  fields : Nat → Nat → Option (List Ty)

mutual

/-- The value has the type. -/
inductive HasTy (F : Nat → Nat → Option (List Ty)) : Val → Ty → Prop where
  | unit : HasTy F .unit .unit
  | int (n) : HasTy F (.int n) .int
  | float (s n) : HasTy F (.float s n) .float
  | ref {v t} : HasTy F v t → HasTy F (.ref v) (.ref t)
  | ctor {c vs n ts} : F n c = some ts → HasTyL F vs ts → HasTy F (.ctor c vs) (.adt n)

inductive HasTyL (F : Nat → Nat → Option (List Ty)) : List Val → List Ty → Prop where
  | nil : HasTyL F [] []
  | cons {v vs t ts} : HasTy F v t → HasTyL F vs ts → HasTyL F (v :: vs) (t :: ts)

end

abbrev Env := Name → Val

mutual

/-- Equality of values as patterns see it: the two zeros are equal. -/
def eqv : Val → Val → Bool
  | .unit, .unit => true
  | .int a, .int b => a == b
  | .float s a, .float t b => a == b && (s == t || a == 0)
  | .ctor c vs, .ctor d us => c == d && eqvL vs us
  | .ref a, .ref b => eqv a b
  | _, _ => false

def eqvL : List Val → List Val → Bool
  | [], [] => true
  | a :: as, b :: bs => eqv a b && eqvL as bs
  | _, _ => false

end

mutual

/-- No floating point zero inside. -/
def noZero : Val → Bool
  | .unit => true
  | .int _ => true
  | .float _ n => n != 0
  | .ctor _ vs => noZeroL vs
  | .ref v => noZero v

def noZeroL : List Val → Bool
  | [] => true
  | v :: vs => noZero v && noZeroL vs

end

def Lit.val : Lit → Val
  | .int n => .int n
  | .float n => .float false n

/-- References are followed by patterns that are no names; then variables are references too. -/
def strip : Val → Bool → Val × Bool
  | .ref v, _ => strip v true
  | v, r => (v, r)

/-- The value of a variable. -/
def bound (byRef mode : Bool) (v : Val) : Val := if byRef || mode then .ref v else v

def upd (ρ : Env) (x : Name) (v : Val) : Env := fun y => if y = x then v else ρ y

mutual

/-- The environment after the pattern has matched. -/
def matchPat (S : Sem) : Pat → Val → Bool → Env → Option Env
  | .wild, _, _, ρ => some ρ
  | .bind r x, v, m, ρ => some (upd ρ x (bound r m v))
  | .bindAt r x p, v, m, ρ => matchPat S p v m (upd ρ x (bound r m v))
  | .ctor c ps, v, m, ρ =>
    match strip v m with
    | (.ctor d vs, m') => if c = d then matchPats S ps vs m' ρ else none
    | _ => none
  | .path k, v, m, ρ => if eqv (S.const k) (strip v m).1 then some ρ else none
  | .lit l, v, m, ρ => if eqv l.val (strip v m).1 then some ρ else none
  | .other n, v, _, ρ => if S.other n v then some ρ else none

def matchPats (S : Sem) : Pats → List Val → Bool → Env → Option Env
  | .nil, [], _, ρ => some ρ
  | .cons p ps, v :: vs, m, ρ =>
    match matchPat S p v m ρ with
    | some ρ' => matchPats S ps vs m ρ'
    | none => none
  | _, _, _, _ => none

end

mutual

/-- The names in a pattern. -/
def vars : Pat → List Name
  | .wild => []
  | .bind _ x => [x]
  | .bindAt _ x p => x :: vars p
  | .ctor _ ps => varsL ps
  | .path _ => []
  | .lit _ => []
  | .other _ => []

def varsL : Pats → List Name
  | .nil => []
  | .cons p ps => vars p ++ varsL ps

end

mutual

def eval (S : Sem) : Ex → Env → S.W → Val × S.W
  | .var x, ρ, w => (ρ x, w)
  | .varPath x k, _, w => (S.item x k, w)
  | .path k, _, w => (S.const k, w)
  | .lit l, _, w => (l.val, w)
  | .call c es, ρ, w => let r := evals S es ρ w; (.ctor c r.1, r.2)
  | .scr n, _, w => S.scrut n w
  | .blk e, ρ, w => eval S e ρ w
  | .semi e, ρ, w => (.unit, (eval S e ρ w).2)
  | .stmts n, _, w => S.block n w

def evals (S : Sem) : Exs → Env → S.W → List Val × S.W
  | .nil, _, w => ([], w)
  | .cons e es, ρ, w =>
    let r := eval S e ρ w
    let r' := evals S es ρ r.2
    (r.1 :: r'.1, r'.2)

end

/-- The arms in order; nothing if none of them takes the value. -/
def runArms (S : Sem) (v : Val) (ρ : Env) : List Arm → S.W → Option (Val × S.W)
  | [], _ => none
  | a :: as, w =>
    match matchPat S a.pat v false ρ with
    | none => runArms S v ρ as w
    | some ρ' =>
      match a.guard with
      | none => some (eval S a.body ρ' w)
      | some g =>
        let r := S.guard g ρ' w
        if r.1 then some (eval S a.body ρ' r.2) else runArms S v ρ as r.2

/-- `match n { … }` -/
def runMatch (S : Sem) (n : Nat) (ρ : Env) (as : List Arm) (w : S.W) : Option (Val × S.W) :=
  let r := S.scrut n w
  runArms S r.1 ρ as r.2

/-- The chain of `if let`. -/
def runIf (S : Sem) (ρ : Env) : IfLet → S.W → Val × S.W
  | .noElse p n t, w =>
    let r := S.scrut n w
    match matchPat S p r.1 false ρ with
    | some ρ' => eval S t ρ' r.2
    | none => (.unit, r.2)
  | .elseBlock p n t e, w =>
    let r := S.scrut n w
    match matchPat S p r.1 false ρ with
    | some ρ' => eval S t ρ' r.2
    | none => eval S e ρ r.2
  | .elseIf p n t next, w =>
    let r := S.scrut n w
    match matchPat S p r.1 false ρ with
    | some ρ' => eval S t ρ' r.2
    | none => runIf S ρ next r.2

mutual

/-- The constants in a pattern have no floating point zero in them. -/
def Pat.noZeros (const : Nat → Val) : Pat → Bool
  | .path k => noZero (const k)
  | .lit l => noZero l.val
  | .ctor _ ps => ps.noZeros const
  | .bindAt _ _ p => p.noZeros const
  | _ => true

def Pats.noZeros (const : Nat → Val) : Pats → Bool
  | .nil => true
  | .cons p ps => p.noZeros const && ps.noZeros const

end

mutual

/-- No path in the expression begins with the name of a variable of a pattern. -/
def Ex.plain : Ex → Bool
  | .varPath _ _ => false
  | .call _ es => es.plain
  | .blk e => e.plain
  | .semi e => e.plain
  | _ => true

def Exs.plain : Exs → Bool
  | .nil => true
  | .cons e es => e.plain && es.plain

end

/-- The type of code at this place: that of a variable or a function the value goes to. -/
def expected : List Parent → Option Ty
  | .letStmt t :: _ => some t
  | .fn t :: _ => some t
  | .block :: ps => expected ps
  | .expr false :: ps => expected ps
  | _ => none

/-- The patterns of a chain. -/
def IfLet.pats : IfLet → List Pat
  | .noElse p _ _ => [p]
  | .elseBlock p _ _ _ => [p]
  | .elseIf p _ _ next => p :: next.pats

/-- The bodies of a chain. -/
def IfLet.bodies : IfLet → List Ex
  | .noElse _ _ t => [t]
  | .elseBlock _ _ t _ => [t]
  | .elseIf _ _ t next => t :: next.bodies

/-- The first expression of a chain. -/
def IfLet.first : IfLet → Nat
  | .noElse _ n _ => n
  | .elseBlock _ n _ _ => n
  | .elseIf _ n _ _ => n

/-- `None`, perhaps in blocks. -/
def Ex.isNoneBlock : Ex → Bool
  | .path k => k == noneK
  | .blk e => e.isNoneBlock
  | .semi e => e.isNoneBlock
  | _ => false

/-- The chain ends with `else { None }`. -/
def IfLet.endsNone : IfLet → Bool
  | .noElse _ _ _ => false
  | .elseBlock _ _ _ e => e.isNoneBlock
  | .elseIf _ _ _ next => next.endsNone

/-- A pattern for every `Some`: `Some(x)`. -/
inductive AnySome : Pat → Prop where
  | mk (r x) : AnySome (.ctor someC (.cons (.bind r x) .nil))

/-- An expression that has the same value when it is evaluated again, and does nothing then. -/
def Stable (S : Sem) (n : Nat) : Prop :=
  ∀ w, S.scrut n (S.scrut n w).2 = S.scrut n w

end Verif.Needless
