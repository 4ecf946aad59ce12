import Verif.RangeLoop.Syntax

/-!
# Specification: what the loops do

A location is a variable with fields and indices; a location may have a length.  An index out of bounds
panics.  References are transparent.
-/

namespace Verif.RangeLoop

inductive Key where
  | fld (f : Field)
  | idx (n : Nat)
  deriving DecidableEq, Repr

abbrev Loc := Var × List Key

structure St where
  mem : Loc → Nat
  len : Loc → Nat

/-- Assign to a place, and so to all in it. -/
def St.write (σ : St) (l : Loc) (n : Nat) : St where
  mem l' := if l'.1 = l.1 ∧ l.2.isPrefixOf l'.2 = true then n else σ.mem l'
  len l' := if l'.1 = l.1 ∧ l.2.isPrefixOf l'.2 = true then n else σ.len l'

inductive Val where
  | num (n : Nat)
  | loc (l : Loc)
  deriving DecidableEq, Repr

def Val.read (σ : St) : Val → Nat
  | .num n => n
  | .loc l => σ.mem l

/-- Select a field. -/
def Val.field (f : Field) : Val → Val
  | .num n => .num n
  | .loc l => .loc (l.1, l.2 ++ [.fld f])

/-- Whether a `break` was reached, the value, the state; `none` is a panic, or too few rounds in an inner
loop. -/
abbrev Res := Option (Bool × Val × St)

/-- Go on if there was no `break`. -/
def andThen (r : Res) (f : Val → St → Res) : Res :=
  match r with
  | none => none
  | some (true, v, σ) => some (true, v, σ)
  | some (false, v, σ) => f v σ

/-- An element. -/
def at' (v : Val) (n : Nat) (σ : St) : Res :=
  match v with
  | .num _ => none
  | .loc l => if n < σ.len l then some (false, .loc (l.1, l.2 ++ [.idx n]), σ) else none

/-- At most `k` rounds of an inner loop. -/
def rounds (f : St → Res) : Nat → St → Res
  | 0, _ => none
  | k + 1, σ =>
    match f σ with
    | none => none
    | some (true, _, σ') => some (false, .num 0, σ')
    | some (false, _, σ') => rounds f k σ'

/-- Assign to a value if it is a place. -/
def put (v : Val) (n : Nat) (σ : St) : Res :=
  match v with
  | .num _ => some (false, .num 0, σ)
  | .loc l => some (false, .num 0, σ.write l n)

def asNum (r : Res) : Res := andThen r (fun w τ => some (false, .num (w.read τ), τ))

def single (k : Nat) (o : One) (e : St → Res) (σ : St) : Res :=
  match o with
  | .addr => e σ
  | .addrMut => e σ
  | .callMut => andThen (e σ) (fun v τ => put v (v.read τ + 1) τ)
  | .refMut => andThen (e σ) (fun v τ => put v 1 τ)
  | .bind x => andThen (e σ) (fun v τ => some (false, .num 0, τ.write (x, []) (v.read τ)))
  | .loop => rounds e k σ

def both (o : Two) (v : Val) (σ : St) (snd : St → Res) : Res :=
  match o with
  | .seq => andThen (snd σ) (fun w τ => some (false, .num (v.read σ + w.read τ), τ))
  | .lazily => if v.read σ = 0 then some (false, .num 0, σ) else asNum (snd σ)
  | .set => andThen (snd σ) (fun w τ => put w (v.read σ) τ)

/-- The value of an expression, where `it` is the place that `item` stands for. -/
def eval (k : Nat) (it : Loc) : Expr → St → Res
  | .lit n, σ => some (false, .num n, σ)
  | .brk, σ => some (true, .num 0, σ)
  | .path x, σ => some (false, .loc (x, []), σ)
  | .item, σ => some (false, .loc it, σ)
  | .field e f, σ => andThen (eval k it e σ) (fun v τ => some (false, v.field f, τ))
  | .index e j, σ =>
    andThen (eval k it e σ) fun v τ => andThen (eval k it j τ) (fun w υ => at' v (w.read υ) υ)
  | .one o e, σ => single k o (eval k it e) σ
  | .two o a b, σ => andThen (eval k it a σ) (fun v τ => both o v τ (eval k it b))

/-- A `for` loop over some numbers. -/
def runFor (f : Nat → St → Res) : List Nat → St → Option St
  | [], σ => some σ
  | n :: ns, σ =>
    match f n σ with
    | none => none
    | some (true, _, σ') => some σ'
    | some (false, _, σ') => runFor f ns σ'

def Num.val (σ : St) : Num → Nat
  | .lit n => n
  | .var x => σ.mem (x, [])
  | .len x => σ.len (x, [])
  | .add a b => a.val σ + b.val σ

/-- The first number after the range. -/
def Loop.bound (l : Loop) (σ : St) : Nat := if l.closed then l.stop.val σ + 1 else l.stop.val σ

/-- The numbers from `a` up to `b`, without `b`. -/
def upTo (a b : Nat) : List Nat := (List.range b).drop a

/-- The old loop (there is no `item` in its body). -/
def Loop.run (k : Nat) (l : Loop) (σ : St) : Option St :=
  runFor (fun n τ => eval k (0, []) l.body (τ.write (l.i, []) n)) (upTo (l.start.val σ) (l.bound σ)) σ

def Adapter.app (σ : St) (ns : List Nat) : Adapter → List Nat
  | .skip n => ns.drop (n.val σ)
  | .take n => ns.take (n.val σ)
  | .takeSucc n => ns.take (n.val σ + 1)

/-- The body of the new loop: the variable for `seq[i]`. -/
def subst (seq : Expr) (i : Var) : Expr → Expr
  | .index e j => if e = seq ∧ j = .path i then .item else .index (subst seq i e) (subst seq i j)
  | .lit n => .lit n
  | .brk => .brk
  | .path x => .path x
  | .item => .item
  | .field e f => .field (subst seq i e) f
  | .one k e => .one k (subst seq i e)
  | .two k a b => .two k (subst seq i a) (subst seq i b)

/-- The new loop.  The sequence and the numbers are evaluated once.  The index is bound even if it is not
in the pattern; see `index_unused` for that. -/
def Sugg.run (k : Nat) (s : Sugg) (l : Loop) (σ : St) : Option St :=
  match eval k (0, []) s.seq σ with
  | some (false, .loc d, τ) =>
    runFor (fun n υ => eval k (d.1, d.2 ++ [.idx n]) (subst s.seq l.i l.body) (υ.write (l.i, []) n))
      (s.adapters.foldl (Adapter.app σ) (List.range (τ.len d))) τ
  | _ => none

/-! ### Variables -/

def vars : Expr → List Var
  | .lit _ | .brk | .item => []
  | .path x => [x]
  | .field e _ | .one _ e => vars e
  | .index a b | .two _ a b => vars a ++ vars b

/-- The variable a place is a part of. -/
def root : Expr → Option Var
  | .path x => some x
  | .field e _ | .index e _ | .one .addr e | .one .addrMut e => root e
  | _ => none

/-- The variables that are declared or assigned to, or mutably borrowed. -/
def assigned : Expr → List Var
  | .lit _ | .brk | .path _ | .item => []
  | .field e _ => assigned e
  | .one (.bind x) e => x :: assigned e
  | .one .callMut e | .one .refMut e | .one .addrMut e => (root e).toList ++ assigned e
  | .one _ e => assigned e
  | .index a b => assigned a ++ assigned b
  | .two .set a b => (root b).toList ++ (assigned a ++ assigned b)
  | .two _ a b => assigned a ++ assigned b

def Num.vars : Num → List Var
  | .lit _ => []
  | .var x | .len x => [x]
  | .add a b => a.vars ++ b.vars

/-- The variables in the argument of an adapter. -/
def Adapter.vars : Adapter → List Var
  | .skip n | .take n | .takeSucc n => n.vars

/-- The variables that are declared. -/
def binds : Expr → List Var
  | .lit _ | .brk | .path _ | .item => []
  | .one (.bind x) e => x :: binds e
  | .field e _ | .one _ e => binds e
  | .index a b | .two _ a b => binds a ++ binds b

/-- The variables in operands of indices. -/
def indexVars : Expr → List Var
  | .lit _ | .brk | .path _ | .item => []
  | .field e _ | .one _ e => indexVars e
  | .index e j => indexVars e ++ vars j
  | .two _ a b => indexVars a ++ indexVars b

/-- Whether a place is a part of what `item` stands for. -/
def ofItem : Expr → Bool
  | .item => true
  | .field e _ | .index e _ | .one .addr e | .one .addrMut e => ofItem e
  | _ => false

/-- Whether what `item` stands for is changed, or borrowed mutably. -/
def mutItem : Expr → Bool
  | .lit _ | .brk | .path _ | .item => false
  | .field e _ => mutItem e
  | .one .callMut e | .one .refMut e | .one .addrMut e => ofItem e || mutItem e
  | .one _ e => mutItem e
  | .index a b => mutItem a || mutItem b
  | .two .set a b => ofItem b || mutItem a || mutItem b
  | .two _ a b => mutItem a || mutItem b

/-- There are no patterns with `ref mut`. -/
def noRefMut : Expr → Bool
  | .lit _ | .brk | .path _ | .item => true
  | .one .refMut _ => false
  | .field e _ | .one _ e => noRefMut e
  | .index a b | .two _ a b => noRefMut a && noRefMut b

/-- A place whose operands are places. -/
def quiet : Expr → Bool
  | .lit _ | .path _ => true
  | .field e _ => quiet e
  | .index a b => quiet a && quiet b
  | _ => false

/-- There is no `item` in code that is written by hand. -/
def noItem : Expr → Bool
  | .lit _ | .brk | .path _ => true
  | .item => false
  | .field e _ | .one _ e => noItem e
  | .index a b | .two _ a b => noItem a && noItem b

end Verif.RangeLoop
