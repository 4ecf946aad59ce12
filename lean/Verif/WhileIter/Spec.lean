import Verif.WhileIter.Syntax

/-!
# Specification: which places an expression accesses, and what it does

References are transparent: what a reference points to counts as a part of the variable that holds
the reference.
-/

namespace Verif.WhileIter

/-! ### Accesses -/

/-- A place: a variable and fields of it, from the outside to the inside.  `exact` if nothing but
fields was selected. -/
structure Place where
  var : Var
  fields : List Field
  exact : Bool
  deriving DecidableEq, Repr

/-- An access of a variable's part, with everything in it. -/
abbrev Access := Var × List Field

def Place.select (p : Place) (f : Field) : Place :=
  if p.exact then { p with fields := p.fields ++ [f] } else p

/-- An index, or a call of `deref`, needs all of the place. -/
def Place.all (p : Place) : Place := { p with exact := false }

def Place.access (p : Place) : Access := (p.var, p.fields)

/-- The accesses, the place's own included. -/
def flush (r : Option Place × List Access) : List Access :=
  match r.1 with
  | some p => p.access :: r.2
  | none => r.2

/-- The place an expression denotes, and the accesses of its operands. -/
def place : Expr → Option Place × List Access
  | .lit _ => (none, [])
  | .brk => (none, [])
  | .path x => (some ⟨x, [], true⟩, [])
  | .field e f => ((place e).1.map (·.select f), (place e).2)
  | .deref true e => place e
  | .deref false e => ((place e).1.map (·.all), (place e).2)
  | .index e i => ((place e).1.map (·.all), (place e).2 ++ flush (place i))
  | .wrap e => place e
  | .addr e => place e
  | .auto e => ((place e).1.map (·.all), (place e).2)
  | .one _ e => (none, flush (place e))
  | .two _ a b => (none, flush (place a) ++ flush (place b))
  | .here _ p b => (none, flush (place p) ++ flush (place b))

/-- All accesses of an expression. -/
def accs (e : Expr) : List Access := flush (place e)

/-- The accesses of the operands of a place. -/
def operands (e : Expr) : List Access := (place e).2

/-- Two parts of a variable overlap if one contains the other. -/
def Overlap (p q : List Field) : Prop := p <+: q ∨ q <+: p

/-- The variables an expression declares. -/
def decls : Expr → List Var
  | .lit _ | .brk | .path _ => []
  | .field e _ | .deref _ e | .wrap e | .addr e | .auto e => decls e
  | .index e i => decls e ++ decls i
  | .one (.bind x) e => x :: decls e
  | .one _ e => decls e
  | .two (.letElse x) a b => x :: (decls a ++ decls b)
  | .two _ a b => decls a ++ decls b
  | .here x p b => x :: (decls p ++ decls b)

/-- Whether the loop in question is in it. -/
def has : Expr → Bool
  | .lit _ | .brk | .path _ => false
  | .field e _ | .deref _ e | .wrap e | .addr e | .auto e | .one _ e => has e
  | .index a b | .two _ a b => has a || has b
  | .here .. => true

/-- What may be accessed after the loop.  After a loop around it, and after another call of a closure
around it, all of that is evaluated again, with new variables for those declared in it. -/
def later : Expr → List Access
  | .lit _ | .brk | .path _ => []
  | .field e _ | .deref _ e | .wrap e | .addr e | .auto e => later e
  | .one .loop e => if has e then later e ++ (accs e).filter (fun a => !(decls e).contains a.1) else []
  | .one (.closure false) e =>
    if has e then later e ++ (accs e).filter (fun a => !(decls e).contains a.1) else []
  | .one _ e => later e
  | .index a b | .two _ a b => if has a then later a ++ accs b else later b
  | .here .. => []

/-- The variables declared in loops and closures. -/
def inner : Expr → List Var
  | .lit _ | .brk | .path _ => []
  | .field e _ | .deref _ e | .wrap e | .addr e | .auto e => inner e
  | .one .loop e | .one (.closure _) e => decls e
  | .one _ e => inner e
  | .index a b | .two _ a b => inner a ++ inner b
  | .here x p b => x :: (decls p ++ decls b)

/-- What is declared in a loop or a closure is not used after it. -/
def Scoped : Expr → Prop
  | .lit _ | .brk | .path _ => True
  | .field e _ | .deref _ e | .wrap e | .addr e | .auto e | .one _ e => Scoped e
  | .index a b | .two _ a b => (∀ y ∈ inner a, ∀ q, (y, q) ∉ accs b) ∧ Scoped a ∧ Scoped b
  | .here .. => True

/-- Whether the loop is in a closure. -/
def inClosure : Expr → Bool
  | .lit _ | .brk | .path _ | .here .. => false
  | .field e _ | .deref _ e | .wrap e | .addr e | .auto e => inClosure e
  | .one (.closure _) e => has e
  | .one _ e => inClosure e
  | .index a b | .two _ a b => if has a then inClosure a else inClosure b

/-- Whether the loop is in something that may be run more than once. -/
def repeated : Expr → Bool
  | .lit _ | .brk | .path _ | .here .. => false
  | .field e _ | .deref _ e | .wrap e | .addr e | .auto e => repeated e
  | .one .loop e | .one (.closure false) e => has e
  | .one _ e => repeated e
  | .index a b | .two _ a b => if has a then repeated a else repeated b

/-! ### Evaluation -/

inductive Key where
  | fld (f : Field)
  | idx (n : Nat)
  deriving DecidableEq, Repr

/-- A place at run time. -/
abbrev Loc := Var × List Key

structure St where
  mem : Loc → Nat
  /-- what the iterator there has left -/
  its : Loc → List Nat

/-- Assign to a place, and so to all in it. -/
def St.write (σ : St) (l : Loc) (n : Nat) : St where
  mem l' := if l'.1 = l.1 ∧ l.2.isPrefixOf l'.2 = true then n else σ.mem l'
  its l' := if l'.1 = l.1 ∧ l.2.isPrefixOf l'.2 = true then [] else σ.its l'

/-- Replace what an iterator has left. -/
def St.advance (σ : St) (l : Loc) (t : List Nat) : St :=
  { σ with its := fun l' => if l' = l then t else σ.its l' }

inductive Val where
  | num (n : Nat)
  | loc (l : Loc)
  deriving DecidableEq, Repr

def Val.read (σ : St) : Val → Nat
  | .num n => n
  | .loc l => σ.mem l

def Val.sel (k : Key) : Val → Val
  | .num n => .num n
  | .loc l => .loc (l.1, l.2 ++ [k])

/-- Whether a `break` was reached, the value, the state. -/
abbrev Res := Option (Bool × Val × St)

/-- Go on if there was no `break`. -/
def andThen (r : Res) (f : Val → St → Res) : Res :=
  match r with
  | none => none
  | some (true, v, σ) => some (true, v, σ)
  | some (false, v, σ) => f v σ

/-- At most `k` rounds; `none` if they are not enough. -/
def rounds (f : St → Res) : Nat → St → Res
  | 0, _ => none
  | k + 1, σ =>
    match f σ with
    | none => none
    | some (true, _, σ') => some (false, .num 0, σ')
    | some (false, _, σ') => rounds f k σ'

/-- One round of a loop over the iterator at `l`. -/
def pull (x : Var) (body : St → Res) (l : Loc) (σ : St) : Res :=
  match σ.its l with
  | [] => some (true, .num 0, σ)
  | n :: t => body ((σ.advance l t).write (x, []) n)

/-- A value that is no place. -/
def asNum (r : Res) : Res := andThen r (fun w τ => some (false, .num (w.read τ), τ))

/-- What is done with the two values. -/
def both (k : Two) (v : Val) (σ : St) (snd : St → Res) : Res :=
  match k with
  | .seq => andThen (snd σ) (fun w τ => some (false, .num (v.read σ + w.read τ), τ))
  | .lazily => if v.read σ = 0 then some (false, .num 0, σ) else asNum (snd σ)
  | .set =>
    andThen (snd σ) fun w τ =>
      match w with
      | .loc l => some (false, .num 0, τ.write l (v.read σ))
      | .num _ => some (false, .num 0, τ)
  | .letElse x =>
    if v.read σ = 0 then asNum (snd σ) else some (false, .num 0, σ.write (x, []) (v.read σ))

def single (k : Nat) (o : One) (e : St → Res) (σ : St) : Res :=
  match o with
  | .next =>
    andThen (e σ) fun v τ =>
      match v with
      | .loc l =>
        match τ.its l with
        | [] => some (false, .num 0, τ)
        | n :: t => some (false, .num (n + 1), τ.advance l t)
      | .num _ => some (false, .num 0, τ)
  | .bind x => andThen (e σ) (fun v τ => some (false, .num 0, τ.write (x, []) (v.read τ)))
  | .loop => rounds e k σ
  | .closure _ => asNum (e σ)

/-- The value of an expression, with at most `k` rounds in each loop. -/
def eval (k : Nat) : Expr → St → Res
  | .lit n, σ => some (false, .num n, σ)
  | .brk, σ => some (true, .num 0, σ)
  | .path x, σ => some (false, .loc (x, []), σ)
  | .field e f, σ => andThen (eval k e σ) (fun v τ => some (false, v.sel (.fld f), τ))
  | .deref _ e, σ | .wrap e, σ | .addr e, σ | .auto e, σ => eval k e σ
  | .index e i, σ =>
    andThen (eval k e σ) fun v τ =>
      andThen (eval k i τ) (fun w υ => some (false, v.sel (.idx (w.read υ)), υ))
  | .one o e, σ => single k o (eval k e) σ
  | .two o a b, σ => andThen (eval k a σ) (fun v τ => both o v τ (eval k b))
  | .here x p b, σ =>
    rounds (fun σ => andThen (eval k p σ) fun v τ =>
      match v with
      | .loc l => pull x (eval k b) l τ
      | .num _ => none) k σ

/-- `for x in p.by_ref() { body }`, or `for x in p`: the iterator is looked up once. -/
def evalFor (k : Nat) (x : Var) (p b : Expr) (σ : St) : Res :=
  andThen (eval k p σ) fun v τ =>
    match v with
    | .loc l => rounds (pull x (eval k b) l) k τ
    | .num _ => none

end Verif.WhileIter
