/-!
# Early returns and the `?` operator
-/

namespace Verif.TryOp

abbrev Name := Nat

/-- An expression that is a place (a variable or a field), or any other one. -/
inductive Src where
  | place (n : Nat)
  | temp (n : Nat)
  deriving DecidableEq

/-- What is matched on: an expression, or `&place` / `&mut place`. -/
inductive Scrut where
  | src (s : Src)
  | addr (mt : Bool) (n : Nat)
  deriving DecidableEq

/-- `x`, `ref x`, `ref mut x`. -/
structure Bind where
  ref : Option Bool
  x : Name
  deriving DecidableEq

inductive Ctor where
  | some | ok | err
  deriving DecidableEq

/-- What is inside of a constructor. -/
inductive Inner where
  | bind (b : Bind)
  /-- `x @ p` with another pattern, which can't fail. -/
  | bindAt (b : Bind) (n : Nat)
  /-- `x @ ref y`. -/
  | bindAtRef (b : Bind) (mt : Bool) (y : Name)
  /-- Another pattern that can't fail. -/
  | irref (n : Nat)
  /-- A pattern that can fail. -/
  | refut (n : Nat)
  deriving DecidableEq

inductive Pat where
  | ctor (c : Ctor) (p : Inner)
  | none
  | other (n : Nat)

/-- Bodies. -/
inductive Body where
  | none
  | var (x : Name)
  /-- `Err(x)` -/
  | errOf (x : Name)
  /-- `Err(x.into())` -/
  | errInto (x : Name)
  | src (s : Src)
  | ret (b : Body)
  /-- A block with an expression. -/
  | blk (b : Body)
  /-- A block with one statement. -/
  | semi (b : Body)
  | other (n : Nat)
  deriving DecidableEq

inductive Method where
  | isNone | isErr | other
  deriving DecidableEq

structure Arm where
  pat : Pat
  guard : Bool
  body : Body

/-- The replaced code. -/
inductive Code where
  /-- `if s.method() { t } else { e }` -/
  | ifIs (s : Src) (m : Method) (t : Body) (e : Option Body)
  /-- `if let p = s { t } else { e }` -/
  | ifLet (p : Pat) (s : Src) (t : Body) (e : Option Body)
  /-- `match s { a, b }` -/
  | mtch (s : Scrut) (a b : Arm)
  /-- `let p = s else { e }; rest` -/
  | letElse (p : Pat) (s : Src) (e : Body) (rest : Body)

/-- The new code.  `ad`: `.as_ref()` or `.as_mut()` before `?`. -/
inductive Edit where
  /-- `s?`, perhaps with `;`. -/
  | tryE (s : Scrut) (ad : Option Bool) (semi : Bool)
  /-- `Some(s?)` -/
  | someTry (s : Src)
  /-- `let p = s?; body` -/
  | letTry (p : Inner) (s : Scrut) (body : Body)
  /-- `let p = s.as_ref()?; body`, where `p` matches a reference: `x`, `x @ &p` or `x @ y`. -/
  | letTryRef (p : Inner) (s : Src) (ad : Bool) (body : Body)
  deriving DecidableEq

/-- The type of an expression, below references. -/
inductive Kind where
  | option | result | other
  deriving DecidableEq

/-- What the compiler says. -/
structure Facts where
  kind : Src → Kind
  /-- The type is a reference. -/
  isRef : Src → Bool
  /-- The expression is a local variable. -/
  isLocal : Src → Bool
  /-- The type is `Copy`. -/
  copy : Src → Bool
  /-- The expression is a call. -/
  isCall : Src → Bool
  /-- `eq_expr_value` of the expression with itself: it has no side effects. -/
  pure : Src → Bool
  /-- The code is the branch of an `else`. -/
  elseClause : Bool
  /-- The value of the code is `()`, or it is a statement. -/
  needsSemi : Bool

end Verif.TryOp
