import Verif.TryOp.Syntax

/-!
# What the code does before and after

Small semantics of `if`, `if let`, `match`, `let … else` and `?`.  Not modelled: when temporaries are
dropped, and moves out of variables that are used later.
-/

namespace Verif.TryOp

inductive Val where
  | unit
  | int (n : Int)
  | some (v : Val)
  | none
  | ok (v : Val)
  | err (v : Val)
  /-- A reference to the variable or field `n`. -/
  | refPl (mt : Bool) (n : Nat)
  /-- A reference to what is inside of the constructor in the variable or field `n`. -/
  | refIn (mt : Bool) (n : Nat)
  /-- A reference to a temporary. -/
  | refTemp (mt : Bool) (v : Val)
  deriving DecidableEq

/-- Where a value is. -/
inductive Loc where
  | place (n : Nat)
  | temp

/-- The result: a value, `return`, or code that isn't accepted by the compiler. -/
inductive Out where
  | val (v : Val)
  | ret (v : Val)
  | stuck

abbrev Env := Name → Val

def Env.set (env : Env) (x : Name) (v : Val) : Env := fun y => if y = x then v else env y

/-- The meaning of the other parts. -/
structure Sem where
  W : Type
  get : Nat → W → Val
  eval : Nat → W → Val × W
  /-- `From::from`, in `?` and in `into`. -/
  conv : Val → Val
  inner : Nat → Loc → Val → Env → Env
  refut : Nat → Loc → Val → Env → Option Env
  pat : Nat → Loc → Val → Env → Option Env
  guard : Env → W → Bool
  other : Nat → Env → W → Out × W

/-- `ref` to what is inside of a constructor. -/
def refTo (m : Bool) : Loc → Val → Val
  | .place n, _ => .refIn m n
  | .temp, v => .refTemp m v

/-- The value of a variable.  `dm`: the default binding mode, a reference was matched. -/
def bindVal (dm ref : Option Bool) (l : Loc) (v : Val) : Val :=
  match ref, dm with
  | .some m, _ => refTo m l v
  | .none, .some m => refTo m l v
  | .none, .none => v

section
variable (S : Sem)

def evalSrc : Src → S.W → Val × S.W
  | .place n, w => (S.get n w, w)
  | .temp n, w => S.eval n w

def locOf : Src → Loc
  | .place n => .place n
  | .temp _ => .temp

def bindInner (dm : Option Bool) (l : Loc) (v : Val) (env : Env) : Inner → Option Env
  | .bind b => some (env.set b.x (bindVal dm b.ref l v))
  | .bindAt b n => some (S.inner n l v (env.set b.x (bindVal dm b.ref l v)))
  | .bindAtRef b m y => some ((env.set b.x (bindVal dm b.ref l v)).set y (refTo m l v))
  | .irref n => some (S.inner n l v env)
  | .refut n => S.refut n l v env

/-- Match a value that is not a reference. -/
def matchAt (dm : Option Bool) (l : Loc) (v : Val) (env : Env) (p : Pat) : Option Env :=
  match p, v with
  | .ctor .some q, .some u => bindInner S dm l u env q
  | .ctor .ok q, .ok u => bindInner S dm l u env q
  | .ctor .err q, .err u => bindInner S dm l u env q
  | .none, .none => some env
  | .other n, v => S.pat n l v env
  | _, _ => none

/-- Match a value, through a reference. -/
def matchPat (l : Loc) (v : Val) (w : S.W) (env : Env) (p : Pat) : Option Env :=
  match v with
  | .refPl m n => matchAt S (some m) (.place n) (S.get n w) env p
  | .refTemp m u => matchAt S (some m) .temp u env p
  | v => matchAt S none l v env p

/-- `return` -/
def Out.toRet : Out → Out
  | .val v => .ret v
  | o => o

/-- `;` -/
def Out.drop : Out → Out
  | .val _ => .val .unit
  | o => o

def runBody : Body → Env → S.W → Out × S.W
  | .none, _, w => (.val .none, w)
  | .var x, env, w => (.val (env x), w)
  | .errOf x, env, w => (.val (.err (env x)), w)
  | .errInto x, env, w => (.val (.err (S.conv (env x))), w)
  | .src s, _, w => (.val (evalSrc S s w).1, (evalSrc S s w).2)
  | .ret b, env, w => ((runBody b env w).1.toRet, (runBody b env w).2)
  | .blk b, env, w => runBody b env w
  | .semi b, env, w => ((runBody b env w).1.drop, (runBody b env w).2)
  | .other n, env, w => S.other n env w

/-- A branch that may be missing. -/
def runElse : Option Body → Env → S.W → Out × S.W
  | some b, env, w => runBody S b env w
  | none, _, w => (.val .unit, w)

/-- `is_none` and `is_err`; `none`: there is no such method. -/
def test : Method → Val → Option Bool
  | .isNone, .none => some true
  | .isNone, .some _ => some false
  | .isErr, .err _ => some true
  | .isErr, .ok _ => some false
  | _, _ => none

def evalScrut : Scrut → S.W → Val × S.W
  | .src s, w => evalSrc S s w
  | .addr m n, w => (.refPl m n, w)

def scrutLoc : Scrut → Loc
  | .src s => locOf s
  | .addr _ _ => .temp

/-- The first arm that matches. -/
def runArms (l : Loc) (v : Val) (env : Env) (w : S.W) : List Arm → Out × S.W
  | [] => (.stuck, w)
  | a :: as =>
    match matchPat S l v w env a.pat with
    | some env' => if a.guard && !S.guard env' w then runArms l v env w as else runBody S a.body env' w
    | none => runArms l v env w as

def runTest (t : Body) (e : Option Body) (env : Env) (w : S.W) : Option Bool → Out × S.W
  | some true => runBody S t env w
  | some false => runElse S e env w
  | none => (.stuck, w)

/-- With the variables, or without a match. -/
def runBranch (t : Body) (e : Option Body) (env : Env) (w : S.W) : Option Env → Out × S.W
  | some env' => runBody S t env' w
  | none => runElse S e env w

/-- The code before. -/
def runCode : Code → Env → S.W → Out × S.W
  | .ifIs s m t e, env, w => runTest S t e env (evalSrc S s w).2 (test m (evalSrc S s w).1)
  | .ifLet p s t e, env, w =>
    runBranch S t e env (evalSrc S s w).2
      (matchPat S (locOf s) (evalSrc S s w).1 (evalSrc S s w).2 env p)
  | .mtch s a b, env, w =>
    runArms S (scrutLoc s) (evalScrut S s w).1 env (evalScrut S s w).2 [a, b]
  | .letElse p s e rest, env, w =>
    runBranch S rest (some e) env (evalSrc S s w).2
      (matchPat S (locOf s) (evalSrc S s w).1 (evalSrc S s w).2 env p)

/-- `?` on a value; `f`: what `as_ref` or `as_mut` do with the inner value. -/
def tryVal (f : Val → Val) : Val → Out
  | .some v => .val (f v)
  | .none => .ret .none
  | .ok v => .val (f v)
  | .err v => .ret (.err (S.conv (f v)))
  | _ => .stuck

/-- `as_ref` and `as_mut`. -/
def adapt (ad : Option Bool) (l : Loc) (v : Val) : Val :=
  match ad with
  | .some m => refTo m l v
  | .none => v

/-- `&place?` is `&(place?)`, a reference to a temporary. -/
def Out.addr (m : Bool) : Out → Out
  | .val v => .val (.refTemp m v)
  | o => o

def runTry (ad : Option Bool) : Scrut → S.W → Out × S.W
  | .src s, w => (tryVal S (adapt ad (locOf s)) (evalSrc S s w).1, (evalSrc S s w).2)
  | .addr m n, w => ((tryVal S (adapt ad (.place n)) (S.get n w)).addr m, w)

def Out.mapSome : Out → Out
  | .val v => .val (.some v)
  | o => o

/-- The rest with the variables. -/
def runRest (body : Body) (w : S.W) : Option Env → Out × S.W
  | some env => runBody S body env w
  | none => (.stuck, w)

/-- `let p = …; body`, for the result of `?`. -/
def runLet (p : Inner) (body : Body) (env : Env) : Out × S.W → Out × S.W
  | (.val v, w) => runRest S body w (bindInner S none .temp v env p)
  | (o, w) => (o, w)

/-- `x`, `x @ &p` and `x @ y` for a reference `r` to a value `v` at `l`. -/
def bindRef (l : Loc) (v r : Val) (env : Env) : Inner → Option Env
  | .bind b => some (env.set b.x r)
  | .bindAt b n => some (S.inner n l v (env.set b.x r))
  | .bindAtRef b _ y => some ((env.set b.x r).set y r)
  | _ => none

/-- `let p = s.as_ref()?; body` -/
def runLetRef (p : Inner) (l : Loc) (ad : Bool) (body : Body) (env : Env) (w : S.W) : Val → Out × S.W
  | .some v => runRest S body w (bindRef S l v (refTo ad l v) env p)
  | .ok v => runRest S body w (bindRef S l v (refTo ad l v) env p)
  | .none => (.ret .none, w)
  | .err v => (.ret (.err (S.conv (refTo ad l v))), w)
  | _ => (.stuck, w)

/-- The code after. -/
def runEdit : Edit → Env → S.W → Out × S.W
  | .tryE s ad semi, _, w =>
    if semi then ((runTry S ad s w).1.drop, (runTry S ad s w).2) else runTry S ad s w
  | .someTry s, _, w => ((runTry S none (.src s) w).1.mapSome, (runTry S none (.src s) w).2)
  | .letTry p s body, env, w => runLet S p body env (runTry S none s w)
  | .letTryRef p s ad body, env, w =>
    runLetRef S p (locOf s) ad body env (evalSrc S s w).2 (evalSrc S s w).1

end

/-- What can be seen of a result: a value that is not used doesn't matter (`unused`), and at the end of a
function a value is what it returns (`tail`). -/
def see (unused tail : Bool) : Out → Out
  | .val v => if unused then .val .unit else if tail then .ret v else .val v
  | o => o

/-- The two runs can't be told apart. -/
def Same {W : Type} (unused tail : Bool) (a b : Out × W) : Prop :=
  see unused tail a.1 = see unused tail b.1 ∧ a.2 = b.2

/-- A body with a value: no statement comes last.  `return` has every type. -/
inductive Valued : Body → Prop where
  | none : Valued .none
  | var (x : Name) : Valued (.var x)
  | errOf (x : Name) : Valued (.errOf x)
  | errInto (x : Name) : Valued (.errInto x)
  | src (s : Src) : Valued (.src s)
  | other (n : Nat) : Valued (.other n)
  | ret {b : Body} : Valued b → Valued (.ret b)
  | blk {b : Body} : Valued b → Valued (.blk b)

/-- A body in which all that is returned is a value. -/
inductive Typed : Body → Prop where
  | valued {b : Body} : Valued b → Typed b
  | blk {b : Body} : Typed b → Typed (.blk b)
  | semi {b : Body} : Typed b → Typed (.semi b)

/-- A body that leaves the function with a value. -/
inductive Leaves : Body → Prop where
  | ret {b : Body} : Valued b → Leaves (.ret b)
  | blk {b : Body} : Leaves b → Leaves (.blk b)
  | semi {b : Body} : Leaves b → Leaves (.semi b)

/-- A body whose value is `None`. -/
inductive IsNone : Body → Prop where
  | none : IsNone .none
  | blk {b : Body} : IsNone b → IsNone (.blk b)

/-- A body whose value is the variable. -/
inductive IsVar (x : Name) : Body → Prop where
  | var : IsVar x (.var x)
  | blk {b : Body} : IsVar x b → IsVar x (.blk b)

/-- `Err(x)` does not occur. -/
inductive NoErrOf : Body → Prop where
  | src (s : Src) : NoErrOf (.src s)
  | ret {b : Body} : NoErrOf b → NoErrOf (.ret b)
  | blk {b : Body} : NoErrOf b → NoErrOf (.blk b)
  | semi {b : Body} : NoErrOf b → NoErrOf (.semi b)

/-- Errors are converted (`into`), so that `?` may convert them. -/
inductive Into : Body → Prop where
  | into (x : Name) : Into (.errInto x)
  | ret {b : Body} : Into b → Into (.ret b)
  | blk {b : Body} : Into b → Into (.blk b)

/-- The pattern binds no references to a place, except directly, and inner patterns do not care where the value
is. -/
inductive NoHiddenRef (S : Sem) : Inner → Prop where
  | bind (b : Bind) : NoHiddenRef S (.bind b)
  | bindAtRef (m : Bool) (x : Name) (n : Nat) : NoHiddenRef S (.bindAt ⟨.some m, x⟩ n)
  | bindAt (x : Name) (n : Nat) :
    (∀ l v env, S.inner n l v env = S.inner n .temp v env) → NoHiddenRef S (.bindAt ⟨.none, x⟩ n)
  | both (m : Bool) (x y : Name) : NoHiddenRef S (.bindAtRef ⟨.some m, x⟩ m y)
  | irref (n : Nat) :
    (∀ l v env, S.inner n l v env = S.inner n .temp v env) → NoHiddenRef S (.irref n)
  | refut (n : Nat) :
    (∀ l v env, S.refut n l v env = S.refut n .temp v env) → NoHiddenRef S (.refut n)

/-- The variable of the pattern is not `ref`. -/
def ByValue (p : Pat) : Prop := ∀ c b, p = .ctor c (.bind b) → b.ref = none

/-- If the arm takes the error, it converts it. -/
def Converts (a : Arm) : Prop := ∀ b, a.pat = .ctor .err (.bind b) → Into a.body

/-- A value has a type. -/
inductive HasKind : Kind → Val → Prop where
  | some (v : Val) : HasKind .option (.some v)
  | none : HasKind .option .none
  | ok (v : Val) : HasKind .result (.ok v)
  | err (v : Val) : HasKind .result (.err v)
  | other (v : Val) : HasKind .other v

/-- What the compiler says is true. -/
structure FactsOk (fa : Facts) (S : Sem) : Prop where
  kind : ∀ s w, fa.isRef s = false → HasKind (fa.kind s) (evalSrc S s w).1
  local_ : ∀ s, fa.isLocal s = true → ∃ n, s = .place n
  pure : ∀ s w, fa.pure s = true → (evalSrc S s w).2 = w

end Verif.TryOp
