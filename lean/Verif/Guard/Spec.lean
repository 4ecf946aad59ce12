import Verif.Guard.Syntax

/-!
# Specification: which arm runs
-/

namespace Verif.Guard

/-- Variables with their values, the newest first. -/
abbrev Env := List (Id × Val)

/-- The value of a variable. -/
def look (y : Id) : Env → Option Val
  | [] => none
  | (z, v) :: env => if z = y then some v else look y env

/-- The value of a field. -/
def FVals.get (f : Id) : FVals → Option Val
  | .nil => none
  | .cons g v fs => if g = f then some v else fs.get f

/-- The number of values. -/
def Vals.len : Vals → Nat
  | .nil => 0
  | .cons _ vs => vs.len + 1

/-- Without the first values. -/
def Vals.drop : Nat → Vals → Vals
  | 0, vs => vs
  | _ + 1, .nil => .nil
  | n + 1, .cons _ vs => vs.drop n

/-- The first values. -/
def Vals.take : Nat → Vals → Vals
  | 0, _ => .nil
  | _ + 1, .nil => .nil
  | n + 1, .cons v vs => .cons v (vs.take n)

/-- The number of patterns. -/
def Pats.len : Pats → Nat
  | .nil => 0
  | .cons _ ps => ps.len + 1

mutual
/-- The variables a pattern binds if it matches the value. -/
def pm : Pat → Val → Option Env
  | .wild, _ => some []
  | .bind _ x, v => some [(x, v)]
  | .bindAt _ x p, v => (pm p v).map ((x, v) :: ·)
  | .lit n, v => match v with
    | .lit k => if k = n then some [] else none
    | _ => none
  | .con c ps, v => match v with
    | .con d vs => if d = c ∧ ps.len = vs.len then pmAll ps vs else none
    | _ => none
  | .strct c fs, v => match v with
    | .strct d vs => if d = c then pmFields fs vs else none
    | _ => none
  | .ref p, v => pm p v
  | .or ps, v => pmOr ps v
  | .slice ps, v => match v with
    | .slice vs => if ps.len = vs.len then pmAll ps vs else none
    | _ => none
  | .front ps, v => match v with
    | .slice vs => pmAll ps vs
    | _ => none
  | .back ps, v => match v with
    | .slice vs => if ps.len ≤ vs.len then pmAll ps (vs.drop (vs.len - ps.len)) else none
    | _ => none
/-- The first values match the patterns. -/
def pmAll : Pats → Vals → Option Env
  | .nil, _ => some []
  | .cons p ps, vs => match vs with
    | .nil => none
    | .cons v vs => (pm p v).bind fun bs => (pmAll ps vs).map (bs ++ ·)
/-- The first of the patterns that matches. -/
def pmOr : Pats → Val → Option Env
  | .nil, _ => none
  | .cons p ps, v => match pm p v with
    | some bs => some bs
    | none => pmOr ps v
/-- The fields match. -/
def pmFields : Fields → FVals → Option Env
  | .nil, _ => some []
  | .short _ x fs, vs => (vs.get x).bind fun v => (pmFields fs vs).map ((x, v) :: ·)
  | .named f p fs, vs => (vs.get f).bind fun v => (pm p v).bind fun bs => (pmFields fs vs).map (bs ++ ·)
end

mutual
/-- Structural equality, as derived implementations of `PartialEq` define it; the second value lists all fields. -/
def same (v : Val) : Val → Bool
  | .lit n => match v with
    | .lit k => k == n
    | _ => false
  | .con c us => match v with
    | .con d vs => d == c && sameAll vs us
    | _ => false
  | .strct c us => match v with
    | .strct d vs => d == c && sameFields vs us
    | _ => false
  | .slice us => match v with
    | .slice vs => sameAll vs us
    | _ => false
/-- The same for rows. -/
def sameAll (vs : Vals) : Vals → Bool
  | .nil => match vs with
    | .nil => true
    | .cons _ _ => false
  | .cons u us => match vs with
    | .nil => false
    | .cons v vs => same v u && sameAll vs us
/-- The same for fields. -/
def sameFields (vs : FVals) : FVals → Bool
  | .nil => true
  | .cons f u us => match vs.get f with
    | none => false
    | some v => same v u && sameFields vs us
end

/-- The program around the `match`: equality, methods, other expressions, conditions and bodies. -/
structure Prog where
  eq : Val → Val → Bool
  meth : Nat → Val → List Val → Bool
  other : Nat → List (Option Val) → Val
  cond : Nat → List (Option Val) → Bool
  body : Nat → List (Option Val) → Nat

mutual
/-- The value of an expression. -/
def ev (S : Prog) (env : Env) : Ex → Val
  | .loc x => (look x env).getD (.lit 0)
  | .lit n => .lit n
  | .neg n => .lit (-n)
  | .con c es => .con c (evAll S env es)
  | .strct c fs => .strct c (evFields S env fs)
  | .arr es => .slice (evAll S env es)
  | .addr e => ev S env e
  | .other k uses => S.other k (uses.map (look · env))
/-- The same for rows. -/
def evAll (S : Prog) (env : Env) : Exs → Vals
  | .nil => .nil
  | .cons e es => .cons (ev S env e) (evAll S env es)
/-- The same for fields. -/
def evFields (S : Prog) (env : Env) : EFields → FVals
  | .nil => .nil
  | .cons f e fs => .cons f (ev S env e) (evFields S env fs)
end

/-- A condition. -/
def holds (S : Prog) (env : Env) (c : Code) : Bool := S.cond c.k (c.uses.map (look · env))

/-- A guard: `none` if it is false, else the variables it declares for the body. -/
def guard (S : Prog) (env : Env) : Grd → Option Env
  | .matches e p g => match pm p (ev S env e) with
    | none => none
    | some cs => match g with
      | none => some []
      | some c => if holds S (cs ++ env) c then some [] else none
  | .let_ p e => pm p (ev S env e)
  | .eq l r => if S.eq (ev S env l) (ev S env r) then some [] else none
  | .method recv m args => if S.meth m (ev S env recv) (args.map (ev S env)) then some [] else none
  | .other c => if holds S env c then some [] else none

/-- One arm: `none` if it is not taken. -/
def arm (S : Prog) (env : Env) (v : Val) (a : Arm) : Option Nat :=
  match pm a.pat v with
  | none => none
  | some bs => match a.guard with
    | none => some (S.body a.body.k (a.body.uses.map (look · (bs ++ env))))
    | some g => match guard S (bs ++ env) g with
      | none => none
      | some cs => some (S.body a.body.k (a.body.uses.map (look · (cs ++ (bs ++ env)))))

/-- The first arm that is taken. -/
def run (S : Prog) (env : Env) (v : Val) : List Arm → Option Nat
  | [] => none
  | a :: as => match arm S env v a with
    | some r => some r
    | none => run S env v as

mutual
/-- The variables bound by a pattern. -/
def vars : Pat → List Id
  | .wild => []
  | .bind _ x => [x]
  | .bindAt _ x p => x :: vars p
  | .lit _ => []
  | .con _ ps => varsAll ps
  | .strct _ fs => varsFields fs
  | .ref p => vars p
  | .or ps => varsAll ps
  | .slice ps => varsAll ps
  | .front ps => varsAll ps
  | .back ps => varsAll ps
/-- The same for rows. -/
def varsAll : Pats → List Id
  | .nil => []
  | .cons p ps => vars p ++ varsAll ps
/-- The same for fields. -/
def varsFields : Fields → List Id
  | .nil => []
  | .short _ x fs => x :: varsFields fs
  | .named _ p fs => vars p ++ varsFields fs
end

/-- All patterns of the row bind the variable. -/
inductive AllBind (x : Id) : Pats → Prop
  | nil : AllBind x .nil
  | cons {p ps} (h : x ∈ vars p) (hs : AllBind x ps) : AllBind x (.cons p ps)

mutual
/-- What Rust demands: there are two alternatives at least, and they bind the same variables. -/
inductive WfPat : Pat → Prop
  | wild : WfPat .wild
  | bind {r x} : WfPat (.bind r x)
  | bindAt {r x p} (h : WfPat p) : WfPat (.bindAt r x p)
  | lit {n} : WfPat (.lit n)
  | con {c ps} (h : WfPats ps) : WfPat (.con c ps)
  | strct {c fs} (h : WfFields fs) : WfPat (.strct c fs)
  | ref {p} (h : WfPat p) : WfPat (.ref p)
  | or {ps} (h : WfPats ps) (hl : 2 ≤ ps.len) (hx : ∀ x, x ∈ varsAll ps → AllBind x ps) : WfPat (.or ps)
  | slice {ps} (h : WfPats ps) : WfPat (.slice ps)
  | front {ps} (h : WfPats ps) : WfPat (.front ps)
  | back {ps} (h : WfPats ps) : WfPat (.back ps)
/-- The same for rows. -/
inductive WfPats : Pats → Prop
  | nil : WfPats .nil
  | cons {p ps} (h : WfPat p) (hs : WfPats ps) : WfPats (.cons p ps)
/-- The same for fields. -/
inductive WfFields : Fields → Prop
  | nil : WfFields .nil
  | short {r x fs} (h : WfFields fs) : WfFields (.short r x fs)
  | named {f p fs} (h : WfPat p) (hs : WfFields fs) : WfFields (.named f p fs)
end

mutual
/-- The variable is bound without a subpattern: not by `x @ p`. -/
inductive NoAt (x : Id) : Pat → Prop
  | wild : NoAt x .wild
  | bind {r y} : NoAt x (.bind r y)
  | bindAt {r y p} (hy : y ≠ x) (h : NoAt x p) : NoAt x (.bindAt r y p)
  | lit {n} : NoAt x (.lit n)
  | con {c ps} (h : NoAts x ps) : NoAt x (.con c ps)
  | strct {c fs} (h : NoAtFields x fs) : NoAt x (.strct c fs)
  | ref {p} (h : NoAt x p) : NoAt x (.ref p)
  | or {ps} (h : NoAts x ps) : NoAt x (.or ps)
  | slice {ps} (h : NoAts x ps) : NoAt x (.slice ps)
  | front {ps} (h : NoAts x ps) : NoAt x (.front ps)
  | back {ps} (h : NoAts x ps) : NoAt x (.back ps)
/-- The same for rows. -/
inductive NoAts (x : Id) : Pats → Prop
  | nil : NoAts x .nil
  | cons {p ps} (h : NoAt x p) (hs : NoAts x ps) : NoAts x (.cons p ps)
/-- The same for fields. -/
inductive NoAtFields (x : Id) : Fields → Prop
  | nil : NoAtFields x .nil
  | short {r y fs} (h : NoAtFields x fs) : NoAtFields x (.short r y fs)
  | named {f p fs} (h : NoAt x p) (hs : NoAtFields x fs) : NoAtFields x (.named f p fs)
end

/-- The equality with this value is the derived one. -/
def Derived (S : Prog) (u : Val) : Prop := ∀ w, S.eq w u = same w u ∧ S.eq u w = same w u

/-- The variables which are tested by a guard. -/
inductive Tests (x : Id) : Grd → Prop
  | matches {p g} : Tests x (.matches (.loc x) p g)
  | let_ {p} : Tests x (.let_ p (.loc x))
  | eqLeft {r} : Tests x (.eq (.loc x) r)
  | eqRight {l} : Tests x (.eq l (.loc x))
  | method {m args} : Tests x (.method (.loc x) m args)

/-- The methods of `str` and of slices: `is_empty`, `starts_with` and `ends_with`. -/
structure Methods (S : Prog) : Prop where
  emptyStr : ∀ n, S.meth isEmpty (.lit n) [] = (n == emptyStr)
  emptySlice : ∀ vs, S.meth isEmpty (.slice vs) [] = (vs.len == 0)
  starts : ∀ vs us, S.meth startsWith (.slice vs) [.slice us] =
    (decide (us.len ≤ vs.len) && sameAll (vs.take us.len) us)
  ends : ∀ vs us, S.meth endsWith (.slice vs) [.slice us] =
    (decide (us.len ≤ vs.len) && sameAll (vs.drop (vs.len - us.len)) us)

/-- A value of the type. -/
inductive Shape : RTy → Val → Prop
  | str {n} : Shape .str (.lit n)
  | slice {vs} : Shape .slice (.slice vs)
  | other {v} : Shape .other v

/-- What is asked of the guard:
* the pattern binds no other variable of the arm a second time; those in `matches!` have no names the body uses, and
  their guard does not use the tested variable;
* `==` is the derived equality;
* the methods are those of `str` and slices, and one that is called with `&[]` is `starts_with` or `ends_with`. -/
inductive GrdOk (S : Prog) (ty : Ex → RTy) (env : Env) (v : Val) (a : Arm) : Grd → Prop
  | matches {e p g} (hb : ∀ y ∈ vars p, y ∉ a.body.uses) (hd : ∀ y ∈ vars p, y ∈ vars a.pat → e = .loc y)
      (hg : ∀ x c, e = .loc x → g = some c → x ∉ c.uses) : GrdOk S ty env v a (.matches e p g)
  | let_ {p e} (hw : WfPat p) (hd : ∀ y ∈ vars p, y ∈ vars a.pat → e = .loc y) : GrdOk S ty env v a (.let_ p e)
  | eq {l r} (hl : ∀ x env', l = .loc x → Derived S (ev S env' r)) (hr : ∀ x env', r = .loc x → Derived S (ev S env' l)) :
      GrdOk S ty env v a (.eq l r)
  | method {recv m args} (hS : Methods S) (ht : ∀ bs, pm a.pat v = some bs → Shape (ty recv) (ev S (bs ++ env) recv))
      (h0 : m = isEmpty → args = []) (h1 : args.length ≤ 1)
      (hn : m ≠ isEmpty → args = [.addr (.arr .nil)] → m = startsWith ∨ m = endsWith) :
      GrdOk S ty env v a (.method recv m args)
  | other {c} : GrdOk S ty env v a (.other c)

/-- What is asked of an arm: its pattern is well formed, the tested variable is not bound by `x @ p`, and the guard is
as above. -/
structure Fine (S : Prog) (ty : Ex → RTy) (env : Env) (v : Val) (a : Arm) : Prop where
  wf : WfPat a.pat
  noAt : ∀ g x, a.guard = some g → Tests x g → NoAt x a.pat
  guard : ∀ g, a.guard = some g → GrdOk S ty env v a g

end Verif.Guard
