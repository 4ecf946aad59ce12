import Verif.OptMatch.Syntax
import Verif.Ctrl.Spec

/-!
# What matches and calls of `map` and `filter` do

Values and places, patterns with default binding modes (as in the editions up to 2021), and the
methods of `Option`.  Operations, memory and calls are parameters.  Not modelled: destructors, and
moves out of variables.
-/

namespace Verif.OptMatch
open Ctrl (Name Expr Cond)

/-- From a place to a place inside of it. -/
inductive Step where
  /-- The value inside of `Some`, `Ok` or `Err`. -/
  | inner
  | fst
  | snd
  deriving DecidableEq

mutual

inductive Val where
  | unit
  | atom (n : Nat)
  | none
  | some (v : Val)
  | ok (v : Val)
  | err (v : Val)
  | pair (a b : Val)
  /-- A reference. -/
  | ref (mt : Bool) (p : Place)

/-- Where values are: in memory, or in a temporary with this value. -/
inductive Place where
  | mem (n : Nat) (path : List Step)
  | temp (v : Val) (path : List Step)

end

/-- The place inside of a place. -/
def Place.step (s : Step) : Place → Place
  | .mem n π => .mem n (π ++ [s])
  | .temp v π => .temp v (π ++ [s])

/-- The value at a place inside of a value. -/
def Val.at : Val → List Step → Option Val
  | v, [] => Option.some v
  | .some v, .inner :: π => v.at π
  | .ok v, .inner :: π => v.at π
  | .err v, .inner :: π => v.at π
  | .pair a _, .fst :: π => a.at π
  | .pair _ b, .snd :: π => b.at π
  | _, _ => Option.none
termination_by structural _ π => π

/-- What operations, calls and the memory mean. -/
structure Sem where
  W : Type
  truth : Val → Bool
  prim : Nat → List Val → List Val → W → Option Val × W
  pat : Nat → Val → Option (List Val)
  next : Val → W → Option (Option Val) × W
  item : Nat → Val
  /-- A call of a function with one argument. -/
  call : Val → Val → W → Option Val × W
  mem : W → Nat → Option Val

/-- The meaning of the expressions inside. -/
def Sem.ctrl (S : Sem) : Ctrl.Sem where
  W := S.W
  V := Val
  unit := .unit
  truth := S.truth
  prim := S.prim
  pat := S.pat
  next := S.next
  item := S.item

variable {S : Sem}

abbrev Env := Name → Val
abbrev M (S : Sem) (α : Type) := Ctrl.M S.ctrl α

/-- The value at a place. -/
def read (w : S.W) : Place → Option Val
  | .mem n π => (S.mem w n).bind fun v => v.at π
  | .temp v π => v.at π

/-- The default binding mode: whether variables are references, and whether all references on the way
are mutable. -/
structure Mode where
  byRef : Bool
  mt : Bool

/-- Variables are the values themselves. -/
def Mode.start : Mode := ⟨false, true⟩

/-- All references at a place are followed. -/
def follow (w : S.W) : Ty → Place → Mode → Option (Ty × Place × Mode)
  | .ref m t, p, mo =>
    match read w p with
    | some (.ref _ q) => follow w t q ⟨true, mo.mt && m⟩
    | _ => none
  | t, p, mo => some (t, p, mo)

/-- No mutable references inside. -/
def Ty.shared : Ty → Bool
  | .atom => true
  | .opt t => t.shared
  | .res t e => t.shared && e.shared
  | .pair a b => a.shared && b.shared
  | .ref m t => !m && t.shared

/-- The value of a variable of type `t`.  Mutable references can't be taken from behind a shared
one. -/
def bound (w : S.W) (b : Bind) (t : Ty) (p : Place) (mo : Mode) : Option Val :=
  match b.byRef with
  | some m => some (.ref m p)
  | none =>
    if mo.byRef then some (.ref mo.mt p)
    else if mo.mt || t.shared then read w p else none

/-- `p` against the place: the new environment if the pattern matches.  Nothing at all if the pattern
does not fit the type. -/
def matchPat (w : S.W) : Pat → Ty → Place → Mode → Env → Option (Option Env)
  | .wild, _, _, _, ρ => some (some ρ)
  | .bind b x, t, p, mo, ρ => (bound w b t p mo).map fun v => some fun y => if y = x then v else ρ y
  | .bindAt b x q, t, p, mo, ρ => (bound w b t p mo).bind fun v =>
      matchPat w q t p mo fun y => if y = x then v else ρ y
  | .ref m q, .ref m' t, p, mo, ρ =>
    if m = m' then
      match read w p with
      | some (.ref _ p') => matchPat w q t p' ⟨false, mo.mt && m⟩ ρ
      | _ => none
    else none
  | .ref _ _, _, _, _, _ => none
  | .none, t, p, mo, ρ => (follow w t p mo).bind fun r =>
    match r.1, read w r.2.1 with
    | .opt _, some .none => some (some ρ)
    | .opt _, some (.some _) => some none
    | _, _ => none
  | .some q, t, p, mo, ρ => (follow w t p mo).bind fun r =>
    match r.1, read w r.2.1 with
    | .opt t', some (.some _) => matchPat w q t' (r.2.1.step .inner) r.2.2 ρ
    | .opt _, some .none => some none
    | _, _ => none
  | .someRest, t, p, mo, ρ => (follow w t p mo).bind fun r =>
    match r.1, read w r.2.1 with
    | .opt _, some (.some _) => some (some ρ)
    | .opt _, some .none => some none
    | _, _ => none
  | .ok q, t, p, mo, ρ => (follow w t p mo).bind fun r =>
    match r.1, read w r.2.1 with
    | .res t' _, some (.ok _) => matchPat w q t' (r.2.1.step .inner) r.2.2 ρ
    | .res _ _, some (.err _) => some none
    | _, _ => none
  | .err q, t, p, mo, ρ => (follow w t p mo).bind fun r =>
    match r.1, read w r.2.1 with
    | .res _ t', some (.err _) => matchPat w q t' (r.2.1.step .inner) r.2.2 ρ
    | .res _ _, some (.ok _) => some none
    | _, _ => none
  | .pair q q', t, p, mo, ρ => (follow w t p mo).bind fun r =>
    match r.1 with
    | .pair t' t'' => (matchPat w q t' (r.2.1.step .fst) r.2.2 ρ).bind fun o =>
      match o with
      | some ρ' => matchPat w q' t'' (r.2.1.step .snd) r.2.2 ρ'
      | none => some none
    | _ => none
  | .lit n, t, p, mo, ρ => (follow w t p mo).bind fun r =>
    match r.1, read w r.2.1 with
    | .atom, some (.atom k) => some (if k = n then some ρ else none)
    | _, _ => none
  | .or q q', t, p, mo, ρ => (matchPat w q t p mo ρ).bind fun o =>
    match o with
    | some ρ' => some (some ρ')
    | none => matchPat w q' t p mo ρ

/-- An operand. -/
def evalArg (k : Nat) (ρ : Env) : Arg → M S Val
  | .plain e => Ctrl.eval k e ρ
  | .call f a _ _ => Ctrl.M.bind (Ctrl.eval k f ρ) fun vf =>
      Ctrl.M.bind (Ctrl.eval k a ρ) fun va => Ctrl.M.run (S.call vf va)

/-- The condition of an `if`. -/
def evalTest (k : Nat) (ρ : Env) : Test → M S (Option Env)
  | .arg a => Ctrl.M.bind (evalArg k ρ a) fun v => Ctrl.M.pure (if S.truth v then some ρ else none)
  | .cond c => Ctrl.evalC k c ρ

/-- The body of an arm. -/
def evalBody (k : Nat) : Body → Env → M S Val
  | .none, _ => Ctrl.M.pure .none
  | .some a, ρ => Ctrl.M.bind (evalArg k ρ a) fun v => Ctrl.M.pure (.some v)
  | .block _ b, ρ => evalBody k b ρ
  | .ite c t e, ρ => Ctrl.M.bind (evalTest k ρ c) fun r =>
    match r with
    | some ρ' => evalBody k t ρ'
    | none => evalBody k e ρ
  | .other e, ρ => Ctrl.eval k e ρ

/-- The place an expression stands for; an expression that is no place makes a temporary. -/
def evalPlace (k : Nat) (ρ : Env) (e : Expr) (isPlace : Bool) : M S Place :=
  Ctrl.M.bind (Ctrl.eval k e ρ) fun v =>
    if isPlace then
      match v with
      | .ref _ p => Ctrl.M.pure p
      | _ => Ctrl.M.throw .abort
    else Ctrl.M.pure (.temp v [])

/-- `&` and `&mut` in front of a place. -/
def borrow : List Bool → Place → Place
  | [], p => p
  | m :: ms, p => .temp (.ref m (borrow ms p)) []

/-- All patterns fit, and one of them matches; the compiler makes sure of that. -/
def covered (w : S.W) (t : Ty) (p : Place) (ρ : Env) (qs : List Pat) : Bool :=
  (qs.all fun q => (matchPat w q t p .start ρ).isSome) &&
    qs.any fun q => ((matchPat w q t p .start ρ).bind id).isSome

/-- The arms in order. -/
def runArms (k : Nat) (t : Ty) (p : Place) (ρ : Env) : List Arm → M S Val
  | [] => Ctrl.M.throw .abort
  | a :: as => fun w =>
    match matchPat w a.pat t p .start ρ with
    | some (some ρ') =>
      match a.guard with
      | none => evalBody k a.body ρ' w
      | some g => Ctrl.M.bind (Ctrl.evalC k g ρ') (fun r =>
          match r with
          | some ρ'' => evalBody k a.body ρ''
          | none => runArms k t p ρ as) w
    | some none => runArms k t p ρ as w
    | none => Ctrl.M.throw .abort w

/-- An `if let` is a `match` whose last pattern is `_`. -/
def Form.arms : Form → List Arm
  | .mtch as => as
  | .ifLet p t e => [⟨p, none, t⟩, ⟨.wild, none, e⟩]

/-- The code as it is written. -/
def evalForm (k : Nat) (ρ : Env) (s : Scrut) (f : Form) : M S Val :=
  Ctrl.M.bind (evalPlace k ρ s.base s.isPlace) fun p =>
    runArms k s.fullTy (borrow s.addrs p) ρ f.arms

/-- The patterns cover every value of the matched expression; the compiler makes sure of that. -/
def Exhaustive (S : Sem) (k : Nat) (ρ : Env) (s : Scrut) (f : Form) : Prop :=
  ∀ (w : S.W) (p : Place) (w' : S.W), evalPlace (S := S) k ρ s.base s.isPlace w = (.ok p, w') →
    covered w' s.fullTy (borrow s.addrs p) ρ (f.arms.map Arm.pat) = true

/-- The type inside of the `Option` below the references. -/
def Ty.optArg : Ty → Ty
  | .ref _ t => t.optArg
  | .opt t => t
  | t => t

/-- `_`, perhaps below some `&`. -/
def isWild : Pat → Bool
  | .wild => true
  | .ref _ p => isWild p
  | _ => false

/-- Whether the first arm takes everything. -/
def Form.firstWild (f : Form) : Bool :=
  match f.arms with
  | [] => false
  | a :: _ => isWild a.pat

/-- Whether a pattern takes a reference apart right at the outside. -/
def startsRef : Pat → Bool
  | .ref _ _ => true
  | .bindAt _ _ p => startsRef p
  | .or p q => startsRef p || startsRef q
  | _ => false

/-- Whether the variable is bound by the pattern. -/
def Pat.binds (x : Name) : Pat → Bool
  | .bind _ y => y == x
  | .bindAt _ y p => y == x || p.binds x
  | .ref _ p => p.binds x
  | .some p => p.binds x
  | .ok p => p.binds x
  | .err p => p.binds x
  | .pair p q => p.binds x || q.binds x
  | .or p q => p.binds x || q.binds x
  | _ => false

/-- An environment with another value for a variable. -/
def upd (ρ : Env) (x : Name) (v : Val) : Env := fun y => if y = x then v else ρ y

/-- The values of `Option`. -/
def asOption : Val → Option (Option Val)
  | .none => some none
  | .some v => some (some v)
  | _ => none

/-- The receiver of the method: references are followed, then `as_ref` or `as_mut`.  The type and the
value inside of `Some`. -/
def receiver (w : S.W) (t : Ty) (p : Place) (ad : Adaptor) : Option (Ty × Option Val) :=
  (follow w t p .start).bind fun r =>
    match r.1 with
    | .opt t' => ((read w r.2.1).bind asOption).map fun o =>
      match ad with
      | .asIs => (t', o)
      | .asRef => (.ref false t', o.map fun _ => .ref false (r.2.1.step .inner))
      | .asMut => (.ref true t', o.map fun _ => .ref true (r.2.1.step .inner))
    | _ => none

/-- `return` ends a closure. -/
def closureM (m : M S Val) : M S Val := fun w =>
  match m w with
  | (.error (.ret v), w') => (.ok v, w')
  | r => r

/-- The closure returns `bool`, so there is no `return` with a value of another type in it. -/
def closureB (m : M S (Option Env)) : M S Bool := fun w =>
  match m w with
  | (.ok r, w') => (.ok r.isSome, w')
  | (.error (.ret _), w') => (.error .abort, w')
  | (.error x, w') => (.error x, w')

/-- The condition does not change if it gets a reference to the value of the variable. -/
def SameBorrowed (S : Sem) (k : Nat) (c : Test) (x : Name) : Prop :=
  ∀ (ρ : Env) (v : Val), closureB (S := S) (evalTest k (upd ρ x (.ref false (.temp v []))) c) =
    closureB (evalTest k (upd ρ x v) c)

/-- The argument of a closure. -/
def param (w : S.W) (p : Pat) (t : Ty) (v : Val) (ρ : Env) : Option Env :=
  (matchPat w p t (.temp v []) .start ρ).bind id

/-- What a closure's body may be: `let` is no expression. -/
def isExpr : Test → Bool
  | .arg _ => true
  | .cond (.test _) => true
  | .cond _ => false

/-- `o.map(fn)`. -/
def evalMap (k : Nat) (ρ : Env) (d : Edit) : M S Val :=
  Ctrl.M.bind (evalPlace k ρ d.base d.isPlace) fun p => fun w =>
    match receiver w d.ty p d.adaptor with
    | none => (.error .abort, w)
    | some (t, o) =>
      match d.fn with
      | .func f => Ctrl.M.bind (Ctrl.eval k f ρ) (fun vf =>
          match o with
          | none => Ctrl.M.pure .none
          | some v => Ctrl.M.bind (Ctrl.M.run (S.call vf v)) fun r => Ctrl.M.pure (.some r)) w
      | .closure q false (.arg a) =>
        match o with
        | none => (.ok .none, w)
        | some v =>
          match param w q t v ρ with
          | some ρ' => Ctrl.M.bind (closureM (evalArg k ρ' a)) (fun r => Ctrl.M.pure (.some r)) w
          | none => (.error .abort, w)
      | _ => (.error .abort, w)

/-- `o.filter(fn)`: the function gets a reference. -/
def evalFilter (k : Nat) (ρ : Env) (d : Edit) : M S Val :=
  Ctrl.M.bind (evalPlace k ρ d.base d.isPlace) fun p => fun w =>
    match receiver w d.ty p d.adaptor with
    | none => (.error .abort, w)
    | some (t, o) =>
      match d.fn with
      | .func f => Ctrl.M.bind (Ctrl.eval k f ρ) (fun vf =>
          match o with
          | none => Ctrl.M.pure .none
          | some v => Ctrl.M.bind (Ctrl.M.run (S.call vf (.ref false (.temp v [])))) fun r =>
              Ctrl.M.pure (if S.truth r then .some v else .none)) w
      | .closure q neg c =>
        if isExpr c then
          match o with
          | none => (.ok .none, w)
          | some v =>
            match param w q (.ref false t) (.ref false (.temp v [])) ρ with
            | some ρ' => Ctrl.M.bind (closureB (evalTest k ρ' c)) (fun r =>
                Ctrl.M.pure (if r != neg then .some v else .none)) w
            | none => (.error .abort, w)
        else (.error .abort, w)
      | .garbage => (.error .abort, w)

/-- `o.and_then(|q| b)`. -/
def evalAndThen (k : Nat) (ρ : Env) (s : Scrut) (q : Pat) (b : Body) : M S Val :=
  Ctrl.M.bind (evalPlace k ρ s.base s.isPlace) fun p => fun w =>
    match receiver w s.fullTy (borrow s.addrs p) .asIs with
    | none => (.error .abort, w)
    | some (_, none) => (.ok .none, w)
    | some (t, some v) =>
      match param w q t v ρ with
      | some ρ' => closureM (evalBody k b ρ') w
      | none => (.error .abort, w)

end Verif.OptMatch
