import Verif.Sugg.Grammar

/-!
# Specification: calling closures, unwrapping, smaller and greater numbers

Expressions with closures, variants and `return`, and what evaluating them does.  Values the program
computes elsewhere are a parameter.
-/

namespace Verif.Redex

/-- `Some`, `Ok` and `Err`. -/
inductive Ctor | some' | ok | err
  deriving DecidableEq, Repr

/-- The methods that take the content out of an `Option` or a `Result`. -/
inductive Meth
  | unwrap | expect | unwrapUnchecked | unwrapErr | expectErr | unwrapErrUnchecked
  | unwrapOr | unwrapOrDefault | unwrapOrElse
  deriving DecidableEq, Repr

inductive E
  | int (n : Int)
  | var (x : Nat)
  /-- A call of a function of the program. -/
  | opq (k : Nat)
  | bin (k : Nat) (a b : E)
  /-- `{ a; b }` -/
  | seq (a b : E)
  /-- `{ e }` -/
  | block (e : E)
  | ret (e : E)
  | none'
  | wrap (c : Ctor) (a : E)
  /-- A method with an argument; a method without one has `unit` here. -/
  | meth (m : Meth) (recv arg : E)
  | unit
  /-- `|| body` -/
  | lam0 (body : E)
  /-- `|x| body` -/
  | lam1 (x : Nat) (body : E)
  | app0 (f : E)
  | app1 (f a : E)
  /-- `panic!` with something to print. -/
  | panic (a : E)
  /-- `T::default()` -/
  | dflt
  | min (a b : E)
  | max (a b : E)
  deriving DecidableEq, Repr

inductive V
  | int (n : Int)
  | other (k : Nat)
  | unit
  | none'
  | wrap (c : Ctor) (v : V)
  | clo0 (env : Nat → V) (body : E)
  | clo1 (env : Nat → V) (x : Nat) (body : E)

/-- How an evaluation ends. -/
inductive Out
  | val (v : V)
  /-- The surrounding function or closure is left. -/
  | ret (v : V)
  | panic
  | undefined

/-- The rest of the program. -/
structure Sem where
  W : Type
  opq : Nat → W → V × W
  bin : Nat → V → V → V
  dflt : V

def Out.isVal : Out → Bool
  | .val _ => true
  | _ => false

/-- A call ends with what its body ends with; a `return` ends the body only. -/
def Out.ofBody : Out → Out
  | .ret v => .val v
  | o => o

def upd (env : Nat → V) (x : Nat) (v : V) : Nat → V := fun y => if y = x then v else env y

/-- What a method that takes the content out does without calling anything. -/
def content (I : Sem) : Meth → V → V → Option Out
  | .unwrap, .wrap .some' v, _ => some (.val v)
  | .unwrap, .wrap .ok v, _ => some (.val v)
  | .unwrap, .wrap .err _, _ => some .panic
  | .unwrap, .none', _ => some .panic
  | .expect, .wrap .some' v, _ => some (.val v)
  | .expect, .wrap .ok v, _ => some (.val v)
  | .expect, .wrap .err _, _ => some .panic
  | .expect, .none', _ => some .panic
  | .unwrapUnchecked, .wrap .some' v, _ => some (.val v)
  | .unwrapUnchecked, .wrap .ok v, _ => some (.val v)
  | .unwrapUnchecked, .wrap .err _, _ => some .undefined
  | .unwrapUnchecked, .none', _ => some .undefined
  | .unwrapErr, .wrap .err v, _ => some (.val v)
  | .unwrapErr, .wrap .ok _, _ => some .panic
  | .expectErr, .wrap .err v, _ => some (.val v)
  | .expectErr, .wrap .ok _, _ => some .panic
  | .unwrapErrUnchecked, .wrap .err v, _ => some (.val v)
  | .unwrapErrUnchecked, .wrap .ok _, _ => some .undefined
  | .unwrapOr, .wrap .some' v, _ => some (.val v)
  | .unwrapOr, .wrap .ok v, _ => some (.val v)
  | .unwrapOr, .wrap .err _, a => some (.val a)
  | .unwrapOr, .none', a => some (.val a)
  | .unwrapOrDefault, .wrap .some' v, _ => some (.val v)
  | .unwrapOrDefault, .wrap .ok v, _ => some (.val v)
  | .unwrapOrDefault, .wrap .err _, _ => some (.val I.dflt)
  | .unwrapOrDefault, .none', _ => some (.val I.dflt)
  | .unwrapOrElse, .wrap .some' v, _ => some (.val v)
  | .unwrapOrElse, .wrap .ok v, _ => some (.val v)
  | _, _, _ => none

/-- Evaluating an expression: `Ev I env w e o w'`. -/
inductive Ev (I : Sem) : (Nat → V) → I.W → E → Out → I.W → Prop
  | int {env w n} : Ev I env w (.int n) (.val (.int n)) w
  | unit {env w} : Ev I env w .unit (.val .unit) w
  | var {env w x} : Ev I env w (.var x) (.val (env x)) w
  | opq {env w k} : Ev I env w (.opq k) (.val (I.opq k w).1) (I.opq k w).2
  | bin {env w k a b va vb w1 w2} : Ev I env w a (.val va) w1 → Ev I env w1 b (.val vb) w2 →
      Ev I env w (.bin k a b) (.val (I.bin k va vb)) w2
  | binL {env w k a b o w1} : Ev I env w a o w1 → o.isVal = false → Ev I env w (.bin k a b) o w1
  | binR {env w k a b va o w1 w2} : Ev I env w a (.val va) w1 → Ev I env w1 b o w2 → o.isVal = false →
      Ev I env w (.bin k a b) o w2
  | seq {env w a b va o w1 w2} : Ev I env w a (.val va) w1 → Ev I env w1 b o w2 → Ev I env w (.seq a b) o w2
  | seqL {env w a b o w1} : Ev I env w a o w1 → o.isVal = false → Ev I env w (.seq a b) o w1
  | block {env w e o w1} : Ev I env w e o w1 → Ev I env w (.block e) o w1
  | ret {env w e v w1} : Ev I env w e (.val v) w1 → Ev I env w (.ret e) (.ret v) w1
  | retE {env w e o w1} : Ev I env w e o w1 → o.isVal = false → Ev I env w (.ret e) o w1
  | none' {env w} : Ev I env w .none' (.val .none') w
  | wrap {env w c a v w1} : Ev I env w a (.val v) w1 → Ev I env w (.wrap c a) (.val (.wrap c v)) w1
  | wrapE {env w c a o w1} : Ev I env w a o w1 → o.isVal = false → Ev I env w (.wrap c a) o w1
  | meth {env w m r a vr va o w1 w2} : Ev I env w r (.val vr) w1 → Ev I env w1 a (.val va) w2 →
      content I m vr va = some o → Ev I env w (.meth m r a) o w2
  | methR {env w m r a o w1} : Ev I env w r o w1 → o.isVal = false → Ev I env w (.meth m r a) o w1
  | methA {env w m r a vr o w1 w2} : Ev I env w r (.val vr) w1 → Ev I env w1 a o w2 → o.isVal = false →
      Ev I env w (.meth m r a) o w2
  | elseNone {env w r a env' b o w1 w2 w3} : Ev I env w r (.val .none') w1 →
      Ev I env w1 a (.val (.clo0 env' b)) w2 → Ev I env' w2 b o w3 →
      Ev I env w (.meth .unwrapOrElse r a) o.ofBody w3
  | elseErr {env w r a v env' x b o w1 w2 w3} : Ev I env w r (.val (.wrap .err v)) w1 →
      Ev I env w1 a (.val (.clo1 env' x b)) w2 → Ev I (upd env' x v) w2 b o w3 →
      Ev I env w (.meth .unwrapOrElse r a) o.ofBody w3
  | lam0 {env w b} : Ev I env w (.lam0 b) (.val (.clo0 env b)) w
  | lam1 {env w x b} : Ev I env w (.lam1 x b) (.val (.clo1 env x b)) w
  | app0 {env w f env' b o w1 w2} : Ev I env w f (.val (.clo0 env' b)) w1 → Ev I env' w1 b o w2 →
      Ev I env w (.app0 f) o.ofBody w2
  | app0E {env w f o w1} : Ev I env w f o w1 → o.isVal = false → Ev I env w (.app0 f) o w1
  | app1 {env w f a env' x b v o w1 w2 w3} : Ev I env w f (.val (.clo1 env' x b)) w1 →
      Ev I env w1 a (.val v) w2 → Ev I (upd env' x v) w2 b o w3 → Ev I env w (.app1 f a) o.ofBody w3
  | app1F {env w f a o w1} : Ev I env w f o w1 → o.isVal = false → Ev I env w (.app1 f a) o w1
  | app1A {env w f a vf o w1 w2} : Ev I env w f (.val vf) w1 → Ev I env w1 a o w2 → o.isVal = false →
      Ev I env w (.app1 f a) o w2
  | panic {env w a v w1} : Ev I env w a (.val v) w1 → Ev I env w (.panic a) .panic w1
  | panicE {env w a o w1} : Ev I env w a o w1 → o.isVal = false → Ev I env w (.panic a) o w1
  | dflt {env w} : Ev I env w .dflt (.val I.dflt) w
  | min {env w a b x y w1 w2} : Ev I env w a (.val (.int x)) w1 → Ev I env w1 b (.val (.int y)) w2 →
      Ev I env w (.min a b) (.val (.int (if x ≤ y then x else y))) w2
  | minL {env w a b o w1} : Ev I env w a o w1 → o.isVal = false → Ev I env w (.min a b) o w1
  | minR {env w a b va o w1 w2} : Ev I env w a (.val va) w1 → Ev I env w1 b o w2 → o.isVal = false →
      Ev I env w (.min a b) o w2
  | max {env w a b x y w1 w2} : Ev I env w a (.val (.int x)) w1 → Ev I env w1 b (.val (.int y)) w2 →
      Ev I env w (.max a b) (.val (.int (if x ≤ y then y else x))) w2
  | maxL {env w a b o w1} : Ev I env w a o w1 → o.isVal = false → Ev I env w (.max a b) o w1
  | maxR {env w a b va o w1 w2} : Ev I env w a (.val va) w1 → Ev I env w1 b o w2 → o.isVal = false →
      Ev I env w (.max a b) o w2

/-- Two expressions do the same, whatever the program around them is. -/
def Same (a b : E) : Prop := ∀ (I : Sem) env w o w', Ev I env w a o w' ↔ Ev I env w b o w'

/-- `|| … || b` with `n` closures. -/
def lams : Nat → E → E
  | 0, b => b
  | n + 1, b => .lam0 (lams n b)

/-- `f()…()` with `n` calls. -/
def apps : Nat → E → E
  | 0, f => f
  | n + 1, f => .app0 (apps n f)

/-- A `return` of this expression leaves the function around it. -/
def Leaves : E → Prop
  | .ret _ => True
  | .bin _ a b | .seq a b | .meth _ a b | .app1 a b | .min a b | .max a b => Leaves a ∨ Leaves b
  | .block e | .wrap _ e | .app0 e | .panic e => Leaves e
  | .int _ | .var _ | .opq _ | .none' | .unit | .lam0 _ | .lam1 .. | .dflt => False

/-- The expression only has a value: nothing else happens. -/
def Pure (e : E) : Prop :=
  ∀ (I : Sem) env w, ∃ v, ∀ o w', Ev I env w e o w' ↔ (o = .val v ∧ w' = w)

/-- The method exists for the variant. -/
def Exists : Meth → Option Ctor → Prop
  | .unwrapErr, c | .expectErr, c | .unwrapErrUnchecked, c => c = some .ok ∨ c = some .err
  | _, _ => True

/-- The method takes an argument. -/
def takesArg : Meth → Bool
  | .expect | .expectErr | .unwrapOr | .unwrapOrElse => true
  | _ => false

/-! ## Texts -/

open Sugg in
/-- The text with `s` written wherever the token `n` stands. -/
def put (n : Nat) (s : List Tok) (ts : List Tok) : List Tok :=
  ts.flatMap fun t => if t = .atom n then s else [t]

open Sugg in
/-- The expression with `e'` wherever the name `n` stands. -/
def graft (n : Nat) (e' : Expr) : Expr → Expr
  | .atom m => if m = n then e' else .atom m
  | .paren e => .paren (graft n e' e)
  | .un u e => .un u (graft n e' e)
  | .bin o l r => .bin o (graft n e' l) (graft n e' r)
  | .cast e t => .cast (graft n e' e) t
  | .lam k e => .lam k (graft n e' e)

end Verif.Redex
