import Verif.Certain.Syntax

/-!
# Specification: the types an expression can have

Type inference chooses the type arguments nobody has written, and the types of numbers without suffix.  An expression
has every type some choice gives it.  Its type can be determined without its context if there is only one.
Coercions are not modelled.
-/

namespace Verif.Certain

/-- Types, operators and methods, as the language and the program define them. -/
structure Sig where
  /-- `<t as Trait>::p` -/
  assoc : Nat → Ty → Ty
  /-- The types of numbers. -/
  num : Ty → Prop
  un : Nat → Ty → Option Ty
  bin : Nat → Ty → Ty → Option Ty
  field : Ty → Nat → Option Ty
  index : Ty → Ty → Option Ty
  /-- Calling a value which is not a definition: a closure, a function pointer. -/
  apply : Ty → Option Ty
  /-- A value of the type can be the receiver of the method with these type arguments. -/
  recv : Ty → Nat → List Ty → Prop

mutual
/-- Type arguments for the parameters. -/
def inst (S : Sig) (σ : List Ty) : Sch → Ty
  | .var i => σ.getD i (.con (.other 0) [])
  | .con c ss => .con c (instAll S σ ss)
  | .proj p s => S.assoc p (inst S σ s)
/-- The same for a row of types. -/
def instAll (S : Sig) (σ : List Ty) : List Sch → List Ty
  | [] => []
  | s :: ss => inst S σ s :: instAll S σ ss
end

/-- What the segments of a path up to some point stand for: nothing yet, a module, or a type (or the type of a value). -/
inductive Ent where
  | start
  | modl
  | ty (t : Ty)

/-- The type arguments fit what is in front of the definition. -/
def Fits (D : Nat → Def) (S : Sig) (d : Nat) (σ : List Ty) : Ent → Prop
  | .ty t => (D d).parents = 0 ∨ t = inst S σ (D d).head
  | _ => True

/-- The type arguments that can be written behind the definition. -/
def covered (D : Nat → Def) (d : Nat) (σ : List Ty) : List Ty :=
  if (D d).variant then σ.take (D d).parents else σ.drop (D d).parents

mutual
/-- What a written type can stand for. -/
inductive Den (D : Nat → Def) (S : Sig) : HTy → Ty → Prop
  | infer {t} : Den D S .infer t
  | path {s segs x t} (hs : DenStart D S s x) (h : DenSegs D S segs x (.ty t)) : Den D S (.path s segs) t
  | app {c hs ts} (h : DenAll D S hs ts) : Den D S (.app c hs) (.con c ts)
/-- The same for the front of a path. -/
inductive DenStart (D : Nat → Def) (S : Sig) : Start → Ent → Prop
  | none : DenStart D S .none .start
  | ty {h t} (hd : Den D S h t) : DenStart D S (.ty h) (.ty t)
/-- What the segments lead to. -/
inductive DenSegs (D : Nat → Def) (S : Sig) : Segs → Ent → Ent → Prop
  | nil {x} : DenSegs D S .nil x x
  | modl {rest x y} (h : DenSegs D S rest .modl y) : DenSegs D S (.modl rest) x y
  | fixed {t rest x y} (h : DenSegs D S rest (.ty t) y) : DenSegs D S (.fixed t rest) x y
  | unknown {z rest x y} (h : DenSegs D S rest z y) : DenSegs D S (.unknown rest) x y
  | defn {err d args rest x y} (σ : List Ty) (hl : σ.length = (D d).parents + (D d).own) (hf : Fits D S d σ x)
      (ha : DenArgs D S args (covered D d σ)) (h : DenSegs D S rest (.ty (inst S σ (D d).out)) y) :
      DenSegs D S (.defn err d args rest) x y
/-- Type arguments: those nobody has written are free. -/
inductive DenArgs (D : Nat → Def) (S : Sig) : Args → List Ty → Prop
  | absent {ts} : DenArgs D S .absent ts
  | noTypes {ts} : DenArgs D S (.given .nil) ts
  | given {hs ts} (h : DenAll D S hs ts) : DenArgs D S (.given hs) ts
/-- Rows of types. -/
inductive DenAll (D : Nat → Def) (S : Sig) : HTys → List Ty → Prop
  | nil : DenAll D S .nil []
  | cons {h hs t ts} (hd : Den D S h t) (hds : DenAll D S hs ts) : DenAll D S (.cons h hs) (t :: ts)
end

/-- `let x: ann`. -/
inductive Ann (D : Nat → Def) (S : Sig) : Start → Ty → Prop
  | none {t} : Ann D S .none t
  | ty {h t} (hd : Den D S h t) : Ann D S (.ty h) t

mutual
/-- The types an expression can have. -/
inductive HasTy (D : Nat → Def) (S : Sig) : Ex → Ty → Prop
  | un {op e t u} (h : HasTy D S e t) (ho : S.un op t = some u) : HasTy D S (.un op e) u
  | field {e f t u} (h : HasTy D S e t) (ho : S.field t f = some u) : HasTy D S (.field e f) u
  | idx {a i t v u} (ha : HasTy D S a t) (hi : HasTy D S i v) (ho : S.index t v = some u) : HasTy D S (.idx a i) u
  | addr {e t} (h : HasTy D S e t) : HasTy D S (.addr e) (.con .ref [t])
  | arr {es ts t} (h : HasTys D S es ts) (hall : ∀ u ∈ ts, u = t) : HasTy D S (.arr es) (.con .array [t])
  | callFn {d f es σ} (hl : σ.length = (D d).parents + (D d).own) (hf : HasTy D S f (.con (.fnDef d) σ))
      (hes : HasTys D S es (instAll S σ (D d).inputs)) : HasTy D S (.call (some d) f es) (inst S σ (D d).output)
  | callVal {f es t u} (hf : HasTy D S f t) (ho : S.apply t = some u) : HasTy D S (.call none f es) u
  | method {r d args es t σ} (hl : σ.length = (D d).parents + (D d).own) (hr : HasTy D S r t) (hv : S.recv t d σ)
      (ha : DenArgs D S args (σ.drop (D d).parents)) (hes : HasTys D S es (instAll S σ (D d).inputs.tail)) :
      HasTy D S (.method r d args es) (inst S σ (D d).output)
  | tup {es ts} (h : HasTys D S es ts) : HasTy D S (.tup es) (.con .tuple ts)
  | bin {op l r t u v} (hl : HasTy D S l t) (hr : HasTy D S r u) (ho : S.bin op t u = some v) :
      HasTy D S (.bin op l r) v
  | num {t} (h : S.num t) : HasTy D S .num t
  | lit {t} : HasTy D S (.lit t) t
  | cast {e h t} (hd : Den D S h t) : HasTy D S (.cast e h) t
  | ifElse {c t e u} (ht : HasTy D S t u) (he : HasTy D S e u) : HasTy D S (.ifElse c t e) u
  | loc {ann init t} (ha : Ann D S ann t) (hi : HasInit D S init t) : HasTy D S (.loc ann init) t
  | param {ann t} (ha : Ann D S ann t) : HasTy D S (.param ann) t
  | path {s segs t} (h : Den D S (.path s segs) t) : HasTy D S (.path s segs) t
  | strct {s segs t} (h : Den D S (.path s segs) t) : HasTy D S (.strct s segs) t
  | other {t} : HasTy D S .other t
/-- The initial value has the type of the variable. -/
inductive HasInit (D : Nat → Def) (S : Sig) : Init → Ty → Prop
  | none {t} : HasInit D S .none t
  | some {e t} (h : HasTy D S e t) : HasInit D S (.some e) t
/-- Rows of expressions. -/
inductive HasTys (D : Nat → Def) (S : Sig) : Exs → List Ty → Prop
  | nil : HasTys D S .nil []
  | cons {e es t ts} (h : HasTy D S e t) (hs : HasTys D S es ts) : HasTys D S (.cons e es) (t :: ts)
end

/-- There is at most one. -/
def Uniq {α : Type} (P : α → Prop) : Prop := ∀ x y, P x → P y → x = y

/-- The parameter can be read off the type: it occurs outside of `<.. as Trait>::p`. -/
inductive Occurs (i : Nat) : Sch → Prop
  | var : Occurs i (.var i)
  | con {c s ss} (hm : s ∈ ss) (h : Occurs i s) : Occurs i (.con c ss)

/-- The parameter is written somewhere in the type. -/
inductive Appears (i : Nat) : Sch → Prop
  | var : Appears i (.var i)
  | con {c s ss} (hm : s ∈ ss) (h : Appears i s) : Appears i (.con c ss)
  | proj {p s} (h : Appears i s) : Appears i (.proj p s)

/-- What Rust demands of definitions and methods: the parameters of an `impl` and of an `enum` occur in its type, a
variant has no parameters of its own; the receiver of a method fixes the parameters in the type of `self`, and `self`
has the type of the `impl`. -/
structure Lawful (D : Nat → Def) (S : Sig) : Prop where
  head : ∀ d i, i < (D d).parents → Occurs i (D d).head
  variant : ∀ d, (D d).variant = true → (D d).own = 0
  recv : ∀ t d σ σ' i s, S.recv t d σ → S.recv t d σ' → (D d).inputs.head? = some s → Occurs i s → σ[i]? = σ'[i]?
  self : ∀ t d σ i, S.recv t d σ → (D d).inherent = true → i < (D d).parents →
    ∃ s, (D d).inputs.head? = some s ∧ Occurs i s

/-- Parameters which appear in the types of the arguments can be read off them. -/
def ReadOff (D : Nat → Def) (d : Nat) : Prop :=
  ∀ i, (∃ s ∈ (D d).inputs, Appears i s) → ∃ s ∈ (D d).inputs, Occurs i s

/-- What the path up to the definition and the definition itself lead to. -/
def Next (D : Nat → Def) (S : Sig) (P : Ent → Prop) (d : Nat) (args : Args) (y : Ent) : Prop :=
  ∃ x σ, P x ∧ σ.length = (D d).parents + (D d).own ∧ Fits D S d σ x ∧ DenArgs D S args (covered D d σ) ∧
    y = .ty (inst S σ (D d).out)

/-- What is asked of a segment, with the meanings of the path in front of it:
* a definition left to the type checker has no type parameters of its own;
* a variant or constructor (of a type with parameters) is not named through a module;
* if there are arguments, there are types among them, unless there is nothing to choose;
* arguments behind a function say nothing about its `impl`: that has no parameters, or the path in front of the function
  has only one meaning. -/
structure SegOk (D : Nat → Def) (P : Ent → Prop) (err : Bool) (d : Nat) (args : Args) : Prop where
  own : err = true → (D d).own = 0
  modl : (D d).parents ≠ 0 → ¬ P .modl
  types : args = .given .nil → (if (D d).variant then (D d).parents else (D d).own) = 0
  parents : args ≠ .absent → (D d).variant = true ∨ (D d).parents = 0 ∨ (Uniq P ∧ ¬ P .start)

mutual
/-- All paths in a type are as above. -/
inductive FineTy (D : Nat → Def) (S : Sig) : HTy → Prop
  | infer : FineTy D S .infer
  | path {s segs} (hs : FineStart D S s) (h : FineSegs D S (DenStart D S s) segs) : FineTy D S (.path s segs)
  | app {c hs} (h : FineTys D S hs) : FineTy D S (.app c hs)
/-- The front of a path. -/
inductive FineStart (D : Nat → Def) (S : Sig) : Start → Prop
  | none : FineStart D S .none
  | ty {h} (hf : FineTy D S h) : FineStart D S (.ty h)
/-- The segments. -/
inductive FineSegs (D : Nat → Def) (S : Sig) : (Ent → Prop) → Segs → Prop
  | nil {P} : FineSegs D S P .nil
  | modl {P rest} (h : FineSegs D S (fun x => x = .modl) rest) : FineSegs D S P (.modl rest)
  | fixed {P t rest} (h : FineSegs D S (fun x => x = .ty t) rest) : FineSegs D S P (.fixed t rest)
  | unknown {P rest} (h : FineSegs D S (fun _ => True) rest) : FineSegs D S P (.unknown rest)
  | defn {P err d args rest} (ha : FineArgs D S args) (hok : SegOk D P err d args)
      (h : FineSegs D S (Next D S P d args) rest) : FineSegs D S P (.defn err d args rest)
/-- Type arguments. -/
inductive FineArgs (D : Nat → Def) (S : Sig) : Args → Prop
  | absent : FineArgs D S .absent
  | given {hs} (h : FineTys D S hs) : FineArgs D S (.given hs)
/-- Rows of types. -/
inductive FineTys (D : Nat → Def) (S : Sig) : HTys → Prop
  | nil : FineTys D S .nil
  | cons {h hs} (hf : FineTy D S h) (hfs : FineTys D S hs) : FineTys D S (.cons h hs)
end

mutual
/-- Besides the paths:
* no number without suffix inside of the arguments of a call (`inArg`), unless the callee has only one type;
* the parameters of the called function can be read off the types of the arguments;
* a method of an `impl` has no type parameters of its own;
* an operator with one operand of a single type has both of a single type, or its result has a single type;
* an index has a single type, or the element has. -/
inductive Fine (D : Nat → Def) (S : Sig) : Bool → Ex → Prop
  | un {b op e} (h : Fine D S b e) : Fine D S b (.un op e)
  | field {b e f} (h : Fine D S b e) : Fine D S b (.field e f)
  | idx {b a i} (h : Fine D S b a) (hi : Uniq (HasTy D S i) ∨ Uniq (HasTy D S (.idx a i))) : Fine D S b (.idx a i)
  | addr {b e} (h : Fine D S b e) : Fine D S b (.addr e)
  | arr {b es} (h : Fines D S b es) : Fine D S b (.arr es)
  | callee {b d f es} (h : Uniq (HasTy D S f)) : Fine D S b (.call d f es)
  | call {b d f es} (hf : Fine D S false f) (h : Fines D S true es) (hd : ∀ k, d = some k → ReadOff D k) :
      Fine D S b (.call d f es)
  | inherent {b r d args es} (hr : Fine D S false r) (hi : (D d).inherent = true) (ho : (D d).own = 0) :
      Fine D S b (.method r d args es)
  | method {b r d args es} (hr : Fine D S false r) (h : Fines D S true es) (hi : (D d).inherent = false)
      (hd : ReadOff D d) : Fine D S b (.method r d args es)
  | tup {b es} (h : Fines D S b es) : Fine D S b (.tup es)
  | bin {b op l r} (hl : Fine D S b l) (hr : Fine D S b r)
      (ho : (Uniq (HasTy D S l) ↔ Uniq (HasTy D S r)) ∨ Uniq (HasTy D S (.bin op l r))) : Fine D S b (.bin op l r)
  | num : Fine D S false .num
  | lit {b t} : Fine D S b (.lit t)
  | cast {b e h} (hf : FineTy D S h) : Fine D S b (.cast e h)
  | ifElse {b c t e} (ht : Fine D S b t) (he : Fine D S b e) : Fine D S b (.ifElse c t e)
  | loc {b ann init} (ha : FineStart D S ann) (hi : FineInit D S init) : Fine D S b (.loc ann init)
  | param {b ann} (ha : FineStart D S ann) : Fine D S b (.param ann)
  | path {b s segs} (h : FineTy D S (.path s segs)) : Fine D S b (.path s segs)
  | strct {b s segs} (h : FineTy D S (.path s segs)) : Fine D S b (.strct s segs)
  | other {b} : Fine D S b .other
/-- Initial values. -/
inductive FineInit (D : Nat → Def) (S : Sig) : Init → Prop
  | none : FineInit D S .none
  | some {e} (h : Fine D S false e) : FineInit D S (.some e)
/-- Rows of expressions. -/
inductive Fines (D : Nat → Def) (S : Sig) : Bool → Exs → Prop
  | nil {b} : Fines D S b .nil
  | cons {b e es} (h : Fine D S b e) (hs : Fines D S b es) : Fines D S b (.cons e es)
end

end Verif.Certain
