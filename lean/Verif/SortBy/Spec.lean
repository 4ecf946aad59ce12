/-!
# Specification: what it means to sort by a comparison or by a key

Expressions of comparison closures with the variables of their two parameters, patterns that bind these
variables, and the question "is this element less than that one?" as `sort_by`, `sort_by_key` and `sort`
ask it. Expressions may have effects; two calls sort in the same way if every such question has the same
answer and the same effects.
-/

namespace Verif.SortBy

/-- A segment of a path: its name and its generic arguments (`0`: none). -/
structure Seg where
  name : Nat
  gen : Nat
  deriving DecidableEq, Repr

/-- Expressions and lists of expressions. -/
inductive Ex
  | lit (n : Nat)
  /-- A variable, constant, function, … -/
  | path (segs : List Seg)
  | call (f args : Ex)
  | meth (m : Seg) (recv args : Ex)
  | tup (es : Ex)
  | arr (es : Ex)
  | bin (op : Nat) (l r : Ex)
  | un (op : Nat) (e : Ex)
  | cast (e : Ex) (ty : Nat)
  | field (e : Ex) (f : Nat)
  /-- `&e`, or `&raw const e`. -/
  | bor (raw : Bool) (e : Ex)
  /-- `&mut e`. -/
  | borMut (e : Ex)
  /-- Blocks, closures, macros, … -/
  | other (n : Nat)
  | nil
  | cons (e es : Ex)
  deriving DecidableEq, Repr

/-- Patterns and lists of patterns. -/
inductive Pat
  | wild
  | bind (x : Nat)
  /-- `x @ p`. -/
  | sub (x : Nat) (p : Pat)
  /-- `(p, .., q)`: `dots` is the place of `..`. -/
  | tup (dots : Option Nat) (ps : Pat)
  | tstruct (path : Nat) (dots : Option Nat) (ps : Pat)
  | struct (path : Nat) (rest : Bool) (fs : Pat)
  /-- A field of a structure: `f: p`. -/
  | field (f : Nat) (p : Pat)
  | ref (p : Pat)
  /-- `[p, .., q]`: the parts before and after the middle; `mid`: the middle is written. -/
  | slice (front : Pat) (mid : Bool) (back : Pat)
  | other (n : Nat)
  | nil
  | cons (p ps : Pat)
  deriving DecidableEq, Repr

/-- The number of patterns in a list. -/
def Pat.count : Pat → Nat
  | .cons _ ps => ps.count + 1
  | _ => 0

/-- The names that a pattern binds. -/
def Pat.names : Pat → List Nat
  | .bind x => [x]
  | .sub x p => x :: p.names
  | .tup _ ps => ps.names
  | .tstruct _ _ ps => ps.names
  | .struct _ _ fs => fs.names
  | .field _ p => p.names
  | .ref p => p.names
  | .slice a _ b => a.names ++ b.names
  | .cons p ps => p.names ++ ps.names
  | _ => []

/-- There is no `x @ p` in the pattern. -/
def Pat.noSub : Pat → Bool
  | .sub _ _ => false
  | .tup _ ps => ps.noSub
  | .tstruct _ _ ps => ps.noSub
  | .struct _ _ fs => fs.noSub
  | .field _ p => p.noSub
  | .ref p => p.noSub
  | .slice a _ b => a.noSub && b.noSub
  | .cons p ps => p.noSub && ps.noSub
  | _ => true

/-- Values, the state of the world, and everything that an expression may do. A comparison looks through
references. -/
structure Sem where
  V : Type
  W : Type
  lit : Nat → V
  item : List Seg → W → V
  call : V → V → W → V × W
  meth : Seg → V → V → W → V × W
  tup : V → V
  arr : V → V
  /-- `&&` and `||`: the result, if the right side is not needed. -/
  skip : Nat → V → Option V
  bin : Nat → V → V → W → V × W
  un : Nat → V → W → V × W
  cast : Nat → V → V
  field : Nat → V → V
  ref : V → V
  raw : V → V
  refMut : V → W → V × W
  other : Nat → List (Nat × V) → W → V × W
  nil : V
  cons : V → V → V
  /-- A component of a tuple (or tuple structure), for a pattern with `dots` and so many parts. -/
  part : Option Nat → Nat → Nat → V → V
  front : Nat → V → V
  back : Nat → Nat → V → V
  deref : V → V
  cmp : V → V → W → Ordering × W
  cmp_ref : ∀ a b, cmp (ref a) b = cmp a b
  ref_cmp : ∀ a b, cmp a (ref b) = cmp a b
  cmp_deref : ∀ a b, cmp (deref a) b = cmp a b
  deref_cmp : ∀ a b, cmp a (deref b) = cmp a b

/-- The variables that a pattern binds and their values. The function gives the elements for a list of
patterns; a single pattern is matched with the first one. -/
def binds (I : Sem) : Pat → (Nat → I.V) → List (Nat × I.V)
  | .bind x, c => [(x, c 0)]
  | .sub x p, c => (x, c 0) :: binds I p c
  | .tup d ps, c => binds I ps (fun i => I.part d ps.count i (c 0))
  | .tstruct _ d ps, c => binds I ps (fun i => I.part d ps.count i (c 0))
  | .struct _ _ fs, c => binds I fs (fun _ => c 0)
  | .field f p, c => binds I p (fun _ => I.field f (c 0))
  | .ref p, c => binds I p (fun _ => I.deref (c 0))
  | .slice a _ b, c =>
      binds I a (fun i => I.front i (c 0)) ++ binds I b (fun i => I.back b.count i (c 0))
  | .cons p ps, c => binds I p (fun _ => c 0) ++ binds I ps (fun i => c (i + 1))
  | _, _ => []

/-- The variables of a parameter. -/
def param (I : Sem) (p : Pat) (v : I.V) : List (Nat × I.V) := binds I p (fun _ => v)

/-- The value of a variable. -/
def look {V : Type} : List (Nat × V) → Nat → Option V
  | [], _ => none
  | (y, v) :: l, x => if x = y then some v else look l x

/-- The value of a path: a variable of the closure, or something from outside. -/
def evalPath (I : Sem) (env : List (Nat × I.V)) (segs : List Seg) (w : I.W) : I.V :=
  match segs with
  | [s] => (look env s.name).getD (I.item segs w)
  | _ => I.item segs w

/-- The value of an expression, and its effects. -/
def eval (I : Sem) (env : List (Nat × I.V)) : Ex → I.W → I.V × I.W
  | .lit n, w => (I.lit n, w)
  | .path s, w => (evalPath I env s w, w)
  | .call f a, w =>
      let r1 := eval I env f w
      let r2 := eval I env a r1.2
      I.call r1.1 r2.1 r2.2
  | .meth m r a, w =>
      let r1 := eval I env r w
      let r2 := eval I env a r1.2
      I.meth m r1.1 r2.1 r2.2
  | .tup es, w => let r := eval I env es w; (I.tup r.1, r.2)
  | .arr es, w => let r := eval I env es w; (I.arr r.1, r.2)
  | .bin op a b, w =>
      let r1 := eval I env a w
      match I.skip op r1.1 with
      | some v => (v, r1.2)
      | none => let r2 := eval I env b r1.2; I.bin op r1.1 r2.1 r2.2
  | .un op e, w => let r := eval I env e w; I.un op r.1 r.2
  | .cast e t, w => let r := eval I env e w; (I.cast t r.1, r.2)
  | .field e f, w => let r := eval I env e w; (I.field f r.1, r.2)
  | .bor false e, w => let r := eval I env e w; (I.ref r.1, r.2)
  | .bor true e, w => let r := eval I env e w; (I.raw r.1, r.2)
  | .borMut e, w => let r := eval I env e w; I.refMut r.1 r.2
  | .other n, w => I.other n env w
  | .nil, w => (I.nil, w)
  | .cons e es, w =>
      let r1 := eval I env e w
      let r2 := eval I env es r1.2
      (I.cons r1.1 r2.1, r2.2)

/-- How a slice is sorted. -/
inductive How
  /-- `sort_by(|p, q| l.cmp(r))`. -/
  | by (p q : Pat) (l r : Ex)
  /-- `sort_by_key(|p| e)`; `star`: `*e`. -/
  | key (p : Pat) (e : Ex) (star : Bool)
  /-- `sort_by_key(|p| Reverse(e))`. -/
  | rev (p : Pat) (e : Ex)
  /-- `sort()`. -/
  | plain

/-- The key of an element. -/
def keyOf (I : Sem) (p : Pat) (e : Ex) (star : Bool) (a : I.V) (w : I.W) : I.V × I.W :=
  let r := eval I (param I p a) e w
  (if star then I.deref r.1 else r.1, r.2)

/-- "Is `a` less than `b`?", as it is asked while the slice is sorted: the answer and the effects. -/
def less (I : Sem) : How → I.V → I.V → I.W → Bool × I.W
  | .by p q l r, a, b, w =>
      let env := param I p a ++ param I q b
      let r1 := eval I env l w
      let r2 := eval I env r r1.2
      let o := I.cmp r1.1 r2.1 r2.2
      (o.1 == .lt, o.2)
  | .key p e s, a, b, w =>
      let r1 := keyOf I p e s a w
      let r2 := keyOf I p e s b r1.2
      let o := I.cmp r1.1 r2.1 r2.2
      (o.1 == .lt, o.2)
  | .rev p e, a, b, w =>
      let r1 := keyOf I p e false a w
      let r2 := keyOf I p e false b r1.2
      let o := I.cmp r2.1 r1.1 r2.2
      (o.1 == .lt, o.2)
  | .plain, a, b, w =>
      let o := I.cmp a b w
      (o.1 == .lt, o.2)

/-- Both ways of sorting have the same result and the same effects, whatever algorithm is used: every
question has the same answer. -/
def SameSort (I : Sem) (h g : How) : Prop :=
  ∀ (α : Type) (algorithm : (I.V → I.V → I.W → Bool × I.W) → α),
    algorithm (less I h) = algorithm (less I g)

/-- Expressions have no effects, and their values do not depend on the world. -/
def Pure (I : Sem) : Prop := ∀ env e w, (eval I env e w).2 = w

/-! ## What two sides of a comparison have in common -/

/-- An expression without the outer `&`. -/
def bare : Ex → Ex
  | .bor false e => bare e
  | e => e

/-- The skeleton of an expression: names, literals and operators are dropped; what stays are the kinds
of the expressions, the numbers of arguments and segments, generic arguments, the types of casts, and
borrows. -/
def skel : Ex → Ex
  | .lit _ => .lit 0
  | .path s => .path (s.map fun x => ⟨0, x.gen⟩)
  | .call f a => .call (skel f) (skel a)
  | .meth m r a => .meth ⟨0, m.gen⟩ (skel r) (skel a)
  | .tup es => .tup (skel es)
  | .arr es => .arr (skel es)
  | .bin _ l r => .bin 0 (skel l) (skel r)
  | .un _ e => .un 0 (skel e)
  | .cast e t => .cast (skel e) t
  | .field e _ => .field (skel e) 0
  | .bor k e => .bor k (skel e)
  | .borMut e => .borMut (skel e)
  | .other _ => .other 0
  | .nil => .nil
  | .cons e es => .cons (skel e) (skel es)

/-- A name is replaced by another one in a path with one segment. -/
def renPath (x y : Nat) : List Seg → List Seg
  | [s] => if s.name = x then [⟨y, s.gen⟩] else [s]
  | s => s

/-- A variable is replaced by another one. -/
def ren (x y : Nat) : Ex → Ex
  | .path s => .path (renPath x y s)
  | .call f a => .call (ren x y f) (ren x y a)
  | .meth m r a => .meth m (ren x y r) (ren x y a)
  | .tup es => .tup (ren x y es)
  | .arr es => .arr (ren x y es)
  | .bin o l r => .bin o (ren x y l) (ren x y r)
  | .un o e => .un o (ren x y e)
  | .cast e t => .cast (ren x y e) t
  | .field e f => .field (ren x y e) f
  | .bor k e => .bor k (ren x y e)
  | .borMut e => .borMut (ren x y e)
  | .cons e es => .cons (ren x y e) (ren x y es)
  | e => e

/-- The variable, alone, or a path in which neither of the two names occurs. -/
def okPath (x y : Nat) (s : List Seg) : Bool :=
  (s.length == 1 && s.all (fun a => a.name == x)) || s.all (fun a => a.name != x && a.name != y)

/-- A simple expression of the variable `x`: calls, operators, literals, fields, casts, … and neither `y` nor
`&mut`, blocks or closures. -/
def simple (x y : Nat) : Ex → Bool
  | .lit _ => true
  | .path s => okPath x y s
  | .call f a => simple x y f && simple x y a
  | .meth _ r a => simple x y r && simple x y a
  | .tup es => simple x y es
  | .arr es => simple x y es
  | .bin _ l r => simple x y l && simple x y r
  | .un _ e => simple x y e
  | .cast e _ => simple x y e
  | .field e _ => simple x y e
  | .bor _ e => simple x y e
  | .borMut _ => false
  | .other _ => false
  | .nil => true
  | .cons e es => simple x y e && simple x y es

/-! ## The methods of slices -/

/-- The methods that sort. -/
inductive Method
  | sort | sortUnstable | sortBy | sortUnstableBy | sortByKey | sortUnstableByKey
  deriving DecidableEq, Repr

/-- The method keeps the order of equal elements. -/
def Method.stable : Method → Bool
  | .sort => true
  | .sortBy => true
  | .sortByKey => true
  | _ => false

end Verif.SortBy
