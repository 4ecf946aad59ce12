import Verif.SortBy.Spec

/-!
# Model: methods/unnecessary_sort_by.rs
-/

namespace Verif.SortBy

/-- `BindingSource` — clippy_lints/src/methods/unnecessary_sort_by.rs:134-138. -/
inductive Source
  | left
  | right
  deriving DecidableEq, Repr

/-- The two entries that are inserted for a pair of bindings —
clippy_lints/src/methods/unnecessary_sort_by.rs:151-164, 184-203. -/
structure Pair where
  l : Nat
  r : Nat
  refs : Nat
  deriving DecidableEq, Repr

/-- `BindingMap` — clippy_lints/src/methods/unnecessary_sort_by.rs:167: the newest pair first, which hides
older entries for the same key. -/
abbrev Map := List Pair

/-- `binding_map.get(&BindingKey { ident, source })`, the mirrored identifier —
clippy_lints/src/methods/unnecessary_sort_by.rs:112-117. -/
def get (m : Map) (x : Nat) : Source → Option Nat
  | .left => (m.find? (fun p => p.l = x)).map Pair.r
  | .right => (m.find? (fun p => p.r = x)).map Pair.l

/-- `.map_or(0, |value| value.n_refs)` — clippy_lints/src/methods/unnecessary_sort_by.rs:300-305. -/
def refsOf (m : Map) (x : Nat) : Nat := ((m.find? (fun p => p.l = x)).map Pair.refs).getD 0

/-- `binding_map.contains_key` for either source — clippy_lints/src/methods/unnecessary_sort_by.rs:101-109. -/
def bound (m : Map) (x : Nat) : Bool := (get m x .left).isSome || (get m x .right).isSome

/-- `iter::zip(left_segments, right_segments).all(|(left, right)| left.ident == right.ident)` —
clippy_lints/src/methods/unnecessary_sort_by.rs:100. -/
def sameNames : List Seg → List Seg → Bool
  | a :: s, b :: t => a.name == b.name && sameNames s t
  | _, _ => true

/-- `left_segments.len() == 1 && right_segments.len() == 1 && binding_map.get(…)…` —
clippy_lints/src/methods/unnecessary_sort_by.rs:110-117. -/
def partners (m : Map) (src : Source) : List Seg → List Seg → Bool
  | [a], [b] => get m a.name src == some b.name
  | _, _ => false

/-- Two paths — clippy_lints/src/methods/unnecessary_sort_by.rs:83-118. -/
def mirroredPath (m : Map) (src : Source) (s t : List Seg) : Bool :=
  (sameNames s t && s.all (fun x => !bound m x.name)) || partners m src s t

/-- `mirrored_exprs` — clippy_lints/src/methods/unnecessary_sort_by.rs:33-132. The lists of arguments, of
elements and of components are compared as far as both reach (`iter::zip`). `DropTemps` is left out. -/
def mirrored (m : Map) (src : Source) (a b : Ex) : Bool :=
  match a, b with
  | .nil, _ => true
  | .cons x xs, .cons y ys => mirrored m src x y && mirrored m src xs ys
  | .cons _ _, .nil => true
  | .cons _ _, _ => false
  | .arr x, .arr y => mirrored m src x y
  | .call f x, .call g y => mirrored m src f g && mirrored m src x y
  | .meth s r x, .meth t q y => s.name == t.name && mirrored m src x y && mirrored m src r q
  | .tup x, .tup y => mirrored m src x y
  | .bin o x1 x2, .bin p y1 y2 => o == p && mirrored m src x1 y1 && mirrored m src x2 y2
  | .un o x, .un p y => o == p && mirrored m src x y
  | .lit n, .lit k => n == k
  | .cast x _, .cast y _ => mirrored m src x y
  | .field x f, .field y g => f == g && mirrored m src x y
  | .path s, .path t => mirroredPath m src s t
  | .bor k x, .bor j y => k == j && mirrored m src x y
  | x, .bor _ y => mirrored m src x y
  | .bor _ x, y => mirrored m src x y
  | _, _ => false
termination_by sizeOf a + sizeOf b

/-- `mapping_of_mirrored_pats_inner` — clippy_lints/src/methods/unnecessary_sort_by.rs:171-233. `none`: the
patterns are not mirrored. The pattern behind `@` is not looked at. -/
def pairs : Nat → Pat → Pat → Map → Option Map
  | n, .tup d ps, .tup e qs, m => if d = e ∧ ps.count = qs.count then pairs n ps qs m else none
  | n, .bind x, .bind y, m => some (⟨x, y, n⟩ :: m)
  | n, .bind x, .sub y _, m => some (⟨x, y, n⟩ :: m)
  | n, .sub x _, .bind y, m => some (⟨x, y, n⟩ :: m)
  | n, .sub x _, .sub y _, m => some (⟨x, y, n⟩ :: m)
  | _, .wild, .wild, m => some m
  | n, .tstruct _ d ps, .tstruct _ e qs, m =>
      if d = e ∧ ps.count = qs.count then pairs n ps qs m else none
  | n, .struct _ d ps, .struct _ e qs, m =>
      if d = e ∧ ps.count = qs.count then pairs n ps qs m else none
  | n, .field f p, .field g q, m => if f = g then pairs n p q m else none
  | n, .ref p, .ref q, m => pairs (n + 1) p q m
  | n, .slice a false b, .slice c false d, m =>
      if a.count = c.count ∧ b.count = d.count then
        match pairs n a c m with
        | some m1 => pairs n b d m1
        | none => none
      else none
  | _, .nil, .nil, m => some m
  | n, .cons p ps, .cons q qs, m =>
      match pairs n p q m with
      | some m1 => pairs n ps qs m1
      | none => none
  | _, _, _, _ => none

/-- `mapping_of_mirrored_pats` — clippy_lints/src/methods/unnecessary_sort_by.rs:170-241. -/
def mapping (p q : Pat) : Option Map := pairs 0 p q []

/-- What the types say: `implements_trait(…, Ord)` (line 294), `is_copy` of the type of a name with so many
references peeled (lines 308-311), `expr_borrows` (lines 327, 344-346), `is_copy` (line 329) —
clippy_lints/src/methods/unnecessary_sort_by.rs. -/
structure Tys where
  ord : Ex → Bool
  copyAt : Ex → Nat → Bool
  borrows : Ex → Bool
  copy : Ex → Bool

/-- `expr_is_field_access` — clippy_lints/src/methods/unnecessary_sort_by.rs:348-354. -/
def isField : Ex → Bool
  | .field _ _ => true
  | .bor _ e => isField e
  | _ => false

/-- `LintTrigger` with the suggested closure — clippy_lints/src/methods/unnecessary_sort_by.rs:19-29, 382-394:
the way to sort and whether the suggestion is machine-applicable. -/
structure Trigger where
  how : How
  machine : Bool

/-- The right side without the borrow for `cmp` — clippy_lints/src/methods/unnecessary_sort_by.rs:268-272. -/
def peelOne : Ex → Ex
  | .bor _ e => e
  | .borMut e => e
  | e => e

/-- The key and whether the order is reversed — clippy_lints/src/methods/unnecessary_sort_by.rs:261-276. -/
def keyBody (m : Map) (l r : Ex) : Option (Ex × Bool) :=
  if mirrored m .left l r then some (l, false)
  else if mirrored m .right l r then some (peelOne r, true)
  else none

/-- The name, if the expression is a single name — clippy_lints/src/methods/unnecessary_sort_by.rs:284-290. -/
def singleName : Ex → Option Nat
  | .path [s] => some s.name
  | _ => none

/-- The name that the pattern binds first — clippy_lints/src/methods/unnecessary_sort_by.rs:292. -/
def bindingName : Pat → Option Nat
  | .bind x => some x
  | .sub x _ => some x
  | _ => none

/-- `is_copy` for a name: a reference is peeled off if the pattern does not —
clippy_lints/src/methods/unnecessary_sort_by.rs:299-311. -/
def copyName (t : Tys) (m : Map) (l : Ex) (x : Nat) : Bool := t.copyAt l (if refsOf m x = 0 then 1 else 0)

/-- The end of `detect_lint` — clippy_lints/src/methods/unnecessary_sort_by.rs:326-338. -/
def general (t : Tys) (p : Pat) (l body : Ex) (rev : Bool) : Option Trigger :=
  if !t.borrows l && (!isField l || t.copy l) then
    some ⟨if rev then .rev p body else .key p body false, !rev⟩
  else none

/-- `detect_lint` — clippy_lints/src/methods/unnecessary_sort_by.rs:243-342, for a closure with the parameters
`p` and `q` and the body `l.cmp(r)`, where `cmp` is the one of `Ord`. -/
def detect (t : Tys) (p q : Pat) (l r : Ex) : Option Trigger :=
  match mapping p q with
  | none => none
  | some m =>
    match keyBody m l r with
    | none => none
    | some (body, rev) =>
      match singleName l with
      | none => general t p l body rev
      | some x =>
        if bindingName p = some x ∧ t.ord l = true then some ⟨.plain, true⟩
        else if rev = false ∧ copyName t m l x = true then
          some ⟨.key p body (refsOf m x == 0), true⟩
        else general t p l body rev

/-- The suggested method — clippy_lints/src/methods/unnecessary_sort_by.rs:365-369, 399. -/
def method (unstable : Bool) : How → Method
  | .plain => if unstable then .sortUnstable else .sort
  | _ => if unstable then .sortUnstableByKey else .sortByKey

end Verif.SortBy
