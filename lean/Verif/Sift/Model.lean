import Verif.Sift.Spec

/-!
# Model: methods/unnecessary_filter_map.rs, methods/filter_map_bool_then.rs, methods/search_is_some.rs
-/

namespace Verif.Sift

/-- `|=` on both results of `check_expression` — unnecessary_filter_map.rs:38-39, 143-144, 152. -/
def orBoth (a b : Bool × Bool) : Bool × Bool := (a.1 || b.1, a.2 || b.2)

/-- `check_expression` — unnecessary_filter_map.rs:111-156: (found mapping, found filtering). The label of
a block is not looked at. The receiver of `then_some` is a `bool` here. -/
def classify : E → Bool × Bool
  | .none' => (false, true)
  | .some' a => if a = .param then (false, false) else (true, false)
  | .thenSome _ a => if a = .param then (false, true) else (true, true)
  | .seq _ b => classify b
  | .stmt _ => (false, false)
  | .lab _ e => classify e
  | .mtch _ arms => classify arms
  | .anil => (false, false)
  | .acons a rest => orBoth (classify a) (classify rest)
  | .ite _ a b => orBoth (classify a) (classify b)
  | _ => (true, true)

/-- The `return`s of the body — unnecessary_filter_map.rs:35-44: their operands are not searched, nor are
closures. -/
def returns : E → Bool × Bool
  | .ret e => classify e
  | .some' a => returns a
  | .thenSome c a => orBoth (returns c) (returns a)
  | .thenDo c _ => returns c
  | .ite c a b => orBoth (returns c) (orBoth (returns a) (returns b))
  | .mtch s a => orBoth (returns s) (returns a)
  | .acons a r => orBoth (returns a) (returns r)
  | .seq a b => orBoth (returns a) (returns b)
  | .stmt a => returns a
  | .lab _ e => returns e
  | .brk _ e => returns e
  | .set e => returns e
  | _ => (false, false)

/-- The parameter is used mutably — unnecessary_filter_map.rs:30. -/
def mutates : E → Bool
  | .set _ => true
  | .some' a => mutates a
  | .thenSome c a => mutates c || mutates a
  | .thenDo c b => mutates c || mutates b
  | .ite c a b => mutates c || (mutates a || mutates b)
  | .mtch s a => mutates s || mutates a
  | .acons a r => mutates a || mutates r
  | .seq a b => mutates a || mutates b
  | .stmt a => mutates a
  | .lab _ e => mutates e
  | .brk _ e => mutates e
  | .ret e => mutates e
  | _ => false

inductive Report
  /-- The call is unnecessary. -/
  | unneeded
  /-- `map(..)`, or `map(..).next()`. -/
  | map
  /-- `filter(..)`, or `find(..)`. -/
  | filter
  deriving DecidableEq, Repr

/-- The body is `Some` of a path — unnecessary_filter_map.rs:49-50. -/
def somePath : E → Bool
  | .some' .param => true
  | .some' (.path _) => true
  | _ => false

/-- `check` — unnecessary_filter_map.rs:16-87. `filterMap`: the method is `filter_map`, not `find_map`;
`movable`: no clone or copy of the parameter is needed, or its type is `Copy`; `sameType`: the closure
returns options of the type of the parameter. -/
def report (filterMap movable sameType : Bool) (body : E) : Option Report :=
  let found := orBoth (classify body) (returns body)
  if found.2 = false then
    if filterMap && somePath body then some .unneeded else some .map
  else if found.1 = false ∧ mutates body = false ∧ movable = true then
    if sameType then some .filter else none
  else none

/-- `contains_return` — clippy_utils/src/lib.rs:1116-1125: closures are not visited. -/
def containsReturn : E → Bool
  | .ret _ => true
  | .some' a => containsReturn a
  | .thenSome c a => containsReturn c || containsReturn a
  | .thenDo c _ => containsReturn c
  | .ite c a b => containsReturn c || (containsReturn a || containsReturn b)
  | .mtch s a => containsReturn s || containsReturn a
  | .acons a r => containsReturn a || containsReturn r
  | .seq a b => containsReturn a || containsReturn b
  | .stmt a => containsReturn a
  | .lab _ e => containsReturn e
  | .brk _ e => containsReturn e
  | .set e => containsReturn e
  | _ => false

/-- `check` and `can_filter_and_then_move_to_closure` — filter_map_bool_then.rs:16-74, 93-117: the
conditions of `filter` and the closure of `map`. `disjoint`: no variable other than the bindings of the
parameter is captured by both, once mutably (lines 103-116). Types and macros are left out. -/
def filterThenMap (disjoint : Bool) : E → Option (E × E)
  | .thenDo c b => if containsReturn c then none else if disjoint then some (c, b) else none
  | _ => none

/-- The suggestion of `search_is_some` — search_is_some.rs:29-100: the negation of `any`, for every search
method of methods/mod.rs:6052. -/
def negated (isSome : Bool) (_ : Search) : Bool := if isSome then false else true

end Verif.Sift
