import Verif.BoolMatch.Syntax

/-!
# Model: `redundant_pattern_matching` and `match_like_matches_macro`

`/repo/clippy_lints/src/matches/redundant_pattern_match.rs` and `match_like_matches.rs` next to it.
-/

namespace Verif.BoolMatch
open Needless (Pat Pats)

/-- The variant of a constructor; `is_pat_variant`,
`/repo/clippy_lints/src/matches/redundant_pattern_match.rs:469-495`. -/
def ctorVariant : Nat → Option Variant
  | 1 => some .some
  | 2 => some .ok
  | 3 => some .err
  | 4 => some .ready
  | 6 => some .v4
  | 7 => some .v6
  | _ => none

/-- The variant of a path. -/
def pathVariant (k : Nat) : Option Variant :=
  if k = Needless.noneK then some .none else if k = pendingK then some .pending else none

/-- `[pattern]` with `PatKind::Wild`. -/
def oneWild : Pats → Bool
  | .cons .wild .nil => true
  | _ => false

/-- The variant a pattern is for. -/
def patVariant : Pat → Option Variant
  | .ctor c _ => ctorVariant c
  | .path k => pathVariant k
  | _ => none

/-- `ExprKind::Lit` with `LitKind::Bool`. -/
def litOf : Body → Option Bool
  | .lit b => some b
  | _ => none

/-- The literals in `find_good_method_for_match`,
`/repo/clippy_lints/src/matches/redundant_pattern_match.rs:523-530`. -/
def byLits (l r : Variant) (bl br : Body) (g0 g1 : Option Nat) : Option (Variant × Option Nat) :=
  match litOf bl, litOf br with
  | some true, some false => some (l, g0)
  | some false, some true => some (r, g1)
  | _, _ => none

/-- `find_good_method_for_match`, `/repo/clippy_lints/src/matches/redundant_pattern_match.rs:498-531`. -/
def forMatch (a b : BArm) (l r : Variant) : Option (Variant × Option Nat) :=
  if patVariant a.pat = some l ∧ patVariant b.pat = some r then byLits l r a.body b.body a.guard b.guard
  else if patVariant a.pat = some r ∧ patVariant b.pat = some l then
    byLits l r b.body a.body a.guard b.guard
  else none

/-- The two methods in `get_good_method`,
`/repo/clippy_lints/src/matches/redundant_pattern_match.rs:449-459`. -/
def otherVariant : Variant → Variant
  | .ok => .err
  | .err => .ok
  | .some => .none
  | .none => .some
  | .ready => .pending
  | .pending => .ready
  | .v4 => .v6
  | .v6 => .v4

/-- `get_good_method`, `/repo/clippy_lints/src/matches/redundant_pattern_match.rs:442-461`, with
`find_good_method_for_matches_macro`, `:533-557`. -/
def goodMethod (a b : BArm) : Option (Variant × Option Nat) :=
  (patVariant a.pat).bind fun x => byLits x (otherVariant x) a.body b.body a.guard b.guard

/-- `found_good_method`, `/repo/clippy_lints/src/matches/redundant_pattern_match.rs:340-430`. -/
def foundGood (a b : BArm) : Option (Variant × Option Nat) :=
  match a.pat, b.pat with
  | .ctor _ ps, .ctor _ qs =>
    if oneWild ps && oneWild qs then (forMatch a b .ok .err).or (forMatch a b .v4 .v6) else none
  | .ctor _ ps, .path _ =>
    if oneWild ps then (forMatch a b .some .none).or (forMatch a b .ready .pending) else none
  | .path _, .ctor _ qs =>
    if oneWild qs then (forMatch a b .some .none).or (forMatch a b .ready .pending) else none
  | .ctor _ ps, .wild => if oneWild ps then goodMethod a b else none
  | .path _, .wild => goodMethod a b
  | _, _ => none

/-- `AddrOf` is removed, `/repo/clippy_lints/src/matches/redundant_pattern_match.rs:305-308`. -/
def stripAddr : Scrut → Scrut
  | .addrOf n => .plain n
  | s => s

/-- `has_nested_let_chain`, `/repo/clippy_lints/src/matches/redundant_pattern_match.rs:275-289`. -/
def guardHasLet (hasLet : Nat → Bool) : Option Nat → Bool
  | some g => hasLet g
  | none => false

/-- `check_match`, `/repo/clippy_lints/src/matches/redundant_pattern_match.rs:271-324`.  `hasLet`: the
guard contains `let`. -/
def checkMatch (hasLet : Nat → Bool) (s : Scrut) : List BArm → Option Call
  | [a, b] =>
    match foundGood a b with
    | some (x, g) =>
      if guardHasLet hasLet g then none else some ⟨stripAddr s, x, g⟩
    | none => none
  | _ => none

/-- The first pattern is `_`. -/
def firstWild : Pats → Bool
  | .cons .wild _ => true
  | _ => false

/-- `find_method_and_type`, `/repo/clippy_lints/src/matches/redundant_pattern_match.rs:118-174`. -/
def findMethod : LetPat → Option Variant
  | .plain (.ctor c ps) => if firstWild ps then ctorVariant c else none
  | .plain (.path k) => pathVariant k
  | .rest c => ctorVariant c
  | _ => none

/-- `&p`, `/repo/clippy_lints/src/matches/redundant_pattern_match.rs:187-190`. -/
def peelRef : LetPat → LetPat
  | .ref p => p
  | p => p

/-- `AddrOf` and `*` are removed, `/repo/clippy_lints/src/matches/redundant_pattern_match.rs:231-235`. -/
def stripBoth : Scrut → Scrut
  | .addrOf n => .plain n
  | .deref n => .plain n
  | .plain n => .plain n

/-- `find_method_sugg_for_if_let`, `/repo/clippy_lints/src/matches/redundant_pattern_match.rs:176-269`:
the condition `let p = s`.  `nextCall`: `while let` on an iterator's `next()`. -/
def checkLet (nextCall : Bool) (s : Scrut) (p : LetPat) : Option Call :=
  match findMethod (peelRef p) with
  | some x => if nextCall then none else some ⟨stripBoth s, x, none⟩
  | none => none

/-- `find_bool_lit`, `/repo/clippy_lints/src/matches/match_like_matches.rs:202-226`. -/
def boolLit : Body → Option Bool
  | .lit b => some b
  | .blk b => some b
  | .other _ => none

/-- `is_wild`. -/
def isWild : Pat → Bool
  | .wild => true
  | _ => false

/-- `is_some_wild`, `/repo/clippy_lints/src/matches/match_like_matches.rs:229-237`. -/
def isSomeWild : Pat → Bool
  | .ctor c ps => c == Needless.someC && firstWild ps
  | _ => false

/-- What the compiler says. -/
structure Facts where
  /-- `has_let_expr`. -/
  hasLet : Nat → Bool
  /-- The arm has attributes. -/
  attrs : BArm → Bool
  /-- `redundant_pattern_matching` is allowed. -/
  allowed : Bool
  /-- The type of the expression is a reference. -/
  isRef : Nat → Bool

/-- `AddrOf` of a reference is removed, `/repo/clippy_lints/src/matches/match_like_matches.rs:172-178`. -/
def stripRef (fa : Facts) : Scrut → Scrut
  | .addrOf n => if fa.isRef n then .plain n else .addrOf n
  | s => s

/-- The two cases, `/repo/clippy_lints/src/matches/match_like_matches.rs:79-140`. -/
def armsOk (fa : Facts) (first : BArm) (middle : List BArm) (b0 : Bool) : Bool :=
  (middle.isEmpty && (match first.guard with | none => true | some g => !fa.hasLet g)) ||
  (first :: middle).all fun a => !fa.attrs a && a.guard.isNone && boolLit a.body == some b0

/-- `check_match`, `/repo/clippy_lints/src/matches/match_like_matches.rs:66-199`: `first`, `middle` and
`last` are the arms. -/
def checkLike (fa : Facts) (s : Scrut) (first : BArm) (middle : List BArm) (last : BArm) :
    Option Macro :=
  match boolLit first.body, boolLit last.body with
  | some b0, some b1 =>
    if b0 != b1 && armsOk fa first middle b0 && isWild last.pat &&
        !(!fa.allowed && (first :: middle).any fun a => isSomeWild a.pat) then
      some ⟨stripRef fa s, !b0, (first :: middle).map (·.pat), first.guard⟩
    else none
  | _, _ => none

/-- `check_if_let`, `/repo/clippy_lints/src/matches/match_like_matches.rs:17-64`: `if let p = s { t } else
{ e }`. -/
def checkLikeIf (fa : Facts) (s : Scrut) (p : Pat) (t e : Body) : Option Macro :=
  match boolLit t, boolLit e with
  | some b0, some b1 =>
    if b0 != b1 && !(!fa.allowed && isSomeWild p) then some ⟨stripRef fa s, !b0, [p], none⟩ else none
  | _, _ => none

end Verif.BoolMatch
