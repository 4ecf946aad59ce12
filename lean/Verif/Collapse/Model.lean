import Verif.Collapse.Syntax

/-!
# Model: `collapsible_match`

`/repo/clippy_lints/src/matches/collapsible_match.rs`.  Not modelled: macros, the supported Rust version, reference
operators on the inner scrutinee, conditions that move or mutate variables of the pattern, blocks around the inner
expression.
-/

namespace Verif.Collapse

open Verif.Guard (Id Pat Pats Fields Val Code)

/-- The pattern of a wild-like arm. -/
def wildPat : Pat → Bool
  | .wild => true
  | .bind _ _ => true
  | .bindAt _ _ _ => true
  | .con c .nil => c == noneCon
  | _ => false

/-- `arm_is_wild_like`, `/repo/clippy_lints/src/matches/collapsible_match.rs:216-221`. -/
def wildLike (a : Arm) : Bool := a.guard.isEmpty && wildPat a.pat

/-- The same for the arms of the inner `match`. -/
def wildLikeInner (a : IArm) : Bool := a.guard.isNone && wildPat a.pat

/-- The parts of the inner expression: scrutinee, pattern, then and else,
`/repo/clippy_lints/src/matches/collapsible_match.rs:70-84`. -/
def parts : Body → Option (Scrut × Pat × Blk × Option Blk)
  | .ifLet q s t e => some (s, q, t, e)
  | .mtch s [a, b] =>
    if a.guard.isNone && b.guard.isNone then
      if wildLikeInner b then some (s, a.pat, a.body, some b.body)
      else if wildLikeInner a then some (s, b.pat, b.body, some a.body)
      else none
    else none
  | _ => none

/-- What `walk_short` does: it goes on, has found the binding, or stops at an or-pattern; the flag is
`is_innermost_parent_pat_struct`. -/
inductive Walk where
  | go (flag : Bool)
  | found (flag : Bool)
  | stop

/-- The next step, unless the walk is over. -/
def Walk.next (w : Walk) (f : Bool → Walk) : Walk :=
  match w with
  | .go flag => f flag
  | .found flag => .found flag
  | .stop => .stop

/-- One binding. -/
def visit (x y : Id) (flag : Bool) : Walk := if y = x then .found flag else .go flag

mutual
/-- `find_pat_binding_and_is_innermost_parent_pat_struct`, `/repo/clippy_lints/src/matches/collapsible_match.rs:223-242`:
the flag is set by every pattern that is not a binding. -/
def walk (x : Id) : Pat → Bool → Walk
  | .wild, _ => .go false
  | .bind _ y, flag => visit x y flag
  | .bindAt _ y p, flag => (visit x y flag).next (walk x p)
  | .lit _, _ => .go false
  | .con _ ps, _ => walkAll x ps false
  | .strct _ fs, _ => walkFields x fs true
  | .ref p, _ => walk x p false
  | .or _, _ => .stop
  | .slice ps, _ => walkAll x ps false
  | .front ps, _ => (walkAll x ps false).next fun _ => .go false
  | .back ps, _ => walkAll x ps false
/-- The same for rows. -/
def walkAll (x : Id) : Pats → Bool → Walk
  | .nil, flag => .go flag
  | .cons p ps, flag => (walk x p flag).next (walkAll x ps)
/-- The same for fields. -/
def walkFields (x : Id) : Fields → Bool → Walk
  | .nil, flag => .go flag
  | .short _ y fs, flag => (visit x y flag).next (walkFields x fs)
  | .named _ p fs, flag => (walk x p flag).next (walkFields x fs)
end

mutual
/-- The edit that the help text describes, `/repo/clippy_lints/src/matches/collapsible_match.rs:123-141`: the binding is
replaced by the pattern, with `x: ` before it if the flag is set.  `none`: this is no pattern. -/
def replace (x : Id) (q : Pat) (flag : Bool) : Pat → Option Pat
  | .wild => some .wild
  | .bind r y => if y = x then (if flag then none else some q) else some (.bind r y)
  | .bindAt r y p => if y = x then (if flag then none else some q) else (replace x q flag p).map (.bindAt r y)
  | .lit n => some (.lit n)
  | .con c ps => (replaceAll x q flag ps).map (.con c)
  | .strct c fs => (replaceFields x q flag fs).map (.strct c)
  | .ref p => (replace x q flag p).map .ref
  | .or ps => some (.or ps)
  | .slice ps => (replaceAll x q flag ps).map .slice
  | .front ps => (replaceAll x q flag ps).map .front
  | .back ps => (replaceAll x q flag ps).map .back
/-- The same for rows. -/
def replaceAll (x : Id) (q : Pat) (flag : Bool) : Pats → Option Pats
  | .nil => some .nil
  | .cons p ps => (replace x q flag p).bind fun p' => (replaceAll x q flag ps).map (.cons p')
/-- The same for fields; a bare pattern is not accepted as a field (a bare binding would be, and would mean another
field). -/
def replaceFields (x : Id) (q : Pat) (flag : Bool) : Fields → Option Fields
  | .nil => some .nil
  | .short r y fs =>
    if y = x then (if flag then (replaceFields x q flag fs).map (.named y q) else none)
    else (replaceFields x q flag fs).map (.short r y)
  | .named f p fs => (replace x q flag p).bind fun p' => (replaceFields x q flag fs).map (.named f p')
end

/-- `the "else" branches must be equal`, `/repo/clippy_lints/src/matches/collapsible_match.rs:95-100` and `147-151`. -/
def sameElse (outer : Option Body) (inner : Option Blk) : Bool :=
  match outer, inner with
  | none, none => true
  | none, some e => e == .unit
  | some (.blk e), none => e == .unit
  | some (.blk a), some b => a == b
  | some _, _ => false

/-- `is_local_used` for a block. -/
def usedBlk (x : Id) : Blk → Bool
  | .unit => false
  | .code c => c.uses.contains x

/-- `is_local_used` for an `else` that may be missing. -/
def usedOpt (x : Id) : Option Blk → Bool
  | none => false
  | some e => usedBlk x e

/-- The binding is used in the inner expression, `/repo/clippy_lints/src/matches/collapsible_match.rs:103-109`. -/
def usedInside (x : Id) : Body → Bool
  | .ifLet _ _ t e => usedBlk x t || usedOpt x e
  | .mtch _ arms => arms.any fun a => usedBlk x a.body
  | _ => false

/-- The result: nothing, a help text about the pattern (with the pattern it describes and the body that is left), or a
suggestion to add a guard. -/
inductive Res where
  | silent
  | help (p : Option Pat) (t : Blk)
  | guard (c : Code) (t : Blk)

/-- The second part of `check_arm`, `/repo/clippy_lints/src/matches/collapsible_match.rs:143-153`. -/
def checkIf (outerIsMatch : Bool) (body : Body) (els : Option Body) (onlyWild : Bool) : Res :=
  match body with
  | .ite c t e => if outerIsMatch && onlyWild && sameElse els e then .guard c t else .silent
  | _ => .silent

/-- The first part of `check_arm`, `/repo/clippy_lints/src/matches/collapsible_match.rs:69-113`, for an inner expression
on a variable. -/
def checkNest (p : Pat) (g : List Code) (body : Body) (els : Option Body) (x : Id) (q : Pat) (t : Blk) (e : Option Blk) :
    Option Res :=
  match walk x p false with
  | .found flag =>
    if sameElse els e && !(g.any fun c => c.uses.contains x) && !usedInside x body then
      some (.help (replace x q flag p) t)
    else none
  | _ => none

/-- `check_arm`, `/repo/clippy_lints/src/matches/collapsible_match.rs:57-212`. -/
def checkArm (outerIsMatch : Bool) (p : Pat) (g : List Code) (body : Body) (els : Option Body) (onlyWild : Bool) : Res :=
  match parts body with
  | some (.loc x, q, t, e) =>
    (checkNest p g body els x q t e).getD (checkIf outerIsMatch body els onlyWild)
  | _ => checkIf outerIsMatch body els onlyWild

/-- `rposition` -/
def lastIdx (f : Arm → Bool) : List Arm → Option Nat
  | [] => none
  | a :: as => match lastIdx f as with
    | some i => some (i + 1)
    | none => if f a then some 0 else none

/-- `rfind` -/
def lastArm (f : Arm → Bool) : List Arm → Option Arm
  | [] => none
  | a :: as => match lastArm f as with
    | some b => some b
    | none => if f a then some a else none

/-- `only_wildcards_after`, `/repo/clippy_lints/src/matches/collapsible_match.rs:25-27`. -/
def onlyWild (arms : List Arm) (idx : Nat) : Bool :=
  match lastIdx (fun a => !wildLike a) arms with
  | none => true
  | some l => decide (l ≤ idx)

/-- `check_match` for one arm, `/repo/clippy_lints/src/matches/collapsible_match.rs:23-42`. -/
def checkMatch (arms : List Arm) (idx : Nat) : Res :=
  match lastArm wildLike arms, arms[idx]? with
  | some els, some a => checkArm true a.pat a.guard a.body (some els.body) (onlyWild arms idx)
  | _, _ => .silent

/-- `check_if_let`, `/repo/clippy_lints/src/matches/collapsible_match.rs:44-54`. -/
def checkIfLet (p : Pat) (body : Body) (els : Option Body) : Res := checkArm false p [] body els false

/-- The arm that results. -/
def newArm (a : Arm) : Res → Option Arm
  | .silent => none
  | .help p t => p.map fun p => ⟨p, a.guard, .blk t⟩
  | .guard c t => some ⟨a.pat, a.guard ++ [c], .blk t⟩

end Verif.Collapse
