import Verif.Ctrl.Collapse

/-!
# Conditions: how they are read and what they do

Rust's rules for `&&`, `||` and parentheses: both operators group to the left and `&&` binds
tighter.  `Atom`, `Conj`, `Disj` say what texts are conditions; `readDisj` reads a text.
-/

namespace Verif.Ctrl.Collapse

mutual

/-- A condition without operators outside parentheses. -/
inductive Atom : List Tok → BE → Prop where
  | atom (n : Nat) : Atom [.atom n] (.atom n)
  | paren {s : List Tok} {t : BE} : Disj s t → Atom (.lp :: s ++ [.rp]) t

/-- Conditions joined by `&&`. -/
inductive Conj : List Tok → BE → Prop where
  | one {s : List Tok} {t : BE} : Atom s t → Conj s t
  | and {s s' : List Tok} {t t' : BE} : Conj s t → Atom s' t' → Conj (s ++ .and :: s') (.and t t')

/-- Conditions joined by `||`. -/
inductive Disj : List Tok → BE → Prop where
  | one {s : List Tok} {t : BE} : Conj s t → Disj s t
  | or {s s' : List Tok} {t t' : BE} : Disj s t → Conj s' t' → Disj (s ++ .or :: s') (.or t t')

end

mutual

/-- Read one condition. -/
def readAtom : Nat → List Tok → Option (BE × List Tok)
  | _ + 1, .atom n :: r => some (.atom n, r)
  | f + 1, .lp :: r =>
    match readDisj f r with
    | some (t, .rp :: r') => some (t, r')
    | _ => none
  | _, _ => none

/-- Read conditions joined by `&&`. -/
def readConj : Nat → List Tok → Option (BE × List Tok)
  | f + 1, s => (readAtom f s).bind fun r => moreConj f r.1 r.2
  | 0, _ => none

/-- Go on as long as there is `&&`. -/
def moreConj : Nat → BE → List Tok → Option (BE × List Tok)
  | f + 1, t, .and :: r => (readAtom f r).bind fun q => moreConj f (.and t q.1) q.2
  | _ + 1, t, r => some (t, r)
  | 0, _, _ => none

/-- Read conditions joined by `||`. -/
def readDisj : Nat → List Tok → Option (BE × List Tok)
  | f + 1, s => (readConj f s).bind fun r => moreDisj f r.1 r.2
  | 0, _ => none

/-- Go on as long as there is `||`. -/
def moreDisj : Nat → BE → List Tok → Option (BE × List Tok)
  | f + 1, t, .or :: r => (readConj f r).bind fun q => moreDisj f (.or t q.1) q.2
  | _ + 1, t, r => some (t, r)
  | 0, _, _ => none

end

/-- What the text is, if it is a condition. -/
def Reads (s : List Tok) (t : BE) : Prop := ∃ N, ∀ f ≥ N, readDisj f s = some (t, [])

variable {W X : Type}

/-- What a condition does: it may change the state, and it is true, false or left. -/
def BE.run (c : Nat → W → Except X Bool × W) : BE → W → Except X Bool × W
  | .atom n, w => c n w
  | .and a b, w =>
    match a.run c w with
    | (.ok true, w') => b.run c w'
    | r => r
  | .or a b, w =>
    match a.run c w with
    | (.ok false, w') => b.run c w'
    | r => r

/-- What `if a { if b { … } }` does before the inner block is reached: `b` runs when `a` is true,
and the block is reached when `b` is true. -/
def nested (c : Nat → W → Except X Bool × W) (a b : BE) (w : W) : Except X Bool × W :=
  match a.run c w with
  | (.ok true, w') => b.run c w'
  | (.ok false, w') => (.ok false, w')
  | (.error x, w') => (.error x, w')

end Verif.Ctrl.Collapse
