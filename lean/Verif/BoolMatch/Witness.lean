import Verif.BoolMatch.Props

/-!
# Concrete matches
-/

namespace Verif.BoolMatch.Witness
open Needless (Pat Pats Val Env matchPat)

/-- `scrut 0` is the value, guard 0 is false, all others are true. -/
def demo (v : Val) : Sem where
  W := Nat
  scrut _ w := (v, w)
  const k := .ctor k []
  other _ _ := true
  item _ _ := .unit
  block _ w := (.unit, w)
  guard g _ w := (g != 0, w + 1)
  fields _ _ := none
  other' _ _ w := (true, w)

theorem paths (v : Val) : Paths (demo v) := ⟨rfl, rfl⟩

def ρ : Env := fun _ => .unit

instance (v : Val) (k : Nat) : OfNat (demo v).W k := inferInstanceAs (OfNat Nat k)

def someWild : Pat := .ctor 1 (.cons .wild .nil)

def some3 : Val := .ctor 1 [.int 3]

theorem some3_type : OfType .some some3 := .inl ⟨_, rfl, rfl⟩

/-- `match &x { Some(_) if g => true, _ => false }` is `x.is_some() && g`. -/
def arms : List BArm := [⟨someWild, some 0, .lit true⟩, ⟨.wild, none, .lit false⟩]

theorem taken (v u : Val) : Taken (demo u) ρ arms v := ⟨⟨.wild, none, .lit false⟩, by simp [arms], rfl, by
  simp [matchPat]⟩

/-- The hypotheses of `match_same_partial` are met. -/
example : checkMatch (fun _ => false) (.addrOf 0) arms = some ⟨.plain 0, .some, some 0⟩ ∧
    runMatch (demo some3) (.addrOf 0) ρ arms 5 = some (false, 6) := by
  refine ⟨rfl, (match_same_partial (paths _) (hasLet := fun _ => false) (e := ⟨.plain 0, .some, some 0⟩)
    rfl (.inl ⟨_, rfl, rfl⟩) (fun v _ => taken v _) ?_).trans rfl⟩
  intro a ha
  simp [arms] at ha
  subst ha
  exact .inr rfl

/-- The hypotheses of `let_same` are met: `if let &Some(..) = &x`. -/
example : checkLet false (.addrOf 0) (.ref (.rest 1)) = some ⟨.plain 0, .some, none⟩ ∧
    runLet (demo some3) (.addrOf 0) (.ref (.rest 1)) 5 = (true, 5) := by
  exact ⟨rfl, (let_same (paths _) (S := demo some3) (s := .addrOf 0) (p := .ref (.rest 1)) (w := 5) (ρ := ρ)
    (next := false) (e := ⟨.plain 0, .some, none⟩) rfl
    (.inl ⟨_, rfl, rfl⟩) trivial (fun _ _ => trivial)).trans rfl⟩

def facts : Facts := ⟨fun _ => false, fun _ => false, false, fun _ => false⟩

/-- `match x { 1 => false, Some(4) => false, _ => true }` -/
def like : Option Macro :=
  checkLike facts (.plain 0) ⟨.lit (.int 1), none, .lit false⟩
    [⟨.ctor 1 (.cons (.lit (.int 4)) .nil), none, .blk false⟩] ⟨.wild, none, .lit true⟩

/-- The hypotheses of `like_same` are met. -/
example : runMatch (demo some3) (.plain 0) ρ ([⟨.lit (.int 1), none, .lit false⟩,
      ⟨.ctor 1 (.cons (.lit (.int 4)) .nil), none, .blk false⟩] ++ [⟨.wild, none, .lit true⟩]) 5 =
    some (true, 5) := by
  refine (like_same (fa := facts) (first := ⟨.lit (.int 1), none, .lit false⟩)
    (middle := [⟨.ctor 1 (.cons (.lit (.int 4)) .nil), none, .blk false⟩]) (last := ⟨.wild, none, .lit true⟩)
    (e := ⟨.plain 0, true, [.lit (.int 1), .ctor 1 (.cons (.lit (.int 4)) .nil)], none⟩)
    (by rfl) ⟨⟨.wild, none, .lit true⟩, by simp, rfl, by simp [matchPat]⟩ (fun n h => by cases h)
    (fun h => absurd rfl h)).trans ?_
  simp [runMacro, firstOf, scrutVal, demo, some3, matchPat, Needless.matchPats, Needless.strip, Needless.eqv,
    Needless.Lit.val]

/-- The hypotheses of `like_if_same` are met. -/
example : runMatch (demo some3) (.plain 0) ρ [⟨.path 0, none, .lit true⟩, ⟨.wild, none, .blk false⟩] 5 =
    some (runMacro (demo some3) ⟨.plain 0, false, [.path 0], none⟩ ρ 5) :=
  like_if_same (fa := facts) (m := ⟨.plain 0, false, [.path 0], none⟩) rfl (fun n h => by cases h)
    (fun h => absurd rfl h)

/-- `match x { Some(_) if g => false, _ => true }` becomes `x.is_none()`: the guard is lost. -/
theorem guard_dropped :
    checkMatch (fun _ => false) (.plain 0) [⟨someWild, some 0, .lit false⟩, ⟨.wild, none, .lit true⟩] =
      some ⟨.plain 0, .none, none⟩ ∧
    runMatch (demo some3) (.plain 0) ρ [⟨someWild, some 0, .lit false⟩, ⟨.wild, none, .lit true⟩] 5 =
      some (true, 6) ∧
    runCall (demo some3) ⟨.plain 0, .none, none⟩ ρ 5 = (false, 5) :=
  ⟨rfl, rfl, rfl⟩

end Verif.BoolMatch.Witness
