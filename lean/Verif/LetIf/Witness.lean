import Verif.LetIf.Props
import Verif.LateInit.Witness

/-!
# Witnesses for `useless_let_if_seq`

A machine that records the code that runs and the drops.
-/

namespace Verif.LetIf

open LateInit

/-- All types are without interior mutability. -/
def facts : Facts := ⟨fun _ => true⟩

/-- A machine: `500 + i` is a condition that selects branch `i`, other code has its number as value; everything is
recorded. -/
def demo2 (ord : Id → Bool) : Sys (List Nat) where
  exec c st w := if c.k ≥ 500 then (st, w ++ [c.k], some (c.k - 500)) else if c.k < 10 then (st, w, some c.k)
    else (st, w ++ [c.k], some c.k)
  drop x _ w := if ord x then w ++ [1000 + x] else w

theorem demo2_sound (ord : Id → Bool) : Sound (demo2 ord) ord where
  frame c x o st w _ := by
    simp only [demo2]
    split
    · rfl
    · split <;> rfl
  drop x v w h := by simp [demo2, h]

/-- What the statements record. -/
def trace (ord : Id → Bool) (l : List Item) : List Nat := (runBlock (demo2 ord) ⟨l, none⟩ (fun _ => none) []).2.1

/-- `let x = f(); if g() { x = 5; }` -/
def lost : Seq := ⟨0, some (code 20), code 500, ⟨.unit, [.assign 0 (code 5)], none⟩, .none⟩

/-- **The initialiser is not evaluated any more**: with `let x = if g() { 5 } else { f() };`, `f` is not called when the
condition holds. -/
theorem init_lost : check facts lost = some (.letChoice [0] (code 500) [⟨[], none, [code 5]⟩, ⟨[], none, [code 20]⟩]) ∧
    trace (fun _ => false) [lost.decl, lost.cond_] = [20, 500] ∧
    trace (fun _ => false) [.letChoice [0] (code 500) [⟨[], none, [code 5]⟩, ⟨[], none, [code 20]⟩]] = [500] :=
  ⟨rfl, rfl, rfl⟩

/-- The same with a condition that does not hold. -/
def reordered : Seq := ⟨0, some (code 20), code 501, ⟨.unit, [.assign 0 (code 5)], none⟩, .none⟩

/-- **The initialiser is evaluated after the condition.** -/
theorem init_reordered :
    check facts reordered = some (.letChoice [0] (code 501) [⟨[], none, [code 5]⟩, ⟨[], none, [code 20]⟩]) ∧
    trace (fun _ => false) [reordered.decl, reordered.cond_] = [20, 501] ∧
    trace (fun _ => false) [.letChoice [0] (code 501) [⟨[], none, [code 5]⟩, ⟨[], none, [code 20]⟩]] = [501, 20] :=
  ⟨rfl, rfl, rfl⟩

/-- `let x = Guard; if g() { x = Guard; }` with constants. -/
def dropped : Seq := ⟨0, some (code 1), code 500, ⟨.unit, [.assign 0 (code 5)], none⟩, .none⟩

/-- **The first value is not dropped any more.** -/
theorem drop_lost : check facts dropped = some (.letChoice [0] (code 500) [⟨[], none, [code 5]⟩, ⟨[], none, [code 1]⟩]) ∧
    trace (fun x => x == 0) [dropped.decl, dropped.cond_] = [500, 1000, 1000] ∧
    trace (fun x => x == 0) [.letChoice [0] (code 500) [⟨[], none, [code 5]⟩, ⟨[], none, [code 1]⟩]] = [500, 1000] :=
  ⟨rfl, rfl, rfl⟩

/-- **The `else` branch may use the variable**: `let x = 1; if g() { x = 5; } else { x += 1; }` becomes `let x = if g() { 5
} else { ..; 1 };`, where the placeholder stands for `x += 1`. -/
theorem else_uses : ∃ new, check facts ⟨0, some (code 1), code 501, ⟨.unit, [.assign 0 (code 5)], none⟩,
      .block ⟨.unit, [.expr ⟨[0], 6⟩], none⟩⟩ = some new ∧ 0 ∈ new.mentions := ⟨_, rfl, by decide⟩

/-- **The value of the `else` branch may use the variable**: `let x = 1; if g() { x = 5; } else { x = x + 1; }` becomes `let
x = if g() { 5 } else { x + 1 };`. -/
theorem else_value_uses : check facts ⟨0, some (code 1), code 501, ⟨.unit, [.assign 0 (code 5)], none⟩,
      .block ⟨.unit, [.assign 0 ⟨[0], 6⟩], none⟩⟩ =
    some (.letChoice [0] (code 501) [⟨[], none, [code 5]⟩, ⟨[], none, [⟨[0], 6⟩]⟩]) := rfl

/-- `let x = 1; if g() { f(); x = h(); } else { k(); }` -/
def fine : Seq := ⟨0, some (code 1), code 500, ⟨.unit, [.expr (code 30), .assign 0 (code 40)], none⟩,
  .block ⟨.unit, [.expr (code 50)], none⟩⟩

/-- `let_if_partial` is not vacuous. -/
example (pre rest : List Item) (tail : Option Item) (st : Store) (w : List Nat) :
    Same [0] (runBlock (demo2 fun _ => false) ⟨pre ++ fine.decl :: fine.cond_ :: rest, tail⟩ st w)
      (runBlock (demo2 fun _ => false)
        ⟨pre ++ .letChoice [0] (code 500) [⟨[.expr (code 30)], none, [code 40]⟩, ⟨[.expr (code 50)], none, [code 1]⟩] :: rest,
          tail⟩ st w) :=
  let_if_partial (demo2_sound _) (fa := facts) (s := fine) rfl
    (fun d hd => by cases hd; exact ⟨1, fun _ _ => rfl⟩) rfl (.inl (by decide)) (by decide) pre rest tail st w

/-- The lint is silent if the other statements use the variable. -/
example : check facts ⟨0, some (code 1), code 500, ⟨.unit, [.expr ⟨[0], 3⟩, .assign 0 (code 4)], none⟩, .none⟩ = none := rfl

end Verif.LetIf
