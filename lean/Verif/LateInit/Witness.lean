import Verif.LateInit.Props

/-!
# Witnesses for `needless_late_init`

A machine that records what happens: code `0` leaves the block, other code has its number as value; a drop of variable
`x` is recorded as `1000 + x`.
-/

namespace Verif.LateInit

/-- The machine. -/
def demo (ord : Id → Bool) : Sys (List Nat) where
  exec c st w := if c.k = 0 then (st, w, none) else (st, w ++ [c.k], some c.k)
  drop x _ w := if ord x then w ++ [1000 + x] else w

theorem demo_sound (ord : Id → Bool) : Sound (demo ord) ord where
  frame c x o st w _ := by
    simp only [demo]
    split <;> rfl
  drop x v w h := by simp [demo, h]

/-- Variables 0 and 1 have an ordered drop. -/
def twoOrdered : Facts := ⟨fun x => x < 2, fun _ => false, true⟩

/-- Code without variables. -/
def code (k : Nat) : Code := ⟨[], k⟩

/-- `match .. { .. => x = k, .. => x = l }` -/
def both (x k l : Nat) : Item :=
  .choice (code 1) [⟨.unit, [], some (.assign x (code k))⟩, ⟨.unit, [.assign x (code l)], none⟩]

/-- `let x = match .. { .. => k, .. => { l } };` -/
def bothNew (x k l : Nat) : Item :=
  .letChoice [x] (code 1) [⟨[], none, [code k]⟩, ⟨[], none, [code l]⟩]

/-- What is left of the world. -/
def world (fa : Facts) (b : Block) : List Nat := (runBlock (demo fa.ordered) b (fun _ => none) []).2.1

/-- **The order of drops is not checked for the expression at the end**: `let x; let y = Guard; if .. { x = Guard; } else
{ x = Guard; }` drops `y` before `x`, and `x` before `y` after the change. -/
theorem tail_drop_order :
    check twoOrdered ⟨[.simple (.decl 0), .simple (.init 1 false (code 7))], some (both 0 8 9)⟩ .tail =
      some (some ⟨[.simple (.init 1 false (code 7)), bothNew 0 8 9], none⟩) ∧
    world twoOrdered ⟨[.simple (.decl 0), .simple (.init 1 false (code 7))], some (both 0 8 9)⟩ = [7, 1, 9, 1001, 1000] ∧
    world twoOrdered ⟨[.simple (.init 1 false (code 7)), bothNew 0 8 9], none⟩ = [7, 1, 9, 1000, 1001] :=
  ⟨rfl, rfl, rfl⟩

/-- **Bindings with subpatterns are not checked**: `let x; let y @ _ = Guard; x = Guard;`. -/
theorem sub_drop_order :
    check twoOrdered ⟨[.simple (.decl 0), .simple (.init 1 true (code 7)), .simple (.assign 0 (code 8))], none⟩ (.stmt 2) =
      some (some ⟨[.simple (.init 1 true (code 7)), .simple (.init 0 false (code 8))], none⟩) ∧
    world twoOrdered ⟨[.simple (.decl 0), .simple (.init 1 true (code 7)), .simple (.assign 0 (code 8))], none⟩ =
      [7, 8, 1001, 1000] ∧
    world twoOrdered ⟨[.simple (.init 1 true (code 7)), .simple (.init 0 false (code 8))], none⟩ = [7, 8, 1000, 1001] :=
  ⟨rfl, rfl, rfl⟩

/-- Without a subpattern the lint is silent. -/
theorem sub_drop_order_plain :
    check twoOrdered ⟨[.simple (.decl 0), .simple (.init 1 false (code 7)), .simple (.assign 0 (code 8))], none⟩ (.stmt 2) =
      none := rfl

/-- **An assignment at the end of a block**: `{ let x; x = 1 }` becomes `{ let x = 1 }`, without a semicolon. -/
theorem no_semicolon (fa : Facts) :
    check fa ⟨[.simple (.decl 0)], some (.simple (.assign 0 (code 1)))⟩ .tail = some none := by
  have h : declaredFor fa ⟨[.simple (.decl 0)], some (.simple (.assign 0 (code 1)))⟩ .tail 0 = true := rfl
  simp only [check, Block.at, newItem, groupOk, List.length_singleton, Nat.le_refl, decide_true, Bool.true_or,
    Bool.true_and, List.all_cons, h, List.all_nil, Bool.and_self, if_true, rewrite]

/-- **Branches that are left may use the variable**: `match .. { .. => { x = 8; use(x); return }, .. => x = 9 }`; after
the change the variable is used in its own declaration. -/
theorem used_before_declared :
    ∃ new, check twoOrdered ⟨[.simple (.decl 0), .choice (code 1)
        [⟨.never, [.assign 0 (code 8), .expr ⟨[0], 5⟩], some (.expr (code 0))⟩,
         ⟨.unit, [.assign 0 (code 9)], none⟩]], none⟩ (.stmt 1) = some (some ⟨[new], none⟩) ∧
      0 ∈ new.top ∧ 0 ∈ new.mentions := by
  refine ⟨_, rfl, ?_, ?_⟩ <;> decide

/-- **A usage in a `let` is skipped for the end of the block**: `let x; let y = { .. x = 1; return x; .. }; match .. { ..
=> x = 8, .. => x = 9 }`; after the change the variable is used before it is declared. -/
theorem used_in_let :
    check twoOrdered ⟨[.simple (.decl 0), .simple (.init 3 false ⟨[0], 7⟩)], some (both 0 8 9)⟩ .tail =
      some (some ⟨[.simple (.init 3 false ⟨[0], 7⟩), bothNew 0 8 9], none⟩) ∧
    0 ∈ (Item.simple (.init 3 false ⟨[0], 7⟩)).mentions := ⟨rfl, by decide⟩

/-- `{ let y = Guard; x = Guard; z = return; }` for all branches. -/
def leaves : List Branch := [⟨.unit, [.init 1 false (code 7), .assign 0 (code 8), .assign 3 (code 0)], none⟩]

/-- **Several variables**: if the second value leaves the block, the first one is dropped before the variables of the
branch after the change, not after them. -/
theorem group_drop_order :
    check twoOrdered ⟨[.simple (.decl 0), .simple (.decl 3), .choice (code 1) (leaves ++ leaves)], none⟩ (.stmt 2) =
      some (some ⟨[.letChoice [0, 3] (code 1) [⟨[.init 1 false (code 7)], none, [code 8, code 0]⟩,
        ⟨[.init 1 false (code 7)], none, [code 8, code 0]⟩]], none⟩) ∧
    world twoOrdered ⟨[.simple (.decl 0), .simple (.decl 3), .choice (code 1) (leaves ++ leaves)], none⟩ =
      [1, 7, 8, 1001, 1000] ∧
    world twoOrdered ⟨[.letChoice [0, 3] (code 1) [⟨[.init 1 false (code 7)], none, [code 8, code 0]⟩,
        ⟨[.init 1 false (code 7)], none, [code 8, code 0]⟩]], none⟩ = [1, 7, 8, 1000, 1001] :=
  ⟨rfl, rfl, rfl⟩

/-- `let y = Guard; let x; f(); match .. { .. => return, .. => { g(); x = Guard } }; h(x)` -/
def good : Block :=
  ⟨[.simple (.init 1 false (code 7)), .simple (.decl 0), .simple (.expr (code 6)),
    .choice (code 1) [⟨.never, [], some (.expr (code 0))⟩, ⟨.unit, [.expr (code 5)], some (.assign 0 (code 9))⟩]],
   some (.simple (.expr ⟨[0], 4⟩))⟩

/-- The same with `let x = match .. ;`. -/
def goodNew : Block :=
  ⟨[.simple (.init 1 false (code 7)), .simple (.expr (code 6)),
    .letChoice [0] (code 1) [⟨[], some (.expr (code 0)), []⟩, ⟨[.expr (code 5)], none, [code 9]⟩]],
   some (.simple (.expr ⟨[0], 4⟩))⟩

theorem good_moved {x : Id} (h : Moved good goodNew x) : x = 0 := by
  have := h.1
  simpa [good] using this

/-- `late_init_partial` is not vacuous: the hypotheses hold for a block with a drop, a branch that is left and an
expression at the end, whatever the store is. -/
example (st : Store) (w : List Nat) (h0 : st 0 = none) :
    check twoOrdered good (.stmt 3) = some (some goodNew) ∧
    (runBlock (demo twoOrdered.ordered) good st w).2 = (runBlock (demo twoOrdered.ordered) goodNew st w).2 := by
  refine ⟨rfl, (late_init_partial (demo_sound _) (b := good) (b' := goodNew) (p := .stmt 3) rfl rfl ?_ ?_ ?_ ?_ ?_ ?_ st w
    fun x h => good_moved h ▸ h0).1⟩
  · intro x i h
    have hi : i = 1 ∧ x = 0 := by
      match i, h with
      | 1, h => cases h; exact ⟨rfl, rfl⟩
      | 0, h => cases h
      | 2, h => cases h
      | 3, h => cases h
      | n + 4, h => cases h
    obtain ⟨rfl, rfl⟩ := hi
    refine ⟨fun j s hs hj => ?_, fun j s hs hj => ?_, by decide, by decide⟩
    · match j, hs with
      | 0, hs => cases hs; decide
      | 1, hs => exact absurd rfl hj
      | 2, hs => cases hs; decide
      | 3, hs => cases hs; decide
      | n + 4, hs => cases hs
    · match j, hs with
      | 0, hs => cases hs; decide
      | n + 1, hs => omega
  · intro x hx
    cases good_moved hx
    refine ⟨by decide, fun b hb => ?_⟩
    rcases List.mem_cons.1 hb with rfl | hb
    · exact ⟨fun _ => by decide, fun h => absurd rfl h⟩
    · cases List.mem_singleton.1 hb
      exact ⟨(fun h => nomatch h), fun _ => .inl ⟨by decide, .inr ⟨_, rfl, by decide, fun _ h => nomatch h⟩⟩⟩
  · intro b hb hty st w
    rcases List.mem_cons.1 hb with rfl | hb
    · rfl
    · cases List.mem_singleton.1 hb; cases hty
  · exact fun x y hx hy h => absurd ((good_moved hx).trans (good_moved hy).symm) h
  · intro y c h; simp [good] at h
  · exact fun h => nomatch h

/-- A group, with the option. -/
example : check twoOrdered ⟨[.simple (.decl 0), .simple (.decl 3), .choice (code 1)
      [⟨.unit, [.expr (code 5), .assign 0 (code 1), .assign 3 (code 2)], none⟩,
       ⟨.unit, [.assign 0 (code 3), .assign 3 (code 4)], none⟩]], none⟩ (.stmt 2) =
    some (some ⟨[.letChoice [0, 3] (code 1)
      [⟨[.expr (code 5)], none, [code 1, code 2]⟩, ⟨[], none, [code 3, code 4]⟩]], none⟩) := rfl

end Verif.LateInit
