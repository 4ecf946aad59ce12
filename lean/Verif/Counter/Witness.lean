import Verif.Counter.Props

/-!
# Loops with a counter: examples, and loops which are reported wrongly

In each case the model reports the loop, and there is an execution in which a round reads something other than the initial value plus the number of
the round.
-/

namespace Verif.Counter.Witness

/-- The initial values: `k` stands for itself. -/
abbrev ρ : Nat → Nat := id

/-- The statement of `counter_partial`, without its conditions: some reading in some round is wrong. -/
def Wrong (b : Block) : Prop :=
  ∃ k, b.counter = some k ∧ ∃ n v0 v t0 ts, runPre ρ n b.pre v0 .normal v t0 ∧ Rounds ρ n b.body v ts ∧
    ∃ j t u, ts[j]? = some t ∧ u ∈ t ∧ u ≠ ρ k + j

/-- `let mut x; x = 3; for … { if c { f(x) } x += 1; if d { continue } }`. -/
def good : Block := ⟨[.decl none, .expr (.assign 3)], .seq (.cond .blank (.use true) .blank) (.seq .inc (.cond .blank (.cont 0) .blank)), .blank⟩

example : good.counter = some 3 ∧ good.body.Visible ∧ good.body.Straight ∧ good.StraightPre := by
  refine ⟨rfl, ⟨⟨trivial, rfl, trivial⟩, trivial, trivial, trivial, trivial⟩, ⟨⟨trivial, trivial, trivial⟩, trivial, trivial, trivial, trivial⟩, ?_⟩
  intro e he
  simp [good] at he
  subst he; trivial

/-- One round in which the body reads `3`, then a round in which it reads `4`. -/
example : ∃ v t0, runPre ρ 5 good.pre 0 .normal v t0 ∧ Rounds ρ 5 good.body v [[3], [4]] := by
  refine ⟨3, [], ⟨0, ?_⟩, ?_⟩
  · exact .inl ⟨3, [], [], ⟨rfl, rfl, rfl⟩, ⟨rfl, rfl, rfl⟩, rfl⟩
  · have step : ∀ v o, o = Out.normal ∨ o = .cont 0 → eval ρ 5 good.body v o (v + 1) [v] := by
      intro v o ho
      refine .inl ⟨v, [v], [], .inl ⟨v, [], [v], ⟨rfl, rfl, rfl⟩, .inl ⟨rfl, rfl, rfl⟩, rfl⟩, ?_, rfl⟩
      refine .inl ⟨v + 1, [], [], ⟨rfl, rfl, rfl⟩, .inl ⟨v + 1, [], [], ⟨rfl, rfl, rfl⟩, ?_, rfl⟩, rfl⟩
      rcases ho with rfl | rfl
      · exact .inr ⟨rfl, rfl, rfl⟩
      · exact .inl ⟨rfl, rfl, rfl⟩
    exact .next (step 3 (.cont 0) (.inr rfl)) (.inr rfl) (.next (step 4 .normal (.inl rfl)) (.inl rfl) (.done _))

/-- `let mut x = 0; for … { x += 1; let y = x; }`: the variable is used after the increment, but isn't the operand of an expression there. -/
theorem use_in_let : Wrong ⟨[.decl (some 0)], .seq .inc (.use false), .blank⟩ := by
  refine ⟨0, rfl, 5, 0, 0, [], [[1]], ⟨rfl, rfl, rfl⟩, ?_, 0, [1], 1, rfl, by simp, by simp [ρ]⟩
  exact .next (o := .normal) (v' := 1) (.inl ⟨1, [], [1], ⟨rfl, rfl, rfl⟩, ⟨rfl, rfl, rfl⟩, rfl⟩) (.inl rfl) (.done _)

/-- `let mut x = 0; for … { x += 1; (|| f(x))(); }`: closures aren't entered. -/
theorem use_in_closure : Wrong ⟨[.decl (some 0)], .seq .inc (.closure (.use true)), .blank⟩ := by
  refine ⟨0, rfl, 5, 0, 0, [], [[1]], ⟨rfl, rfl, rfl⟩, ?_, 0, [1], 1, rfl, by simp, by simp [ρ]⟩
  exact .next (o := .normal) (v' := 1) (.inl ⟨1, [], [1], ⟨rfl, rfl, rfl⟩, .inr (.inl ⟨rfl, .inl ⟨rfl, rfl, rfl⟩⟩), rfl⟩) (.inl rfl) (.done _)

/-- `let mut x = 0; for … { f(x); c && { x += 1; true }; }`: `&&` doesn't count as a condition. -/
theorem inc_lazy : Wrong ⟨[.decl (some 0)], .seq (.use true) (.lazy .blank .inc), .blank⟩ := by
  refine ⟨0, rfl, 5, 0, 0, [], [[0], [0]], ⟨rfl, rfl, rfl⟩, ?_, 1, [0], 0, rfl, by simp, by simp [ρ]⟩
  have step : eval ρ 5 (.seq (.use true) (.lazy .blank .inc)) 0 .normal 0 [0] :=
    .inl ⟨0, [0], [], ⟨rfl, rfl, rfl⟩, .inl ⟨0, [], [], ⟨rfl, rfl, rfl⟩, .inl ⟨rfl, rfl, rfl⟩, rfl⟩, rfl⟩
  exact .next step (.inl rfl) (.next step (.inl rfl) (.done _))

/-- `let mut x = 0; for … { f(x); 'a: { if c { break 'a } x += 1; } }`: the increment may be left out. -/
theorem inc_labelled : Wrong ⟨[.decl (some 0)], .seq (.use true) (.block 1 (.seq (.cond .blank (.brk 1) .blank) .inc)), .blank⟩ := by
  refine ⟨0, rfl, 6, 0, 0, [], [[0], [0]], ⟨rfl, rfl, rfl⟩, ?_, 1, [0], 0, rfl, by simp, by simp [ρ]⟩
  have step : eval ρ 6 (.seq (.use true) (.block 1 (.seq (.cond .blank (.brk 1) .blank) .inc))) 0 .normal 0 [0] :=
    .inl ⟨0, [0], [], ⟨rfl, rfl, rfl⟩,
      .inl ⟨rfl, .inr ⟨by simp, .inl ⟨0, [], [], ⟨rfl, rfl, rfl⟩, .inl ⟨rfl, rfl, rfl⟩, rfl⟩⟩⟩, rfl⟩
  exact .next step (.inl rfl) (.next step (.inl rfl) (.done _))

/-- `let mut x = 0; for … { f(x); x.add_assign(1); x += 1; }`: a method changes the variable before the increment. -/
theorem autoref_before : Wrong ⟨[.decl (some 0)], .seq (.use true) (.seq .autoref .inc), .blank⟩ := by
  refine ⟨0, rfl, 5, 0, 0, [], [[0], [2]], ⟨rfl, rfl, rfl⟩, ?_, 1, [2], 2, rfl, by simp, by simp [ρ]⟩
  have step : ∀ v, eval ρ 5 (.seq (.use true) (.seq .autoref .inc)) v .normal (v + 2) [v] := fun v =>
    .inl ⟨v, [v], [], ⟨rfl, rfl, rfl⟩, .inl ⟨v + 1, [], [], ⟨rfl, rfl⟩, ⟨rfl, rfl, rfl⟩, rfl⟩, rfl⟩
  exact .next (step 0) (.inl rfl) (.next (step 2) (.inl rfl) (.done _))

/-- The body `f(x); x += 1;`. -/
abbrev plain : E := .seq (.use true) .inc

theorem plain_round (n v : Nat) : Rounds ρ (n + 2) plain v [[v]] :=
  .next (o := .normal) (v' := v + 1) (.inl ⟨v, [v], [], ⟨rfl, rfl, rfl⟩, ⟨rfl, rfl, rfl⟩, rfl⟩) (.inl rfl) (.done _)

/-- `let mut x = 0; let mut g = || x = 5; for … { f(x); x += 1; }`: the closure isn't called, but counts as an assignment. -/
theorem init_closure : Wrong ⟨[.decl (some 0), .expr (.closure (.assign 5))], plain, .blank⟩ := by
  refine ⟨5, rfl, 5, 0, 0, [], [[0]], ?_, plain_round 3 0, 0, [0], 0, rfl, by simp, by simp [ρ]⟩
  exact .inl ⟨0, [], [], .inl ⟨rfl, rfl, rfl⟩, ⟨rfl, rfl, rfl⟩, rfl⟩

/-- `let mut x = 0; let Some(y) = z else { x = 5; g(x); return };`: the block isn't executed, but counts as an assignment. -/
theorem init_letElse : Wrong ⟨[.decl (some 0), .expr (.letElse .blank (.seq (.assign 5) .ret))], plain, .blank⟩ := by
  refine ⟨5, rfl, 5, 0, 0, [], [[0]], ?_, plain_round 3 0, 0, [0], 0, rfl, by simp, by simp [ρ]⟩
  exact .inl ⟨0, [], [], .inl ⟨0, [], [], ⟨rfl, rfl, rfl⟩, .inl ⟨rfl, rfl, rfl⟩, rfl⟩, ⟨rfl, rfl, rfl⟩, rfl⟩

/-- `let mut x = 0; c && { x = 5; true };`: the assignment may be left out. -/
theorem init_lazy : Wrong ⟨[.decl (some 0), .expr (.lazy .blank (.assign 5))], plain, .blank⟩ := by
  refine ⟨5, rfl, 5, 0, 0, [], [[0]], ?_, plain_round 3 0, 0, [0], 0, rfl, by simp, by simp [ρ]⟩
  exact .inl ⟨0, [], [], .inl ⟨0, [], [], ⟨rfl, rfl, rfl⟩, .inl ⟨rfl, rfl, rfl⟩, rfl⟩, ⟨rfl, rfl, rfl⟩, rfl⟩

/-- `let mut x = 0; 'a: { if c { break 'a } x = 5; }`: the assignment may be left out. -/
theorem init_labelled : Wrong ⟨[.decl (some 0), .expr (.block 1 (.seq (.cond .blank (.brk 1) .blank) (.assign 5)))], plain, .blank⟩ := by
  refine ⟨5, rfl, 6, 0, 0, [], [[0]], ?_, plain_round 4 0, 0, [0], 0, rfl, by simp, by simp [ρ]⟩
  exact .inl ⟨0, [], [], .inl ⟨rfl, .inr ⟨by simp, .inl ⟨0, [], [], ⟨rfl, rfl, rfl⟩, .inl ⟨rfl, rfl, rfl⟩, rfl⟩⟩⟩, ⟨rfl, rfl, rfl⟩, rfl⟩

/-- `let mut x = 0; x.add_assign(5);`: the method changes the variable. -/
theorem init_autoref : Wrong ⟨[.decl (some 0), .expr .autoref], plain, .blank⟩ := by
  refine ⟨0, rfl, 5, 0, 5, [], [[5]], ?_, plain_round 3 5, 0, [5], 5, rfl, by simp, by simp [ρ]⟩
  exact .inl ⟨5, [], [], ⟨rfl, rfl⟩, ⟨rfl, rfl, rfl⟩, rfl⟩

/-- A loop over 200 elements with `let mut x: u8 = 20`: the same numbers, no panic. -/
example : (zipRun 255 20 200).1 = (List.range 200).map (20 + ·) ∧ (zipRun 255 20 200).2 = false := by
  rw [zipRun_eq 255 200 20 (by omega)]; exact ⟨rfl, rfl⟩

end Verif.Counter.Witness
