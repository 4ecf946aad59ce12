import Verif.Memcpy.Props

/-!
# Loops for which the suggestion is right, and loops for which it is wrong

The variable of the loop is `0`, the slices are `1` and `2` (and `3` and `4`), a counter is `9`.
-/

namespace Verif.Memcpy.Witness

/-- A loop without counters and arrays. -/
def plain (start stop : A) (closed : Bool) (body : List Stmt) : Loop := ⟨0, start, stop, closed, body, fun _ => none, fun _ => none⟩

/-- `usize` has 64 bits; the constants and other expressions are `3`. -/
def env : Env := ⟨2 ^ 64 - 1, fun _ => 3, fun _ => 3⟩

/-- Slices `1` and `2` (and so on), of 4 elements each, and the counter, which is `c`. -/
def st (c : Nat) : St Nat where
  vars x := if x = 9 then c else 0
  mem
    | .loc 1 => [0, 0, 0, 0]
    | .loc 2 => [5, 6, 7, 8]
    | .loc 3 => [1, 1, 1, 1]
    | .loc 4 => [2, 3, 4, 5]
    | .other _ _ => [10, 11, 12]
    | _ => []
  log := []

/-- `for i in 0..n { dst[i] = src[count]; x[i + 1] = y[i]; count += 1 }` with `let mut count = 1` before. -/
def good : Loop :=
  ⟨0, .lit 0, .atom 0, false,
    [.assign (.index (.loc 1) (.var 0)) (.index (.loc 2) (.var 9)),
      .assign (.index (.loc 3) (.add (.var 0) (.lit 1))) (.index (.loc 4) (.var 0)), .incr 9],
    fun x => if x = 9 then some (.lit 1) else none, fun _ => none⟩

example : good.suggest = some [⟨.loc 1, some (none, some (.atom 0)), .loc 2, some (some (.lit 1), some (.add (.atom 0) (.lit 1)))⟩,
    ⟨.loc 3, some (some (.lit 1), some (.add (.atom 0) (.lit 1))), .loc 4, some (none, some (.atom 0))⟩] := by decide +kernel

theorem good_right : good.Right env (st 1) := by
  refine ⟨?_, rfl, ?_, ?_, ?_, by decide⟩
  · intro x a h
    by_cases hx : x = 9
    · subst hx; cases h; rfl
    · simp [good, hx] at h
  · intro b n h; cases h
  · intro n h
    rcases h with h | h <;> cases h
    decide
  · intro l
    have : ((st 1).mem l).length ≤ 4 := by
      simp only [st]
      split <;> simp
    exact Nat.le_trans this (by decide)

theorem good_only : good.OnlyCopies := by
  intro s hs
  simp only [good, List.mem_cons, List.not_mem_nil, or_false] at hs
  rcases hs with rfl | rfl | rfl
  · exact .inl ⟨_, _, rfl⟩
  · exact .inl ⟨_, _, rfl⟩
  · exact .inr ⟨_, rfl⟩

theorem good_fixed : good.FixedBases := by
  intro s hs p hp x hx
  simp only [good, List.mem_cons, List.not_mem_nil, or_false] at hs hx
  have hx9 : x = 9 := by
    rcases hx with hx | hx | hx
    · cases hx
    · cases hx
    · cases hx; rfl
  subst hx9
  rcases hs with rfl | rfl | rfl <;> simp [Stmt.sides] at hp
  · subst hp; simp [Base.vars]
  · subst hp; simp [Base.vars]

/-- The loop and the suggestion both run. -/
example : (good.run env (st 1)).map (fun σ => (σ.mem (.loc 1), σ.mem (.loc 3))) = some ([6, 7, 8, 0], [1, 2, 3, 4]) := by decide +kernel

example : ∃ σ1 σ2 cs, good.suggest = some cs ∧ good.run env (st 1) = some σ1 ∧ runCopies env cs (st 1) = some σ2 ∧ σ2.mem = σ1.mem := by
  have h1 : (good.run env (st 1)).isSome = true := by decide +kernel
  obtain ⟨σ1, h1⟩ := Option.isSome_iff_exists.mp h1
  have h : good.suggest.isSome = true := by decide +kernel
  obtain ⟨cs, h⟩ := Option.isSome_iff_exists.mp h
  obtain ⟨σ2, h2, h3, _⟩ := no_panic_partial (s := 0) (e := 3) h good_right good_only (by unfold Loop.Independent; decide +kernel) good_fixed h1 rfl rfl (by decide) (by
    intro qs hq q hqm
    have he : good.pairs good.body = some [(⟨.loc 1, .range, ⟨.lit 0, false⟩⟩, ⟨.loc 2, .counter 9 (.lit 1), ⟨.lit 0, false⟩⟩),
        (⟨.loc 3, .range, ⟨.lit 1, false⟩⟩, ⟨.loc 4, .range, ⟨.lit 0, false⟩⟩)] := by decide +kernel
    rw [he] at hq
    cases hq
    simp only [List.mem_cons, List.not_mem_nil, or_false] at hqm
    rcases hqm with rfl | rfl
    · refine ⟨⟨by simp, ?_, ?_, ?_⟩, ⟨by simp, ?_, ?_, ?_⟩⟩
      · intro b hb; cases hb
      · intro x c o hx; cases hx
      · intro x c hx; cases hx
      · intro b hb; cases hb
      · intro x c o hx ho
        cases hx
        simp only [A.eval, Option.some.injEq] at ho
        subst ho
        decide
      · intro x c hx hcl; cases hcl
    · refine ⟨⟨by simp, ?_, ?_, ?_⟩, ⟨by simp, ?_, ?_, ?_⟩⟩
      · intro b hb; cases hb
      · intro x c o hx; cases hx
      · intro x c hx; cases hx
      · intro b hb; cases hb
      · intro x c o hx; cases hx
      · intro x c hx; cases hx)
  exact ⟨σ1, σ2, cs, h, h1, h2, h3⟩

/-- `dst[i] = src[i]`. -/
def copy : Stmt := .assign (.index (.loc 1) (.var 0)) (.index (.loc 2) (.var 0))

/-- What the suggestion leaves. -/
def after {β : Type} (L : Loop) (c : Nat) (f : St Nat → β) : Option (Option β) := L.suggest.map fun cs => (runCopies env cs (st c)).map f

/-- `for i in 0..4 { let x = f(); dst[i] = src[i]; }`: `f` isn't called any more. -/
theorem let_dropped :
    after (plain (.lit 0) (.lit 4) false [.letS 7, copy]) 0 St.log = some (some []) ∧
    ((plain (.lit 0) (.lit 4) false [.letS 7, copy]).run env (st 0)).map St.log = some [7, 7, 7, 7] := by decide +kernel

/-- `for i in 0..4 { self.n += 1; dst[i] = src[i]; }`: `self.n` isn't changed any more. -/
theorem increment_dropped :
    after (plain (.lit 0) (.lit 4) false [.opPlace 7, copy]) 0 St.log = some (some []) ∧
    ((plain (.lit 0) (.lit 4) false [.opPlace 7, copy]).run env (st 0)).map St.log = some [7, 7, 7, 7] := by decide +kernel

/-- `for i in 0..3 { a[i] = b[i]; b[i + 1] = a[i]; }`: all elements become the first one of `b`, but not with the suggestion. -/
def dependent : Loop :=
  plain (.lit 0) (.lit 3) false [copy, .assign (.index (.loc 2) (.add (.var 0) (.lit 1))) (.index (.loc 1) (.var 0))]

theorem dependent_wrong :
    after dependent 0 (fun σ => σ.mem (.loc 2)) = some (some [5, 5, 6, 7]) ∧
    (dependent.run env (st 0)).map (fun σ => σ.mem (.loc 2)) = some [5, 5, 5, 5] := by decide +kernel

/-- `for i in 4..n { dst[i] = src[i]; }` does nothing if `n` is `3`, but the suggestion panics. -/
theorem empty_panics :
    after (plain (.lit 4) (.atom 0) false [copy]) 0 St.log = some none ∧
    ((plain (.lit 4) (.atom 0) false [copy]).run env (st 0)).isSome = true := by decide +kernel

/-- `for i in 0..self.x.len() { dst[i] = self.y[i]; }`: taken for `self.y.len()`. Here `self.y` is longer. -/
def otherLen : Loop := plain (.lit 0) (.len (.other 0 [])) false [.assign (.index (.loc 1) (.var 0)) (.index (.other 1 []) (.var 0))]

/-- The state for it. -/
def stOther : St Nat := { st 0 with mem := fun l => if l = .other 0 [] then [1, 2] else (st 0).mem l }

theorem other_len_panics :
    otherLen.suggest = some [⟨.loc 1, some (none, some (.len (.other 0 []))), .other 1 [], some (none, none)⟩] ∧
    (otherLen.suggest.map fun cs => (runCopies env cs stOther).isSome) = some false ∧ (otherLen.run env stOther).isSome = true := by decide +kernel

/-- `for i in 1..=dst.len() { dst[i - 1] = src[i]; }`: the last element of `dst` is left out, but not the one of `src`, so that the
suggestion panics, whatever `dst` and `src` are. -/
def closedLen : Loop :=
  plain (.lit 1) (.len (.loc 1)) true [.assign (.index (.loc 1) (.sub (.var 0) (.lit 1))) (.index (.loc 2) (.var 0))]

/-- The state for it. -/
def stClosed : St Nat := { st 0 with mem := fun l => if l = .loc 1 then [0, 0, 0] else (st 0).mem l }

theorem closed_len_panics :
    closedLen.suggest = some [⟨.loc 1, some (none, some (.sub (.len (.loc 1)) (.lit 1))), .loc 2, some (some (.lit 1), some (.add (.len (.loc 1)) (.lit 1)))⟩] ∧
    (closedLen.suggest.map fun cs => (runCopies env cs stClosed).isSome) = some false ∧ (closedLen.run env stClosed).isSome = true := by decide +kernel

/-- `for i in 0..3 { dst[i] = rows[count][i]; count += 1; }` with `let mut count = 0` before: all is read from the first row. -/
def rows : Loop :=
  ⟨0, .lit 0, .lit 3, false, [.assign (.index (.loc 1) (.var 0)) (.index (.other 1 [9]) (.var 0)), .incr 9],
    fun x => if x = 9 then some (.lit 0) else none, fun _ => none⟩

/-- The state for it. -/
def stRows : St Nat where
  vars _ := 0
  mem
    | .loc 1 => [0, 0, 0]
    | .other 1 [0] => [1, 2, 3]
    | .other 1 [1] => [4, 5, 6]
    | .other 1 [2] => [7, 8, 9]
    | _ => []
  log := []

theorem rows_wrong :
    (rows.suggest.map fun cs => (runCopies env cs stRows).map (fun σ => σ.mem (.loc 1))) = some (some [1, 2, 3]) ∧
    (rows.run env stRows).map (fun σ => σ.mem (.loc 1)) = some [1, 5, 9] := by decide +kernel

/-- `for i in 0..3 { dst[i - k] = src[i]; }`, which is fine for a `k` of `0`: `dst[-k..(3 - k)]` is suggested. -/
theorem negated_offset :
    (plain (.lit 0) (.lit 3) false [.assign (.index (.loc 1) (.sub (.var 0) (.var 5))) (.index (.loc 2) (.var 0))]).suggest =
      some [⟨.loc 1, some (some (.neg (.var 5)), some (.sub (.lit 3) (.var 5))), .loc 2, some (none, some (.lit 3))⟩] ∧
    ((plain (.lit 0) (.lit 3) false [.assign (.index (.loc 1) (.sub (.var 0) (.var 5))) (.index (.loc 2) (.var 0))]).run env (st 0)).isSome = true := by
  decide +kernel

/-- `for i in 0..3 { dst[count - 9] = src[i]; count += 1; }` with `let mut count = 10` before: `3 - 9 + 10` underflows. -/
def underflow : Loop :=
  ⟨0, .lit 0, .lit 3, false, [.assign (.index (.loc 1) (.sub (.var 9) (.lit 9))) (.index (.loc 2) (.var 0)), .incr 9],
    fun x => if x = 9 then some (.lit 10) else none, fun _ => none⟩

theorem underflow_panics :
    underflow.suggest = some [⟨.loc 1, some (some (.sub (.lit 10) (.lit 9)), some (.add (.sub (.lit 3) (.lit 9)) (.lit 10))), .loc 2, some (none, some (.lit 3))⟩] ∧
    after underflow 10 St.log = some none ∧ (underflow.run env (st 10)).isSome = true := by decide +kernel

end Verif.Memcpy.Witness
