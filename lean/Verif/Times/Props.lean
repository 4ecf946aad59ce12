import Verif.Times.Model

/-!
# C128: times are subtracted as before, and what is said about constant durations is true
-/

namespace Verif.Times

/-! ## Constants -/

theorem made_value {x : Option Nat} {d : Nat} (h : made x = .value d) : x = some d := by
  cases x <;> simp_all [made]

theorem made_crash {x : Option Nat} (h : made x = .crash) : x = none := by
  cases x <;> simp_all [made]

theorem one_value {fl : Nat → Option Nat} {c : Ctor} {fits : Nat → Bool} {l : List Arg} {d : Nat}
    (h : one fl c fits l = .value d) : std fl c l = some d := by
  unfold one at h
  split at h
  · split at h
    · exact made_value h
    · cases h
  · cases h

theorem one_crash {fl : Nat → Option Nat} {c : Ctor} {fits : Nat → Bool} {l : List Arg}
    (h : one fl c fits l = .crash) : std fl c l = none := by
  unfold one at h
  split at h
  · split at h
    · exact made_crash h
    · cases h
  · cases h

theorem hours_days (fl : Nat → Option Nat) (n : Nat) : std fl .hours [.int (n * 24)] = std fl .days [.int n] := by
  simp only [std, ofSecs]
  rw [show n * 24 * (60 * 60) = n * (24 * 60 * 60) by omega]

theorem hours_weeks (fl : Nat → Option Nat) (n : Nat) :
    std fl .hours [.int (n * 24 * 7)] = std fl .weeks [.int n] := by
  simp only [std, ofSecs]
  rw [show n * 24 * 7 * (60 * 60) = n * (7 * 24 * 60 * 60) by omega]

theorem mul64_some {a b c : Nat} (h : mul64 true a b = some c) : c = a * b := by
  unfold mul64 at h
  split at h
  · exact (Option.some.inj h).symm
  · cases h

theorem mul64_none {a b : Nat} (h : mul64 true a b = none) : 2 ^ 64 ≤ a * b := by
  unfold mul64 at h
  split at h
  · cases h
  · omega

/-- **C128.** The product of hours that clippy computes overflows exactly where `u64` does; without checks it wraps. -/
theorem hours_overflow (a b : Nat) : (mul64 true a b = none ↔ 2 ^ 64 ≤ a * b) ∧ mul64 false a b = some (a * b % 2 ^ 64) := by
  constructor
  · constructor
    · exact mul64_none
    · intro h
      unfold mul64
      rw [if_neg (by omega), if_pos rfl]
  · unfold mul64
    by_cases h : a * b < 2 ^ 64
    · rw [if_pos h, Nat.mod_eq_of_lt h]
    · rw [if_neg h, if_neg (by decide)]

/-- A day has 24 hours: no overflow. -/
example : mul64 true 365 24 = some 8760 := by decide +kernel

/-- **C128.** With checks for overflow, a duration that clippy computes is the one that the program makes. -/
theorem eval_right {fl : Nat → Option Nat} {c : Ctor} {args : List Arg} {d : Nat}
    (h : constEval true fl c args = .value d) : std fl c args = some d := by
  unfold constEval at h
  split at h
  any_goals exact one_value h
  any_goals cases h
  · split at h
    · exact made_value h
    · cases h
  · exact made_value h
  · split at h
    · unfold hoursOf at h
      split at h
      · rename_i hm
        rw [mul64_some hm, hours_days] at h
        exact made_value h
      · cases h
    · cases h
  · split at h
    · unfold hoursOf at h
      split at h
      · rename_i hm
        obtain ⟨x, hx, hy⟩ := Option.bind_eq_some_iff.1 hm
        rw [mul64_some hy, mul64_some hx, hours_weeks] at h
        exact made_value h
      · cases h
    · cases h

/-- **C128.** With checks for overflow, clippy only panics where the program would. -/
theorem crash_only {fl : Nat → Option Nat} {c : Ctor} {args : List Arg}
    (h : constEval true fl c args = .crash) : std fl c args = none := by
  unfold constEval at h
  split at h
  any_goals exact one_crash h
  any_goals cases h
  · split at h
    · exact made_crash h
    · cases h
  · exact made_crash h
  · split at h
    · unfold hoursOf at h
      split at h
      · rename_i hm
        rw [mul64_some hm, hours_days] at h
        exact made_crash h
      · rename_i hm
        have := mul64_none hm
        simp only [std, ofSecs]
        rw [if_neg (by omega)]
    · cases h
  · split at h
    · unfold hoursOf at h
      split at h
      · rename_i hm
        obtain ⟨x, hx, hy⟩ := Option.bind_eq_some_iff.1 hm
        rw [mul64_some hy, mul64_some hx, hours_weeks] at h
        exact made_crash h
      · rename_i n _ _ hm
        simp only [std, ofSecs]
        rw [if_neg]
        cases hx : mul64 true n 24 with
        | none =>
          have := mul64_none hx
          omega
        | some x =>
          rw [hx] at hm
          have h1 := mul64_none hm
          have h2 := mul64_some hx
          omega
    · cases h

/-- All constants are evaluated: a call with constants that fit is never unknown. -/
theorem constants_known {checks : Bool} {fl : Nat → Option Nat} {c : Ctor} {n : Nat} (hn : n < 2 ^ 64)
    (hc : c = .nanos ∨ c = .nanosWide ∨ c = .micros ∨ c = .millis ∨ c = .secs ∨ c = .mins ∨ c = .hours ∨ c = .days ∨ c = .weeks) :
    constEval checks fl c [.int n] ≠ .unknown := by
  have h1 : u64 n = true := by simpa [u64] using hn
  have h2 : u128 n = true := by
    simp only [u128, decide_eq_true_eq]
    omega
  have hm : ∀ x, made x ≠ .unknown := by
    intro x
    cases x <;> simp [made]
  have hh : ∀ x, hoursOf fl x ≠ .unknown := by
    intro x
    cases x with
    | none => simp [hoursOf]
    | some y => exact hm _
  rcases hc with rfl | rfl | rfl | rfl | rfl | rfl | rfl | rfl | rfl <;>
    simp only [constEval, one, h1, h2, if_true] <;> first | exact hm _ | exact hh _

/-- The program's value of an operand: a constructor of `Duration`, with these arguments. -/
def Own (c : Ctor) (args : List Arg) : Operand := .call true c args

/-- **C128 (partial).** What is said about the subtraction of two constant durations is true: it works if it is
fine, and panics if it "will underflow". Missing: functions of other types with the same name (`other_type`),
and clippy without checks for overflow (`days_wrapped`). -/
theorem said_partial {fl : Nat → Option Nat} {c d : Ctor} {a b : List Arg} :
    (check true fl (Own c a) .duration (Own d b) .duration = .fine →
      ∃ x y z, std fl c a = some x ∧ std fl d b = some y ∧ minus x y = some z) ∧
    (check true fl (Own c a) .duration (Own d b) .duration = .underflow →
      ∃ x y, std fl c a = some x ∧ std fl d b = some y ∧ minus x y = none) := by
  simp only [check, durations, evalOperand, Own]
  cases h1 : constEval true fl c a with
  | value x =>
    cases h2 : constEval true fl d b with
    | value y =>
      by_cases hc : y ≤ x
      · simp only [if_pos hc]
        exact ⟨fun _ => ⟨x, y, x - y, eval_right h1, eval_right h2, by simp [minus, hc]⟩, (fun h => by cases h)⟩
      · simp only [if_neg hc]
        exact ⟨(fun h => by cases h), fun _ => ⟨x, y, eval_right h1, eval_right h2, by simp [minus, hc]⟩⟩
    | unknown => exact ⟨(fun h => by cases h), fun h => by cases h⟩
    | crash => exact ⟨(fun h => by cases h), fun h => by cases h⟩
  | unknown => exact ⟨(fun h => by cases h), fun h => by cases h⟩
  | crash => exact ⟨(fun h => by cases h), fun h => by cases h⟩

/-- `Duration::from_weeks(1) - Duration::from_days(7)` is fine, `from_mins(59) - from_hours(1)` is not. -/
example : check true (fun _ => none) (Own .weeks [.int 1]) .duration (Own .days [.int 7]) .duration = .fine ∧
    check true (fun _ => none) (Own .mins [.int 59]) .duration (Own .hours [.int 1]) .duration = .underflow := by
  decide +kernel

/-- FINDING: clippy panics on constants for which the program would: `Duration::from_secs_f64(-1.0) - d`. -/
theorem clippy_panics (checks : Bool) (fl : Nat → Option Nat) (f : Nat) (hf : fl f = none) (r : Operand) :
    check checks fl (Own .secsFloat [.float f]) .duration r .duration = .crash := by
  simp [check, durations, evalOperand, Own, constEval, std, made, hf]

/-- FINDING: … and on `Duration::new(u64::MAX, 1_000_000_000)`, `Duration::from_mins(u64::MAX)`. -/
theorem clippy_panics_new (checks : Bool) (fl : Nat → Option Nat) :
    constEval checks fl .new [.int (2 ^ 64 - 1), .int 1000000000] = .crash ∧
      constEval checks fl .mins [.int (2 ^ 64 - 1)] = .crash := by
  cases checks <;> exact ⟨rfl, rfl⟩

/-- FINDING: without checks for overflow the hours wrap around: `Duration::from_days(1 << 61)` is taken for
zero, so that a subtraction that panics is said to be fine. -/
theorem days_wrapped (fl : Nat → Option Nat) :
    constEval false fl .days [.int (2 ^ 61)] = .value 0 ∧ std fl .days [.int (2 ^ 61)] = none ∧
      check false fl (Own .secs [.int 0]) .duration (Own .days [.int (2 ^ 61)]) .duration = .fine :=
  ⟨rfl, rfl, rfl⟩

/-- FINDING: a function with such a name counts as the one of `Duration`, whatever type it belongs to:
`Ticks::from_secs(5) - Duration::from_secs(3)` is said to be fine. -/
theorem other_type (fl : Nat → Option Nat) :
    check true fl (.call false .secs [.int 5]) .duration (Own .secs [.int 3]) .duration = .fine ∧
      ∃ I : Sem, ∃ e r w, (I.value r w).1 = std fl .secs [.int 3] ∧ (both I minus e r w).1 = none := by
  refine ⟨rfl, ⟨Unit, fun e w => (if e = 0 then some 5000 else some 3000000000, w), fun _ => 0, id, 0⟩,
    0, 1, (), rfl, rfl⟩

/-! ## Suggestions -/

/-- **C128.** `l.checked_sub(r).unwrap()` is `l - r`: the same values, panics and effects, for durations and for
instants. -/
theorem unchecked_same (I : Sem) (l r : Nat) (w : I.W) :
    both I (fun a b => unwrap (checkedSub a b)) l r w = both I minus l r w ∧
      both I (fun a b => unwrap (instantChecked I a b)) l r w = both I (instantMinus I) l r w := by
  have h1 : (fun a b => unwrap (checkedSub a b)) = minus := by
    funext a b
    unfold unwrap checkedSub minus
    by_cases h : b ≤ a
    · rw [if_pos h, if_neg (by omega)]
    · rw [if_neg h, if_pos (by omega)]
  have h2 : (fun a b => unwrap (instantChecked I a b)) = instantMinus I := by
    funext a b
    unfold unwrap instantChecked instantMinus
    by_cases h : I.first + b ≤ a
    · rw [if_pos h, if_neg (by omega)]
    · rw [if_neg h, if_pos (by omega)]
  rw [h1, h2]
  exact ⟨rfl, rfl⟩

/-- There is no suggestion for a chain of subtractions, and there is one for all others that are not constant. -/
theorem suggested_iff (checks : Bool) (fl : Nat → Option Nat) (l r : Operand) (hl : evalOperand checks fl l = .unknown) :
    (check checks fl l .duration r .duration = .unchecked true ↔ chained l = false) ∧
      (check checks fl l .instant r .duration = .unchecked true ↔ chained l = false) := by
  simp only [check, durations, hl, Report.unchecked.injEq, Bool.not_eq_true']
  simp

/-- A chain is a subtraction of times whose left operand is again one. -/
theorem no_sugg_for_chain (checks : Bool) (fl : Nat → Option Nat) (a b : Ty) (r : Operand) (tl : Ty)
    (ha : a = .instant ∨ a = .duration) (hb : b = .instant ∨ b = .duration) :
    check checks fl (.sub a b) tl r .duration ≠ .unchecked true := by
  rcases ha with rfl | rfl <;> rcases hb with rfl | rfl <;> cases tl <;>
    simp [check, durations, evalOperand, chained]

/-- Every other operand gets a suggestion. -/
theorem sugg_otherwise (checks : Bool) (fl : Nat → Option Nat) (r : Operand) (b : Ty) :
    check checks fl .other .instant r .duration = .unchecked true ∧
      check checks fl (.sub .other b) .duration r .duration = .unchecked true := by
  simp [check, durations, evalOperand, chained]

example : evalOperand true (fun _ => none) (.sub .instant .duration) = .unknown ∧
    chained (.sub .instant .duration) = true ∧ chained .other = false := by decide

/-- **C128 (partial).** `e.elapsed()` is `Instant::now() - e` if the value of `e` does not depend on whether the
clock has been read, and evaluating it changes nothing (also not the clock). Missing: expressions that take time — see
`elapsed_later`. -/
theorem elapsed_partial (I : Sem) (e b : Nat) (w : I.W) (h1 : I.value e w = (some b, w))
    (h2 : I.value e (I.tick w) = (some b, I.tick w)) : nowMinus I e w = elapsed I e w := by
  unfold nowMinus elapsed
  simp only [now, h1, h2]

/-- A world that is only a clock; expression 0 is an instant, expression 1 takes ten nanoseconds and gives
one, expression 2 panics. -/
def demo : Sem where
  W := Nat
  value := fun e w => if e = 0 then (some 3, w) else if e = 1 then (some 3, w + 10) else (none, w)
  clock := fun w => w
  tick := fun w => w + 1
  first := 0

/-- The hypotheses are met by a variable. -/
example : demo.value 0 (5 : Nat) = (some 3, (5 : Nat)) ∧ demo.value 0 (demo.tick (5 : Nat)) = (some 3, demo.tick (5 : Nat)) ∧
    (nowMinus demo 0 (5 : Nat)).1 = some 2 := ⟨rfl, rfl, rfl⟩

/-- FINDING: the clock is read after the instant is evaluated, not before: `Instant::now() - f()` becomes
`f().elapsed()`, which is longer by the time that `f` takes. -/
theorem elapsed_later (checks : Bool) (fl : Nat → Option Nat) (r : Operand) :
    check checks fl .now .instant r .instant = .elapsed ∧
      (nowMinus demo 1 (5 : Nat)).1 = some 2 ∧ (elapsed demo 1 (5 : Nat)).1 = some 12 := by
  refine ⟨by simp [check], rfl, rfl⟩

/-- `elapsed()` is only suggested for `Instant::now()` minus an instant. -/
theorem elapsed_only {checks : Bool} {fl : Nat → Option Nat} {l r : Operand} {tl tr : Ty}
    (h : check checks fl l tl r tr = .elapsed) : l = .now ∧ tl = .instant ∧ tr = .instant := by
  unfold check at h
  split at h
  · split at h
    · exact ⟨by assumption, rfl, rfl⟩
    · cases h
  · cases h
  · unfold durations at h
    repeat' split at h
    all_goals cases h
  · cases h

/-! ## Parts of a second -/

/-- **C128.** `d.subsec_micros() / 1000` and so on: the suggested method gives the same number. -/
theorem subsec_same {m m' : Sub} {k : Nat} (h : subsec m k = some m') (d : Nat) : m.get d / k = m'.get d := by
  unfold subsec at h
  split at h
  · rename_i hc
    have := Option.some.inj h
    subst this
    rcases hc with ⟨rfl, rfl⟩ | ⟨rfl, rfl⟩ <;> simp only [Sub.get] <;> omega
  · split at h
    · rename_i hc
      have := Option.some.inj h
      subst this
      obtain ⟨rfl, rfl⟩ := hc
      simp only [Sub.get]
    · cases h

theorem divisor_of {n k : Nat} (h1 : (n + 1) / k = 1) (h2 : n / k = 0) : k = n + 1 := by
  rcases Nat.div_eq_zero_iff.1 h2 with rfl | h
  · simp at h1
  · rcases Nat.lt_or_ge (n + 1) k with h3 | h3
    · rw [Nat.div_eq_of_lt h3] at h1
      cases h1
    · omega

/-- Every division that gives the number of another method, for all durations, is found. -/
theorem subsec_all {m m' : Sub} {k : Nat} (hne : m ≠ m') (h : ∀ d, m.get d / k = m'.get d) : subsec m k = some m' := by
  have h2 := h 1000000
  have h3 := h 1000
  have h4 := h 1
  have h5 := h 999999
  have h6 := h 999
  cases m <;> cases m' <;> simp only [ne_eq, not_true_eq_false] at hne <;>
    simp only [Sub.get, Nat.reduceMod, Nat.reduceDiv, Nat.zero_div] at h2 h3 h4 h5 h6
  all_goals try contradiction
  · rw [divisor_of (n := 999) h2 h5]
    rfl
  · rw [divisor_of (n := 999999) h2 h5]
    rfl
  · rw [divisor_of (n := 999) h3 h6]
    rfl

end Verif.Times
