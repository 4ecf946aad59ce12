import Verif.Assign.Model

/-!
# Properties: assignments and assignments with an operator
-/

namespace Verif.Assign

/-- Built-in integers, where call `k` adds one to cell `k` and gives its argument. -/
def plain : Sem :=
  ⟨fun op x y => match op with
    | .add => some (x + y)
    | .sub => some (x - y)
    | .mul => some (x * y)
    | _ => none,
   fun op x y => match op with
    | .add => some (x + y + 1)
    | _ => none,
   fun k x m => some (x, put m k (m k + 1))⟩
/-- Everything is primitive. -/
def ints : Info := ⟨true, true, fun _ => true, fun _ => false, fun _ => false, false⟩
/-- A type with its own operators. -/
def custom : Info := ⟨false, false, fun _ => true, fun _ => false, fun _ => false, false⟩
/-- Memory with different numbers. -/
def mem : Mem := fun n => 10 * n

theorem isPlace_iff (p : Place) (e : E) : isPlace p e = true ↔ e = .read p := by
  cases e <;> simp [isPlace]

theorem count_eq (p : Place) (e : E) : count p e = times p e := by
  induction e with
  | lit => rfl
  | read q => cases q <;> simp [count, times, placeCount]
  | call k a ih => simpa [count, times] using ih
  | bin op a b iha ihb => simp [count, times, iha, ihb]

theorem lint_mem (t : Info) (op : Op) (rhs : E) (o : Op) (x : E) (h : (o, x) ∈ lint t op rhs) : o = op ∧ x = rhs := by
  unfold lint at h
  by_cases h1 : (hasTrait op && !t.inImpl op && t.impl op) = true
  · rw [if_pos h1] at h
    by_cases h2 : (!t.prim && t.conflict rhs) = true
    · rw [if_pos h2] at h; cases h
    · rw [if_neg h2] at h
      by_cases h3 : t.unstable = true
      · rw [if_pos h3] at h; cases h
      · rw [if_neg h3] at h; simpa using h
  · rw [if_neg h1] at h; cases h

/-- C132: what is reported: the place is written exactly once, as the left operand — or as the right one, for a primitive
type and an operator that commutes. -/
theorem reported (t : Info) (p : Place) (e : E) (op : Op) (x : E) (h : (op, x) ∈ check t p e) :
    (e = .bin op (.read p) x ∨ (e = .bin op x (.read p) ∧ t.assigneePrim = true ∧ swaps op = true)) ∧ times p x = 0 := by
  cases e with
  | bin o l r =>
    simp only [check] at h
    by_cases hc : count p (.bin o l r) = 1
    · rw [if_pos (by simpa using hc)] at h
      have hc2 : times p l + times p r = 1 := by
        have := count_eq p (.bin o l r)
        simp only [times] at this
        omega
      rcases List.mem_append.1 h with h | h
      · unfold lintLeft at h
        by_cases hp : isPlace p l = true
        · rw [if_pos hp] at h
          obtain ⟨rfl, rfl⟩ := lint_mem t o r op x h
          have hl := (isPlace_iff p l).1 hp
          subst hl
          refine ⟨Or.inl rfl, ?_⟩
          have : 1 ≤ times p (.read p) := by simp [times]
          omega
        · rw [if_neg hp] at h; cases h
      · unfold lintRight at h
        by_cases hp : (isPlace p r && t.assigneePrim && swaps o) = true
        · rw [if_pos hp] at h
          obtain ⟨rfl, rfl⟩ := lint_mem t o l op x h
          simp only [Bool.and_eq_true] at hp
          have hl := (isPlace_iff p r).1 hp.1.1
          subst hl
          refine ⟨Or.inr ⟨rfl, hp.1.2, hp.2⟩, ?_⟩
          have : 1 ≤ times p (.read p) := by simp [times]
          omega
        · rw [if_neg hp] at h; cases h
    · rw [if_neg (by simpa using hc)] at h; cases h
  | _ => cases h

example : (Op.add, E.lit 1) ∈ check ints (.cell 3) (.bin .add (.read (.cell 3)) (.lit 1)) := by decide +kernel

/-- C132: and every such assignment of a primitive type is reported, outside of constants and the trait itself. -/
theorem all_reported (t : Info) (p : Place) (op : Op) (x : E) (hx : times p x = 0)
    (ht : hasTrait op = true) (hi : t.impl op = true) (hn : t.inImpl op = false) (hu : t.unstable = false)
    (hc : t.prim = true ∨ t.conflict x = false) :
    check t p (.bin op (.read p) x) ≠ [] ∧
      (t.assigneePrim = true → swaps op = true → check t p (.bin op x (.read p)) ≠ []) := by
  have hone : times p (.read p) = 1 := by
    cases p with
    | cell n => simp [times]
    | idx base i => simp [times]
  have hl : lint t op x = [(op, x)] := by
    unfold lint
    rw [if_pos (by simp [ht, hi, hn]), if_neg (by rcases hc with h | h <;> simp [h]), if_neg (by simp [hu])]
  have hp : isPlace p (.read p) = true := (isPlace_iff p _).2 rfl
  constructor
  · have hcnt : count p (.bin op (.read p) x) = 1 := by
      rw [count_eq]; simp only [times] at hone ⊢; omega
    simp only [check]
    rw [if_pos (by simpa using hcnt)]
    simp [lintLeft, hp, hl]
  · intro ha hs
    have hcnt : count p (.bin op x (.read p)) = 1 := by
      rw [count_eq]; simp only [times] at hone ⊢; omega
    simp only [check]
    rw [if_pos (by simpa using hcnt)]
    simp [lintRight, hp, ha, hs, hl]

example : hasTrait .shl = true ∧ times (.cell 3) (.call 1 (.read (.cell 2))) = 0 := by decide +kernel

/-- C132: at most one suggestion is made. -/
theorem one_suggestion (t : Info) (p : Place) (e : E) : (check t p e).length ≤ 1 := by
  have hlint : ∀ op x, (lint t op x).length ≤ 1 := by
    intro op x
    unfold lint
    split
    · split
      · simp
      · split <;> simp
    · simp
  cases e with
  | bin o l r =>
    simp only [check]
    by_cases hc : count p (.bin o l r) = 1
    · rw [if_pos (by simpa using hc), List.length_append]
      by_cases hl : isPlace p l = true
      · have hr : isPlace p r = false := by
          cases hr : isPlace p r with
          | false => rfl
          | true =>
            have h1 := (isPlace_iff p l).1 hl
            have h2 := (isPlace_iff p r).1 hr
            subst h1; subst h2
            have : 1 ≤ count p (.read p) := by simp [count, placeCount]
            simp only [count] at hc this
            omega
        have := hlint o r
        simp [lintLeft, lintRight, hl, hr, this]
      · have := hlint o l
        simp only [lintLeft, lintRight, hl, Bool.false_eq_true, if_false, List.length_nil]
        split
        · omega
        · simp
    · rw [if_neg (by simpa using hc)]; simp
  | _ => simp [check]

example : (check ints (.cell 3) (.bin .add (.read (.cell 3)) (.lit 1))).length = 1 := by decide +kernel

/-- The built-in operators on unsigned numbers, where nothing overflows; the lazy ones and `<` give 0 or 1. -/
def builtin : Op → Nat → Nat → Nat
  | .add, x, y => x + y
  | .sub, x, y => x - y
  | .mul, x, y => x * y
  | .div, x, y => x / y
  | .rem, x, y => x % y
  | .xor, x, y => x ^^^ y
  | .band, x, y => x &&& y
  | .bor, x, y => x ||| y
  | .shl, x, y => x <<< y
  | .shr, x, y => x >>> y
  | .land, x, y => if x ≠ 0 ∧ y ≠ 0 then 1 else 0
  | .lor, x, y => if x ≠ 0 ∨ y ≠ 0 then 1 else 0
  | .cmp, x, y => if x < y then 1 else 0

/-- C132: the operators whose operands may be swapped are exactly the commutative ones, in both lists. -/
theorem swaps_commute (op : Op) : (swaps op = true ↔ ∀ x y, builtin op x y = builtin op y x) ∧ isCommutative op = swaps op := by
  refine ⟨?_, by cases op <;> rfl⟩
  cases op with
  | add => simp [swaps, builtin, Nat.add_comm]
  | mul => simp [swaps, builtin, Nat.mul_comm]
  | xor => simp [swaps, builtin, Nat.xor_comm]
  | band => simp [swaps, builtin, Nat.and_comm]
  | bor => simp [swaps, builtin, Nat.or_comm]
  | land => simp [swaps, builtin, and_comm]
  | lor => simp [swaps, builtin, or_comm]
  | sub => exact ⟨(fun h => by cases h), fun h => absurd (h 1 2) (by decide)⟩
  | div => exact ⟨(fun h => by cases h), fun h => absurd (h 1 2) (by decide)⟩
  | rem => exact ⟨(fun h => by cases h), fun h => absurd (h 1 2) (by decide)⟩
  | shl => exact ⟨(fun h => by cases h), fun h => absurd (h 1 0) (by decide)⟩
  | shr => exact ⟨(fun h => by cases h), fun h => absurd (h 1 0) (by decide)⟩
  | cmp => exact ⟨(fun h => by cases h), fun h => absurd (h 1 2) (by decide)⟩

example : swaps .xor = true ∧ swaps .shr = false := by decide

/-- C132: lazy operators and comparisons, which have no form with an assignment, are never suggested; all others are in the simplest case. -/
theorem assigning (op : Op) : (∃ t p e x, (op, x) ∈ check t p e) ↔ op ≠ .land ∧ op ≠ .lor ∧ op ≠ .cmp := by
  constructor
  · rintro ⟨t, p, e, x, h⟩
    cases e with
    | bin o l r =>
      have hm : ∀ y, (op, x) ∈ lint t o y → hasTrait op = true := by
        intro y hy
        have he := (lint_mem t o y op x hy).1
        subst he
        unfold lint at hy
        by_cases h1 : (hasTrait op && !t.inImpl op && t.impl op) = true
        · simp only [Bool.and_eq_true] at h1; exact h1.1.1
        · rw [if_neg h1] at hy; cases hy
      have ht : hasTrait op = true := by
        simp only [check] at h
        split at h
        · rcases List.mem_append.1 h with h | h
          · unfold lintLeft at h
            split at h
            · exact hm _ h
            · cases h
          · unfold lintRight at h
            split at h
            · exact hm _ h
            · cases h
        · cases h
      cases op <;> first | (cases ht; done) | exact ⟨nofun, nofun, nofun⟩
    | _ => cases h
  · intro h
    refine ⟨ints, .cell 3, .bin op (.read (.cell 3)) (.lit 1), .lit 1, ?_⟩
    cases op <;> first | decide +kernel | exact absurd rfl h.1 | exact absurd rfl h.2.1 | exact absurd rfl h.2.2

example : Op.shr ≠ .land ∧ Op.shr ≠ .lor ∧ Op.shr ≠ .cmp := by decide

/-! ## What the suggestion does -/

/-- Full claim: `p op= x` does what the assignment did. Proved for built-in types when `p` was the left operand and `x`
changes nothing. -/
theorem left_same_partial (I : Sem) (p : Place) (op : Op) (x : E) (hq : Quiet I x) (m : Mem) :
    assign I p (.bin op (.read p) x) m = opAssign I p op x m := by
  simp only [assign, opAssign, eval, Option.bind_some]
  cases h : eval I x m with
  | none => rfl
  | some r =>
    have := hq m r h
    obtain ⟨y, m'⟩ := r
    simp only at this
    subst this
    simp only [Option.bind_some]
    cases I.op op (m' (addr m' p)) y <;> rfl

example : Quiet plain (.bin .add (.read (.cell 1)) (.lit 2)) := by
  intro m r h
  simp [eval, plain] at h
  rw [← h]

/-- C132: when `p` was the right operand of an operator that commutes, the suggestion does the same whatever the other
operand does. -/
theorem right_same (I : Sem) (p : Place) (op : Op) (x : E) (hs : Swappable I op) (m : Mem) :
    assign I p (.bin op x (.read p)) m = opAssign I p op x m := by
  simp only [assign, opAssign, eval]
  cases h : eval I x m with
  | none => rfl
  | some r =>
    simp only [Option.bind_some]
    rw [hs]
    cases I.op op (r.2 (addr r.2 p)) r.1 <;> rfl

example : Swappable plain .add := by intro x y; simp [plain, Int.add_comm]

/-- Full claim: everything reported can be replaced. Proved for built-in types whose operators commute as listed and
operands that change nothing. -/
theorem checked_same_partial (I : Sem) (t : Info) (p : Place) (e : E) (op : Op) (x : E) (h : (op, x) ∈ check t p e)
    (hs : ∀ o, swaps o = true → Swappable I o) (hq : e = .bin op (.read p) x → Quiet I x) (m : Mem) :
    assign I p e m = opAssign I p op x m := by
  rcases (reported t p e op x h).1 with he | ⟨he, _, hsw⟩
  · subst he; exact left_same_partial I p op x (hq rfl) m
  · subst he; exact right_same I p op x (hs op hsw) m

example : (Op.mul, E.call 1 (.lit 2)) ∈ check ints (.cell 3) (.bin .mul (.call 1 (.lit 2)) (.read (.cell 3))) := by decide +kernel

/-- Full claim: the same for other types. Proved when the trait's method does what the operator does and the operand
changes nothing. -/
theorem trait_same_partial (I : Sem) (p : Place) (op : Op) (x : E) (hq : Quiet I x) (ha : ∀ a b, I.opAssign op a b = I.op op a b)
    (m : Mem) : assign I p (.bin op (.read p) x) m = opAssignTrait I p op x m := by
  rw [left_same_partial I p op x hq]
  simp only [opAssign, opAssignTrait]
  cases h : eval I x m with
  | none => rfl
  | some r =>
    have := hq m r h
    simp only [Option.bind_some, this, ha]

example : ∀ a b, plain.opAssign .sub a b = none := by intro a b; rfl

/-- C132: of the two suggestions for `p op= p op x` the second does what the code did, if the operands change nothing. -/
theorem long_same_partial (I : Sem) (p : Place) (op : Op) (rhs short long : E) (h : misrefactored p op rhs = some (short, long))
    (hq : Quiet I rhs) (m : Mem) : opAssign I p op rhs m = assign I p long m := by
  have hl : long = .bin op (.read p) rhs := by
    cases rhs with
    | bin o l r =>
      simp only [misrefactored] at h
      by_cases ho : op ≠ o
      · rw [if_pos ho] at h; cases h
      · rw [if_neg ho] at h
        by_cases h1 : isPlace p l = true
        · rw [if_pos h1] at h; simp only [both, Option.some.injEq, Prod.mk.injEq] at h; exact h.2.symm
        · rw [if_neg h1] at h
          by_cases h2 : (isCommutative op && isPlace p r) = true
          · rw [if_pos h2] at h; simp only [both, Option.some.injEq, Prod.mk.injEq] at h; exact h.2.symm
          · rw [if_neg h2] at h; cases h
    | _ => cases h
  subst hl
  exact (left_same_partial I p op rhs hq m).symm

example : misrefactored (.cell 3) .mul (.bin .mul (.lit 2) (.read (.cell 3))) =
    some (.lit 2, .bin .mul (.read (.cell 3)) (.bin .mul (.lit 2) (.read (.cell 3)))) := by decide +kernel

/-- C132: and the first is what was probably meant: the place combined once with the other operand. -/
theorem short_means (I : Sem) (p : Place) (op : Op) (rhs short long : E) (h : misrefactored p op rhs = some (short, long))
    (hq : Quiet I short) (hs : ∀ o, isCommutative o = true → Swappable I o) (m : Mem) :
    opAssign I p op short m = assign I p rhs m := by
  cases rhs with
  | bin o l r =>
    simp only [misrefactored] at h
    by_cases ho : op ≠ o
    · rw [if_pos ho] at h; cases h
    · rw [if_neg ho] at h
      have ho : op = o := by simpa using ho
      subst ho
      by_cases h1 : isPlace p l = true
      · rw [if_pos h1] at h
        simp only [both, Option.some.injEq, Prod.mk.injEq] at h
        have hl := (isPlace_iff p l).1 h1
        rw [hl, ← h.1]
        rw [← h.1] at hq
        exact (left_same_partial I p op r hq m).symm
      · rw [if_neg h1] at h
        by_cases h2 : (isCommutative op && isPlace p r) = true
        · rw [if_pos h2] at h
          simp only [both, Option.some.injEq, Prod.mk.injEq] at h
          simp only [Bool.and_eq_true] at h2
          have hl := (isPlace_iff p r).1 h2.2
          rw [hl, ← h.1]
          exact (right_same I p op l (hs op h2.1) m).symm
        · rw [if_neg h2] at h; cases h
  | _ => cases h

example : Quiet plain (.lit 2) := by intro m r h; simp [eval] at h; rw [← h]

/-- C132: only operations of the same kind with the place as an operand are reported. -/
theorem misrefactored_iff (p : Place) (op : Op) (rhs : E) :
    (misrefactored p op rhs).isSome = true ↔ ∃ x, rhs = .bin op (.read p) x ∨ (isCommutative op = true ∧ rhs = .bin op x (.read p)) := by
  cases rhs with
  | bin o l r =>
    simp only [misrefactored]
    by_cases ho : op ≠ o
    · rw [if_pos ho]
      constructor
      · intro h; cases h
      · rintro ⟨x, h | ⟨_, h⟩⟩ <;> injection h with h1 <;> exact absurd h1.symm ho
    · rw [if_neg ho]
      have ho : op = o := by simpa using ho
      subst ho
      by_cases h1 : isPlace p l = true
      · rw [if_pos h1]
        have hl := (isPlace_iff p l).1 h1
        subst hl
        exact ⟨fun _ => ⟨r, Or.inl rfl⟩, fun _ => rfl⟩
      · rw [if_neg h1]
        by_cases h2 : (isCommutative op && isPlace p r) = true
        · rw [if_pos h2]
          simp only [Bool.and_eq_true] at h2
          have hl := (isPlace_iff p r).1 h2.2
          subst hl
          exact ⟨fun _ => ⟨l, Or.inr ⟨h2.1, rfl⟩⟩, fun _ => rfl⟩
        · rw [if_neg h2]
          constructor
          · intro h; cases h
          · rintro ⟨x, h | ⟨hc, h⟩⟩
            · injection h with _ h; subst h; exact absurd ((isPlace_iff p _).2 rfl) h1
            · injection h with _ _ h; subst h
              exact absurd (by simp [hc, (isPlace_iff p _).2 rfl]) h2
  | _ =>
    constructor
    · intro h; cases h
    · rintro ⟨x, h | ⟨_, h⟩⟩ <;> cases h

example : (misrefactored (.cell 3) .sub (.bin .sub (.lit 2) (.read (.cell 3)))).isSome = false := by decide +kernel

/-- C132: an assignment of a place to itself is reported, and nothing else; it does nothing. -/
theorem self_nothing (I : Sem) (p : Place) (e : E) : (selfAssignment p e = true ↔ e = .read p) ∧
    (selfAssignment p e = true → ∀ m, assign I p e m = some m) := by
  refine ⟨isPlace_iff p e, fun h m => ?_⟩
  have := (isPlace_iff p e).1 h
  subst this
  simp only [assign, eval, Option.map_some]
  congr 1
  funext b
  simp only [put]
  split
  · rename_i hb; rw [hb]
  · rfl

example : selfAssignment (.idx 5 2) (.read (.idx 5 2)) = true := by decide +kernel

/-! ## Findings -/

/-- `self.x = self.x + self.next()`, where the call changes `self.x`: the old value is read first, in `self.x +=
self.next()` after the call. -/
theorem order_changed : ∃ x, (Op.add, x) ∈ check ints (.cell 3) (.bin .add (.read (.cell 3)) x) ∧
    (assign plain (.cell 3) (.bin .add (.read (.cell 3)) x) mem).map (· 3) ≠ (opAssign plain (.cell 3) .add x mem).map (· 3) :=
  ⟨.call 3 (.lit 1), by decide +kernel, by decide +kernel⟩

/-- `a[i] = a[i] + next(&mut i)`: one element is read and another one written; afterwards it is the same one. -/
theorem index_moved : ∃ x, (Op.add, x) ∈ check ints (.idx 5 2) (.bin .add (.read (.idx 5 2)) x) ∧
    (assign plain (.idx 5 2) (.bin .add (.read (.idx 5 2)) x) mem).map (· 26) ≠
      (opAssign plain (.idx 5 2) .add x mem).map (· 26) :=
  ⟨.call 2 (.lit 1), by decide +kernel, by decide +kernel⟩

/-- The trait for the assigning operator may do something else. -/
theorem trait_differs : ∃ x, (Op.add, x) ∈ check custom (.cell 3) (.bin .add (.read (.cell 3)) x) ∧
    (assign plain (.cell 3) (.bin .add (.read (.cell 3)) x) mem).map (· 3) ≠ (opAssignTrait plain (.cell 3) .add x mem).map (· 3) :=
  ⟨.lit 1, by decide +kernel, by decide +kernel⟩

/-- Only the type of the place has to be primitive for the swap; with a foreign left operand the operator need not commute. -/
theorem foreign_swapped : ∃ (I : Sem) (t : Info) (x : E), t.prim = false ∧ (Op.add, x) ∈ check t (.cell 3) (.bin .add x (.read (.cell 3))) ∧
    (assign I (.cell 3) (.bin .add x (.read (.cell 3))) mem).map (· 3) ≠ (opAssign I (.cell 3) .add x mem).map (· 3) :=
  ⟨⟨fun _ x y => some (x - y), fun _ _ _ => none, fun _ _ _ => none⟩, { custom with assigneePrim := true }, .lit 1, rfl,
    by decide +kernel, by decide +kernel⟩

end Verif.Assign
