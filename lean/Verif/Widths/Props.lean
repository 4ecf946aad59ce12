import Verif.Widths.Model

/-!
# C130: what is said about comparisons after casts is true, and arithmetic with bits is replaced by the same
-/

namespace Verif.Widths

/-! ## Comparisons after casts -/

/-- The value of a side, if the value that is cast is `x`. -/
def Side.value (p : Nat) (x : Int) : Side → Int
  | .cast _ to => castTo p to x
  | .const c => c
  | .other => 0

/-- A relation of two numbers. -/
def Rel.holds (a b : Int) : Rel → Prop
  | .lt => a < b
  | .le => a ≤ b
  | .eq => a = b
  | .ne => a ≠ b

theorem normalize_holds {op : Op} {l r : Side} {rel : Rel} {l' r' : Side} (h : normalize op l r = (rel, l', r')) (p : Nat) (x : Int) :
    rel.holds (l'.value p x) (r'.value p x) ↔ op.holds (l.value p x) (r.value p x) := by
  cases op <;> simp only [normalize, Prod.mk.injEq] at h <;> obtain ⟨rfl, rfl, rfl⟩ := h <;>
    simp only [Rel.holds, Op.holds, ge_iff_le, gt_iff_lt, ne_eq, eq_comm]

theorem claim_right {rel : Rel} {lb ub c v : Int} {a : Bool} (h : claim rel lb ub c false = some a) (h1 : lb ≤ v) (h2 : v ≤ ub) :
    rel.holds v c ↔ a = true := by
  cases rel <;> simp only [claim, Bool.false_eq_true, false_and, true_and, false_or, or_false] at h <;>
    (repeat' split at h) <;> cases h <;> simp only [Rel.holds, iff_true, Bool.false_eq_true, iff_false] <;> omega

theorem claim_right_inv {rel : Rel} {lb ub c v : Int} {a : Bool} (h : claim rel lb ub c true = some a) (h1 : lb ≤ v) (h2 : v ≤ ub) :
    rel.holds c v ↔ a = true := by
  cases rel <;> simp only [claim, Bool.true_eq_false, false_and, true_and, false_or, or_false] at h <;>
    (repeat' split at h) <;> cases h <;> simp only [Rel.holds, iff_true, Bool.false_eq_true, iff_false] <;> omega

/-- The bounds of clippy's machine contain all numbers of the type. -/
theorem bounds_has {host target : Nat} {t : Ty} (ht : t.width ≠ .ptr ∨ target ≤ host) {v : Int} (h : t.has target v) :
    (bounds host t).1 ≤ v ∧ v ≤ (bounds host t).2 := by
  have hb : t.bits target ≤ t.bits host := by
    unfold Ty.bits
    split
    · exact Nat.le_refl _
    · rcases ht with ht | ht
      · exact absurd (by assumption) ht
      · exact ht
  unfold Ty.has at h
  unfold bounds
  by_cases hs : t.signed = true
  · rw [if_pos hs] at h ⊢
    have : (2 : Int) ^ (t.bits target - 1) ≤ (2 : Int) ^ (t.bits host - 1) := by
      exact_mod_cast Nat.pow_le_pow_right (n := 2) (by decide) (Nat.sub_le_sub_right hb 1)
    simp only
    omega
  · rw [if_neg hs] at h ⊢
    have : (2 : Int) ^ (t.bits target) ≤ (2 : Int) ^ (t.bits host) := by
      exact_mod_cast Nat.pow_le_pow_right (n := 2) (by decide) hb
    simp only
    omega

/-- The casts of a comparison keep numbers within the bounds of their old type, and the type is not one whose width clippy
gets wrong. -/
def Tame (host target : Nat) : Side → Prop
  | .cast pre to => (pre.width ≠ .ptr ∨ target ≤ host) ∧ ∀ x, pre.has target x → pre.has target (castTo target to x)
  | _ => True

/-- The value that is cast has its type. -/
def Typed (p : Nat) (x : Int) : Side → Prop
  | .cast pre _ => pre.has p x
  | _ => True

theorem precast_in {host target : Nat} {s : Side} {lb ub : Int} (h : precast host target s = some (lb, ub)) (ht : Tame host target s)
    {x : Int} (hx : Typed target x s) : lb ≤ s.value target x ∧ s.value target x ≤ ub := by
  cases s with
  | cast pre to =>
    by_cases hc : pre.bits target = to.bits target
    · simp [precast, hc] at h
    · simp only [precast, if_neg hc] at h
      have := Option.some.inj h
      have hb := bounds_has ht.1 (ht.2 x hx)
      rw [this] at hb
      exact hb
  | _ => cases h

theorem constant_value {s : Side} {c : Int} (h : constant s = some c) (p : Nat) (x : Int) : s.value p x = c := by
  cases s with
  | const d => cases h; rfl
  | _ => cases h

/-- **C130 (partial).** If clippy says that a comparison is always true (or false), it is, for all values — if casts do not take
numbers out of the bounds of their old type. Missing: casts that wrap — see `sign_extended`, `truncated` — and pointers that
are wider than clippy's own — see `host_width`. -/
theorem said_partial {host target : Nat} {op : Op} {l r : Side} {a : Bool}
    (h : (check host target op l r).1 = some a ∨ (check host target op l r).2 = some a)
    (hl : Tame host target l) (hr : Tame host target r) {x : Int} (hx : Typed target x l) (hy : Typed target x r) :
    op.holds (l.value target x) (r.value target x) ↔ a = true := by
  obtain ⟨rel, l', r', hn⟩ : ∃ rel l' r', normalize op l r = (rel, l', r') := ⟨_, _, _, rfl⟩
  rw [← normalize_holds hn target x]
  have hT : (Tame host target l' ∧ Typed target x l') ∧ Tame host target r' ∧ Typed target x r' := by
    cases op <;> simp only [normalize, Prod.mk.injEq] at hn <;> obtain ⟨rfl, rfl, rfl⟩ := hn <;>
      exact ⟨⟨by assumption, by assumption⟩, by assumption, by assumption⟩
  simp only [check, hn] at h
  rcases h with h | h
  · unfold boundsErr at h
    split at h
    · rename_i lb ub c h1 h2
      have hb := precast_in h1 hT.1.1 hT.1.2
      rw [constant_value h2]
      exact claim_right h hb.1 hb.2
    · cases h
  · unfold boundsErr at h
    split at h
    · rename_i lb ub c h1 h2
      have hb := precast_in h1 hT.2.1 hT.2.2
      rw [constant_value h2]
      exact claim_right_inv h hb.1 hb.2
    · cases h

/-- Casts to a wider type that keep all numbers. -/
def Widens (p : Nat) (pre to : Ty) : Prop :=
  (pre.signed = false ∧ pre.bits p < to.bits p) ∨ (pre.signed = true ∧ to.signed = true ∧ 0 < pre.bits p ∧ pre.bits p ≤ to.bits p)

theorem two_pow_le {a b : Nat} (h : a ≤ b) : (2 : Int) ^ a ≤ (2 : Int) ^ b := by
  exact_mod_cast Nat.pow_le_pow_right (n := 2) (by decide) h

theorem two_pow_pos (a : Nat) : (0 : Int) < (2 : Int) ^ a := by
  exact_mod_cast Nat.two_pow_pos a

theorem two_pow_half {b : Nat} (h : 0 < b) : (2 : Int) ^ b = 2 * (2 : Int) ^ (b - 1) := by
  obtain ⟨c, rfl⟩ : ∃ c, b = c + 1 := ⟨b - 1, by omega⟩
  rw [Int.pow_succ, Nat.add_sub_cancel]
  omega

/-- They do keep all numbers. -/
theorem widens_keeps {p : Nat} {pre to : Ty} (h : Widens p pre to) {x : Int} (hx : pre.has p x) : castTo p to x = x := by
  unfold Ty.has at hx
  unfold castTo
  rcases h with ⟨h1, h2⟩ | ⟨h1, h2, h3, h4⟩
  · rw [h1] at hx
    simp only [Bool.false_eq_true, if_false] at hx
    have h3 := two_pow_le (Nat.le_of_lt h2)
    have h4 := two_pow_le (show pre.bits p ≤ to.bits p - 1 by omega)
    have h5 : x % (2 : Int) ^ to.bits p = x := Int.emod_eq_of_lt hx.1 (by omega)
    simp only [h5]
    rw [if_neg]
    omega
  · rw [h1] at hx
    simp only [if_true] at hx
    have h5 := two_pow_le (show pre.bits p - 1 ≤ to.bits p - 1 by omega)
    have h6 := two_pow_half (b := to.bits p) (by omega)
    have h7 := two_pow_pos (to.bits p - 1)
    simp only [h2, true_and]
    by_cases h0 : 0 ≤ x
    · have h8 : x % (2 : Int) ^ to.bits p = x := Int.emod_eq_of_lt h0 (by omega)
      rw [h8, if_neg (by omega)]
    · have h8 : x % (2 : Int) ^ to.bits p = x + (2 : Int) ^ to.bits p := by
        rw [← Int.add_emod_right, Int.emod_eq_of_lt (by omega) (by omega)]
      rw [h8, if_pos (by omega)]
      omega

/-- So that the theorem above applies to them. -/
theorem widens_tame {host target : Nat} {pre to : Ty} (h : Widens target pre to) (hw : pre.width ≠ .ptr ∨ target ≤ host) :
    Tame host target (.cast pre to) := by
  refine ⟨hw, fun x hx => ?_⟩
  rw [widens_keeps h hx]
  exact hx

/-- `(x as u32) > 300` for `x : u8`; `-5 >= (x as i32)`. -/
example : Widens 64 ⟨false, .fixed 8⟩ ⟨false, .fixed 32⟩ ∧ Widens 64 ⟨true, .fixed 8⟩ ⟨true, .fixed 32⟩ ∧
    check 64 64 .gt (.cast ⟨false, .fixed 8⟩ ⟨false, .fixed 32⟩) (.const 300) = (none, some false) ∧
    check 64 64 .ge (.const (-5)) (.cast ⟨false, .fixed 8⟩ ⟨true, .fixed 32⟩) = (some false, none) := by
  refine ⟨.inl ⟨rfl, by decide⟩, .inr ⟨rfl, rfl, by decide, by decide⟩, by decide, by decide⟩

theorem claim_found {rel : Rel} {lb ub c : Int} {a : Bool} (hne : lb < ub)
    (h : ∀ v, lb ≤ v → v ≤ ub → (rel.holds v c ↔ a = true)) : claim rel lb ub c false = some a := by
  have h1 := h lb (by omega) (by omega)
  have h2 := h ub (by omega) (by omega)
  have h3 : ¬(lb ≤ c ∧ c ≤ ub) ∨ (rel.holds c c ↔ a = true) := by
    by_cases hc : lb ≤ c ∧ c ≤ ub
    · exact .inr (h c hc.1 hc.2)
    · exact .inl hc
  cases rel <;> cases a <;> simp only [Rel.holds, iff_true, Bool.false_eq_true, iff_false, ne_eq, not_true_eq_false, not_false_eq_true, or_false, or_true] at h1 h2 h3 <;>
    simp only [claim, Bool.false_eq_true, false_and, true_and, false_or] <;> repeat' split
  all_goals first | rfl | omega

theorem claim_found_inv {rel : Rel} {lb ub c : Int} {a : Bool} (hne : lb < ub)
    (h : ∀ v, lb ≤ v → v ≤ ub → (rel.holds c v ↔ a = true)) : claim rel lb ub c true = some a := by
  have h1 := h lb (by omega) (by omega)
  have h2 := h ub (by omega) (by omega)
  have h3 : ¬(lb ≤ c ∧ c ≤ ub) ∨ (rel.holds c c ↔ a = true) := by
    by_cases hc : lb ≤ c ∧ c ≤ ub
    · exact .inr (h c hc.1 hc.2)
    · exact .inl hc
  cases rel <;> cases a <;> simp only [Rel.holds, iff_true, Bool.false_eq_true, iff_false, ne_eq, not_true_eq_false, not_false_eq_true, or_false, or_true] at h1 h2 h3 <;>
    simp only [claim, Bool.true_eq_false, false_and, true_and, or_false] <;> repeat' split
  all_goals first | rfl | omega

theorem bounds_exact {p : Nat} {t : Ty} {v : Int} : (bounds p t).1 ≤ v ∧ v ≤ (bounds p t).2 ↔ t.has p v := by
  unfold bounds Ty.has
  by_cases hs : t.signed = true
  · rw [if_pos hs, if_pos hs]
    simp only
    omega
  · rw [if_neg hs, if_neg hs]
    simp only
    omega

theorem bounds_nonempty {p : Nat} {t : Ty} (h : 0 < t.bits p) : (bounds p t).1 < (bounds p t).2 := by
  unfold bounds
  split
  · have := two_pow_pos (t.bits p - 1)
    simp only
    omega
  · have := two_pow_half h
    have := two_pow_pos (t.bits p - 1)
    simp only
    omega

/-- **C130.** Every comparison of a widened value with a constant that is always true (or false) is found, on either side. -/
theorem always_found {p : Nat} {op : Op} {pre to : Ty} {c : Int} {a : Bool} (hw : Widens p pre to) (h0 : 0 < pre.bits p)
    (hb : pre.bits p ≠ to.bits p) :
    ((∀ x, pre.has p x → (op.holds (castTo p to x) c ↔ a = true)) →
      (check p p op (.cast pre to) (.const c)).1 = some a ∨ (check p p op (.cast pre to) (.const c)).2 = some a) ∧
    ((∀ x, pre.has p x → (op.holds c (castTo p to x) ↔ a = true)) →
      (check p p op (.const c) (.cast pre to)).1 = some a ∨ (check p p op (.const c) (.cast pre to)).2 = some a) := by
  have hne := bounds_nonempty h0
  have hv : ∀ v, (bounds p pre).1 ≤ v → v ≤ (bounds p pre).2 → pre.has p v := fun v h1 h2 => bounds_exact.1 ⟨h1, h2⟩
  constructor
  · intro h'
    have h : ∀ x, pre.has p x → (_ ↔ a = true) := fun x hx => widens_keeps hw hx ▸ h' x hx
    cases op <;> simp only [check, normalize, precast, if_neg hb, constant, boundsErr]
    case lt => exact .inl (claim_found hne (fun v h1 h2 => h v (hv v h1 h2)))
    case le => exact .inl (claim_found hne (fun v h1 h2 => h v (hv v h1 h2)))
    case gt => exact .inr (claim_found_inv hne (fun v h1 h2 => h v (hv v h1 h2)))
    case ge => exact .inr (claim_found_inv hne (fun v h1 h2 => h v (hv v h1 h2)))
    case eq => exact .inr (claim_found_inv hne (fun v h1 h2 => by rw [← h v (hv v h1 h2)]; exact eq_comm))
    case ne => exact .inr (claim_found_inv hne (fun v h1 h2 => by rw [← h v (hv v h1 h2)]; exact ne_comm))
  · intro h'
    have h : ∀ x, pre.has p x → (_ ↔ a = true) := fun x hx => widens_keeps hw hx ▸ h' x hx
    cases op <;> simp only [check, normalize, precast, if_neg hb, constant, boundsErr]
    case lt => exact .inr (claim_found_inv hne (fun v h1 h2 => h v (hv v h1 h2)))
    case le => exact .inr (claim_found_inv hne (fun v h1 h2 => h v (hv v h1 h2)))
    case gt => exact .inl (claim_found hne (fun v h1 h2 => h v (hv v h1 h2)))
    case ge => exact .inl (claim_found hne (fun v h1 h2 => h v (hv v h1 h2)))
    case eq => exact .inl (claim_found hne (fun v h1 h2 => by rw [← h v (hv v h1 h2)]; exact eq_comm))
    case ne => exact .inl (claim_found hne (fun v h1 h2 => by rw [← h v (hv v h1 h2)]; exact ne_comm))

/-- Nothing is said about casts between types of the same size. -/
theorem same_size_quiet {host p : Nat} {op : Op} {pre to : Ty} {c : Int} (h : pre.bits p = to.bits p) :
    check host p op (.cast pre to) (.const c) = (none, none) ∧ check host p op (.const c) (.cast pre to) = (none, none) := by
  cases op <;> simp [check, normalize, precast, h, boundsErr]

/-- FINDING: `(x as u32) > 200` for `x : i8` is said to be always false, but -1 becomes 4294967295. -/
theorem sign_extended : check 64 64 .gt (.cast ⟨true, .fixed 8⟩ ⟨false, .fixed 32⟩) (.const 200) = (none, some false) ∧
    Ty.has 64 ⟨true, .fixed 8⟩ (-1) ∧ castTo 64 ⟨false, .fixed 32⟩ (-1) = 4294967295 := by
  refine ⟨by decide, by unfold Ty.has; decide, by decide⟩

/-- FINDING: `(x as i8) >= 0` for `x : u32` is said to be always true, but 200 becomes -56. -/
theorem truncated : check 64 64 .ge (.cast ⟨false, .fixed 32⟩ ⟨true, .fixed 8⟩) (.const 0) = (none, some true) ∧
    Ty.has 64 ⟨false, .fixed 32⟩ 200 ∧ castTo 64 ⟨true, .fixed 8⟩ 200 = -56 := by
  refine ⟨by decide, by unfold Ty.has; decide, by decide⟩

/-- FINDING: the bounds of `usize` are those of the machine that clippy was built for: with 32 bits there and 64 bits for the
program, `(x as u128) > 1 << 40` is said to be always false. -/
theorem host_width : check 32 64 .gt (.cast ⟨false, .ptr⟩ ⟨false, .fixed 128⟩) (.const 1099511627776) = (none, some false) ∧
    Ty.has 64 ⟨false, .ptr⟩ 1099511627777 ∧ castTo 64 ⟨false, .fixed 128⟩ 1099511627777 = 1099511627777 := by
  refine ⟨by decide, by unfold Ty.has; decide, by decide⟩

/-! ## Widths of numbers -/

theorem leadingZeros_le (b n : Nat) : leadingZeros b n ≤ b := by
  induction b with
  | zero => exact Nat.le_refl _
  | succ b ih =>
    unfold leadingZeros
    split <;> omega

/-- **C130.** `T::BITS - x.leading_zeros()` is the number of bits that are needed for `x`, which is what `bit_width()` gives. -/
theorem width_same {b n : Nat} (h : n < 2 ^ b) : IsWidth n (b - leadingZeros b n) := by
  induction b with
  | zero => exact ⟨h, fun j _ => Nat.zero_le j⟩
  | succ b ih =>
    unfold leadingZeros
    by_cases ht : n.testBit b = true
    · rw [if_pos ht]
      refine ⟨h, fun j hj => ?_⟩
      have h1 := Nat.ge_two_pow_of_testBit ht
      have h2 : 2 ^ b < 2 ^ j := by omega
      have := (Nat.pow_lt_pow_iff_right (a := 2) (by decide)).1 h2
      omega
    · rw [if_neg ht]
      have h1 : n < 2 ^ b := by
        rw [Nat.testBit_eq_decide_div_mod_eq, decide_eq_true_eq] at ht
        have h3 : n / 2 ^ b < 2 := by
          rw [Nat.div_lt_iff_lt_mul (Nat.two_pow_pos b)]
          rw [Nat.pow_succ] at h
          omega
        have h4 : n / 2 ^ b = 0 := by
          generalize n / 2 ^ b = q at ht h3
          omega
        rcases Nat.div_eq_zero_iff.1 h4 with h5 | h5
        · have := Nat.two_pow_pos b
          omega
        · exact h5
      have := leadingZeros_le b n
      rw [show b + 1 - (1 + leadingZeros b n) = b - leadingZeros b n by omega]
      exact ih h1

/-- There is only one such number. -/
theorem width_unique {n k k' : Nat} (h : IsWidth n k) (h' : IsWidth n k') : k = k' :=
  Nat.le_antisymm (h.2 _ h'.1) (h'.2 _ h.1)

example : IsWidth 5 (32 - leadingZeros 32 5) ∧ 32 - leadingZeros 32 5 = 3 := ⟨width_same (by decide), by decide +kernel⟩

/-- The suggestion is machine-applicable exactly if the types are the same; signed numbers are made unsigned, and the results for
`NonZero` are unpacked. -/
theorem width_marked (l r : Kind) : ((bitWidth l r).2 = true ↔ l = r) ∧
    ((bitWidth l r).1.castUnsigned = true ↔ ∃ w, r = .int w ∨ r = .nonZero w) ∧
    ((bitWidth l r).1.get = true ↔ ∃ w, r = .nonZero w ∨ r = .nonZeroU w) := by
  refine ⟨by simp [bitWidth], ?_, ?_⟩ <;> cases r <;> simp [bitWidth, Kind.methods]

/-! ## The lowest one -/

theorem lowest {b n : Nat} (h0 : 0 < n) (h : n < 2 ^ b) :
    ∃ k, n &&& (2 ^ b - n) = 2 ^ k ∧ n.testBit k = true ∧ ∀ j, j < k → n.testBit j = false := by
  induction b generalizing n with
  | zero =>
    simp at h
    omega
  | succ b ih =>
    have hp : 2 ^ (b + 1) = 2 * 2 ^ b := by
      rw [Nat.pow_succ]
      omega
    obtain ⟨m, rfl | rfl⟩ : ∃ m, n = 2 * m ∨ n = 2 * m + 1 := ⟨n / 2, by omega⟩
    · have hm : m < 2 ^ b := by omega
      obtain ⟨k, h1, h2, h3⟩ := ih (n := m) (by omega) hm
      refine ⟨k + 1, ?_, ?_, ?_⟩
      · rw [hp, ← Nat.mul_sub, Nat.pow_succ, ← h1]
        apply Nat.eq_of_testBit_eq
        intro i
        cases i with
        | zero => simp [Nat.testBit_and, Nat.testBit_zero]
        | succ i =>
          rw [Nat.testBit_and, Nat.testBit_succ, Nat.testBit_succ, Nat.testBit_succ,
            show 2 * m / 2 = m by omega, show 2 * (2 ^ b - m) / 2 = 2 ^ b - m by omega,
            Nat.mul_div_cancel _ (by decide), Nat.testBit_and]
      · simpa [Nat.testBit_succ] using h2
      · intro j hj
        cases j with
        | zero => simp [Nat.testBit_zero]
        | succ j => simpa [Nat.testBit_succ] using h3 j (by omega)
    · refine ⟨0, ?_, by simp [Nat.testBit_zero], fun j hj => absurd hj (by omega)⟩
      have hm : m < 2 ^ b := by omega
      rw [hp, show 2 * 2 ^ b - (2 * m + 1) = 2 * (2 ^ b - (m + 1)) + 1 by omega]
      apply Nat.eq_of_testBit_eq
      intro i
      cases i with
      | zero => simp [Nat.testBit_and, Nat.testBit_zero]
      | succ i =>
        have e1 : (2 * m + 1) / 2 = m := by omega
        have e2 : (2 * (2 ^ b - (m + 1)) + 1) / 2 = 2 ^ b - (m + 1) := by omega
        rw [Nat.testBit_and, Nat.testBit_succ, Nat.testBit_succ, e1, e2, Nat.testBit_two_pow_sub_succ hm]
        have : (2 ^ 0).testBit (i + 1) = false := by simp [Nat.testBit_succ]
        rw [this]
        cases m.testBit i <;> simp

/-- **C130.** `x & x.wrapping_neg()` leaves the lowest one, which is what `isolate_lowest_one()` gives. -/
theorem lowest_same {b n : Nat} (h : n < 2 ^ b) : IsLowest n (n &&& wrappingNeg b n) := by
  rcases Nat.eq_zero_or_pos n with rfl | h0
  · exact .inl ⟨rfl, by simp⟩
  · right
    obtain ⟨k, h1, h2⟩ := lowest h0 h
    refine ⟨k, ?_, h2⟩
    unfold wrappingNeg
    rw [Nat.mod_eq_of_lt (by omega)]
    exact h1

/-- There is only one such number. -/
theorem lowest_unique {n m m' : Nat} (h : IsLowest n m) (h' : IsLowest n m') : m = m' := by
  rcases h with ⟨rfl, rfl⟩ | ⟨k, rfl, h1, h2⟩
  · rcases h' with ⟨_, rfl⟩ | ⟨k', rfl, h3, _⟩
    · rfl
    · simp at h3
  · rcases h' with ⟨rfl, _⟩ | ⟨k', rfl, h3, h4⟩
    · simp at h1
    · rcases Nat.lt_trichotomy k k' with hk | rfl | hk
      · rw [h4 k hk] at h1
        cases h1
      · rfl
      · rw [h2 k' hk] at h3
        cases h3

/-- The value of an operand, in `b` bits: `none` is a panic. -/
def E.eval (b : Nat) (env : Nat → Nat) : E → Option Nat
  | .var v => some (env v)
  | .nz v => some (env v)
  | .get e => e.eval b env
  | .wrappingNeg e => (e.eval b env).map (Widths.wrappingNeg b)
  | .neg e => (e.eval b env).bind (Widths.neg b)
  | .other => none

/-- The value of `l & r`. -/
def andEval (b : Nat) (env : Nat → Nat) (l r : E) : Option Nat :=
  (l.eval b env).bind (fun x => (r.eval b env).map (x &&& ·))

theorem thenSome_eq {a b c : E} (h : thenSome a b = some c) : c = a ∧ ((∃ v, a = .var v ∧ b = .var v) ∨ ∃ v, a = .nz v ∧ b = .nz v) := by
  unfold thenSome at h
  by_cases hs : sameVar a b = true
  · rw [if_pos hs] at h
    have := Option.some.inj h
    refine ⟨this.symm, ?_⟩
    unfold sameVar at hs
    split at hs
    · exact .inl ⟨_, rfl, by rw [beq_iff_eq.1 hs]⟩
    · exact .inr ⟨_, rfl, by rw [beq_iff_eq.1 hs]⟩
    · cases hs
  · rw [if_neg hs] at h
    cases h

/-- The operands that are recognised: a variable (or its `get()`), and its negation. -/
def Pair (l r base : E) (g : Bool) : Prop :=
  ∃ v, (g = false ∧ base = .var v ∧ l = .var v ∧ (r = .wrappingNeg (.var v) ∨ r = .neg (.var v))) ∨
    (g = true ∧ base = .nz v ∧ l = .get (.nz v) ∧ (r = .wrappingNeg (.get (.nz v)) ∨ r = .neg (.get (.nz v))))

theorem getReceiver_eq {e r : E} (h : getReceiver e = some r) : e = .get r := by
  unfold getReceiver at h
  split at h
  · cases h; rfl
  · cases h; rfl
  · cases h

theorem negReceiver_eq {e r : E} (h : negReceiver e = some r) : e = .wrappingNeg r := by
  unfold negReceiver at h
  split at h <;> cases h; rfl

theorem negInner_eq {e r : E} (h : negInner e = some r) : e = .neg r := by
  unfold negInner at h
  split at h <;> cases h; rfl

theorem isInt_eq {o : Option E} (h : isInt o = true) : ∃ v, o = some (.var v) := by
  unfold isInt at h
  split at h
  · exact ⟨_, rfl⟩
  · cases h

theorem isNz_eq {o : Option E} (h : isNz o = true) : ∃ v, o = some (.nz v) := by
  unfold isNz at h
  split at h
  · exact ⟨_, rfl⟩
  · cases h

theorem matchWrapping_pair {l r : E} {v : Nat} (h : matchWrapping l r = some (.var v)) : Pair l r (.var v) false := by
  obtain ⟨n, h1, h2⟩ := Option.bind_eq_some_iff.1 h
  have := negReceiver_eq h1
  subst this
  obtain ⟨h3, ⟨u, rfl, rfl⟩ | ⟨u, rfl, rfl⟩⟩ := thenSome_eq h2
  · cases h3
    exact ⟨v, .inl ⟨rfl, rfl, rfl, .inl rfl⟩⟩
  · cases h3

theorem matchNeg_pair {l r : E} {v : Nat} (h : matchNeg l r = some (.var v)) : Pair l r (.var v) false := by
  obtain ⟨n, h1, h2⟩ := Option.bind_eq_some_iff.1 h
  have := negInner_eq h1
  subst this
  obtain ⟨h3, ⟨u, rfl, rfl⟩ | ⟨u, rfl, rfl⟩⟩ := thenSome_eq h2
  · cases h3
    exact ⟨v, .inl ⟨rfl, rfl, rfl, .inr rfl⟩⟩
  · cases h3

theorem matchNzWrapping_pair {l r : E} {v : Nat} (h : matchNzWrapping l r = some (.nz v)) : Pair l r (.nz v) true := by
  obtain ⟨g, h0, h4⟩ := Option.bind_eq_some_iff.1 h
  obtain ⟨n, h1, h5⟩ := Option.bind_eq_some_iff.1 h4
  obtain ⟨m, h2, h6⟩ := Option.bind_eq_some_iff.1 h5
  have := getReceiver_eq h0
  subst this
  have := negReceiver_eq h1
  subst this
  have := getReceiver_eq h2
  subst this
  obtain ⟨h3, ⟨u, rfl, rfl⟩ | ⟨u, rfl, rfl⟩⟩ := thenSome_eq h6
  · cases h3
  · cases h3
    exact ⟨v, .inr ⟨rfl, rfl, rfl, .inl rfl⟩⟩

theorem matchNzNeg_pair {l r : E} {v : Nat} (h : matchNzNeg l r = some (.nz v)) : Pair l r (.nz v) true := by
  obtain ⟨g, h0, h4⟩ := Option.bind_eq_some_iff.1 h
  obtain ⟨n, h1, h5⟩ := Option.bind_eq_some_iff.1 h4
  obtain ⟨m, h2, h6⟩ := Option.bind_eq_some_iff.1 h5
  have := getReceiver_eq h0
  subst this
  have := negInner_eq h1
  subst this
  have := getReceiver_eq h2
  subst this
  obtain ⟨h3, ⟨u, rfl, rfl⟩ | ⟨u, rfl, rfl⟩⟩ := thenSome_eq h6
  · cases h3
  · cases h3
    exact ⟨v, .inr ⟨rfl, rfl, rfl, .inr rfl⟩⟩

theorem or_cases {a b : Option E} {e : E} (h : a.or b = some e) : a = some e ∨ b = some e := by
  cases a with
  | none => exact .inr h
  | some x => exact .inl h

/-- What is recognised is a variable and its negation, in either order. -/
theorem isolate_pair {signed : Bool} {l r base : E} {g : Bool} (h : isolate signed l r = some (base, g)) :
    Pair l r base g ∨ Pair r l base g := by
  unfold isolate at h
  split at h
  · rename_i hi
    obtain ⟨v, hv⟩ := isInt_eq hi
    rw [hv] at h
    cases h
    rcases or_cases hv with h | h
    · exact .inl (matchWrapping_pair h)
    · exact .inr (matchWrapping_pair h)
  · split at h
    · rename_i hi
      obtain ⟨v, hv⟩ := isInt_eq (Bool.and_eq_true _ _ ▸ hi).2
      rw [hv] at h
      cases h
      rcases or_cases hv with h | h
      · exact .inl (matchNeg_pair h)
      · exact .inr (matchNeg_pair h)
    · split at h
      · rename_i hi
        obtain ⟨v, hv⟩ := isNz_eq hi
        rw [hv] at h
        cases h
        rcases or_cases hv with h | h
        · exact .inl (matchNzWrapping_pair h)
        · exact .inr (matchNzWrapping_pair h)
      · split at h
        · rename_i hi
          obtain ⟨v, hv⟩ := isNz_eq (Bool.and_eq_true _ _ ▸ hi).2
          rw [hv] at h
          cases h
          rcases or_cases hv with h | h
          · exact .inl (matchNzNeg_pair h)
          · exact .inr (matchNzNeg_pair h)
        · cases h

theorem neg_some {b n m : Nat} (h : neg b n = some m) : m = wrappingNeg b n := by
  unfold neg at h
  split at h
  · cases h
  · exact (Option.some.inj h).symm

theorem pair_value {b : Nat} {env : Nat → Nat} {l r base : E} {g : Bool} (h : Pair l r base g) {m : Nat}
    (hm : andEval b env l r = some m ∨ andEval b env r l = some m) :
    ∃ x, base.eval b env = some x ∧ m = x &&& wrappingNeg b x := by
  obtain ⟨v, ⟨_, rfl, rfl, rfl | rfl⟩ | ⟨_, rfl, rfl, rfl | rfl⟩⟩ := h
  all_goals refine ⟨env v, rfl, ?_⟩
  · simp only [andEval, E.eval, Option.bind_some, Option.map_some, Option.some.injEq] at hm
    rcases hm with hm | hm
    · exact hm.symm
    · rw [← hm, Nat.and_comm]
  · simp only [andEval, E.eval, Option.bind_some] at hm
    cases hn : neg b (env v) with
    | none => simp [hn] at hm
    | some y =>
      simp only [hn, Option.bind_some, Option.map_some, Option.some.injEq] at hm
      rw [← neg_some hn]
      rcases hm with hm | hm
      · exact hm.symm
      · rw [← hm, Nat.and_comm]
  · simp only [andEval, E.eval, Option.bind_some, Option.map_some, Option.some.injEq] at hm
    rcases hm with hm | hm
    · exact hm.symm
    · rw [← hm, Nat.and_comm]
  · simp only [andEval, E.eval, Option.bind_some] at hm
    cases hn : neg b (env v) with
    | none => simp [hn] at hm
    | some y =>
      simp only [hn, Option.bind_some, Option.map_some, Option.some.injEq] at hm
      rw [← neg_some hn]
      rcases hm with hm | hm
      · exact hm.symm
      · rw [← hm, Nat.and_comm]

/-- **C130 (partial).** Where `isolate_lowest_one()` is suggested, the original has its value unless it panics. Missing: the panic for the least
number — see `neg_min`. -/
theorem isolate_partial {signed : Bool} {l r base : E} {g : Bool} (h : isolate signed l r = some (base, g)) {b : Nat} {env : Nat → Nat}
    (he : ∀ v, env v < 2 ^ b) {m : Nat} (hm : andEval b env l r = some m) :
    ∃ x, base.eval b env = some x ∧ IsLowest x m := by
  have key : ∃ x, base.eval b env = some x ∧ m = x &&& wrappingNeg b x := by
    rcases isolate_pair h with hp | hp
    · exact pair_value hp (.inl hm)
    · exact pair_value hp (.inr hm)
  obtain ⟨x, hx, rfl⟩ := key
  refine ⟨x, hx, lowest_same ?_⟩
  have hv : ∃ v, x = env v := by
    rcases isolate_pair h with ⟨v, ⟨_, rfl, _⟩ | ⟨_, rfl, _⟩⟩ | ⟨v, ⟨_, rfl, _⟩ | ⟨_, rfl, _⟩⟩ <;>
      exact ⟨v, (Option.some.inj hx).symm⟩
  obtain ⟨v, rfl⟩ := hv
  exact he v

/-- All forms are found: either order, and `-x` for signed types only. -/
theorem isolate_found (signed : Bool) (v : Nat) :
    isolate signed (.var v) (.wrappingNeg (.var v)) = some (.var v, false) ∧
    isolate signed (.wrappingNeg (.var v)) (.var v) = some (.var v, false) ∧
    isolate signed (.get (.nz v)) (.wrappingNeg (.get (.nz v))) = some (.nz v, true) ∧
    isolate signed (.wrappingNeg (.get (.nz v))) (.get (.nz v)) = some (.nz v, true) ∧
    (isolate signed (.var v) (.neg (.var v)) = some (.var v, false) ↔ signed = true) ∧
    (isolate signed (.neg (.get (.nz v))) (.get (.nz v)) = some (.nz v, true) ↔ signed = true) := by
  cases signed <;>
    simp [isolate, matchWrapping, matchNeg, matchNzWrapping, matchNzNeg, negReceiver, negInner, getReceiver, thenSome, sameVar, isInt, isNz]

/-- FINDING: `x & -x` panics for the least number (with checks for overflow), the suggestion gives that number. -/
theorem neg_min : isolate true (.var 0) (.neg (.var 0)) = some (.var 0, false) ∧
    andEval 8 (fun _ => 128) (.var 0) (.neg (.var 0)) = none ∧ IsLowest 128 128 := by
  refine ⟨by decide, by decide, .inr ⟨7, rfl, by decide, ?_⟩⟩
  decide

/-! ## Remainders -/

/-- The number that the operand stands for. -/
def Right.value : Right → Option Int
  | .lit n => some n
  | .neg n => some (-n)
  | .const _ n => some n
  | .unknown => none

/-- Constants have the numbers of their types. -/
def Right.Typed : Right → Prop
  | .const false n => 0 ≤ n
  | _ => True

/-- **C130.** What is said about remainders is true: the divisor is 1 or -1, and the remainder is 0 (or an overflow). -/
theorem modulo_said {r : Right} (hr : r.Typed) {s : Said} (h : moduloOne r = some s) :
    (s = .one → r.value = some 1) ∧ (s = .minusOne → r.value = some (-1)) ∧ ∃ d, r.value = some d ∧ ∀ x : Int, x.tmod d = 0 := by
  unfold moduloOne at h
  split at h
  · rename_i he
    cases h
    have hv : r.value = some (-1) := by
      cases r with
      | lit n => cases he
      | neg n =>
        simp only [evalInt, Option.some.injEq, Full.s.injEq] at he
        simp [Right.value, he]
      | const sg n =>
        cases sg
        · cases he
        · simp only [evalInt, Option.some.injEq, Full.s.injEq] at he
          simp [Right.value, he]
      | unknown => cases he
    refine ⟨(fun h => by cases h), fun _ => hv, -1, hv, fun x => ?_⟩
    simp [Int.tmod_neg]
  · rename_i he
    cases h
    have hv : r.value = some 1 := by
      cases r with
      | lit n =>
        simp only [evalInt, Option.some.injEq, Full.u.injEq] at he
        simp [Right.value, he]
      | neg n => cases he
      | const sg n =>
        cases sg
        · simp only [evalInt, Option.some.injEq, Full.u.injEq] at he
          have : n = 1 := by
            simp only [Right.Typed] at hr
            omega
          simp [Right.value, this]
        · cases he
      | unknown => cases he
    exact ⟨fun _ => hv, (fun h => by cases h), 1, hv, fun x => Int.tmod_one x⟩
  · cases h

example : moduloOne (.lit 1) = some .one ∧ moduloOne (.neg 1) = some .minusOne ∧ moduloOne (.const false 1) = some .one := by decide

/-- FINDING (incomplete): a constant one of a signed type is not found, `x % ONE` with `const ONE: i32 = 1`. -/
theorem signed_one_missed : moduloOne (.const true 1) = none ∧ (Right.const true 1).value = some 1 := by decide

end Verif.Widths
