import Verif.Indexing.Model
import Verif.Indexing.Spec

/-!
# C80: verdicts about indices are true
-/

namespace Verif.Indexing

theorem constStart_eq {bits : Nat} {b : Option Bound} {s : Option Nat} {x : Nat}
    (h : constStart b = some x) (hv : BoundVal bits b s) : s.getD 0 = x := by
  cases hv with
  | none => cases h; rfl
  | @some b n _ ha =>
    obtain ⟨_ | (c | _)⟩ := b
    · cases h
    · cases h; exact (ha _ rfl).symm
    · cases h

theorem constEnd_eq {bits : Nat} {b : Option Bound} {e : Option Nat} {x len : Nat} {c : Bool}
    (h : constEnd c len b = some x) (hv : BoundVal bits b e) :
    endVal len c e = x := by
  cases hv with
  | none => cases h; rfl
  | @some b n _ ha =>
    obtain ⟨_ | (k | _)⟩ := b
    · cases h
    · have := ha _ rfl
      subst this
      cases c <;> (cases h; rfl)
    · cases h

theorem any_some {o : Option Nat} {p : Nat → Bool} (h : o.any p = true) : ∃ x, o = some x ∧ p x = true := by
  cases o with
  | none => cases h
  | some x => exact ⟨x, rfl, h⟩

/-- **C80.**  Indexing that `out_of_bounds_indexing` reports panics, whenever it is evaluated. -/
theorem out_of_bounds_panics {env : Env} {bits : Nat} {b : Base} {i : Index} {r : Report} {len : Nat}
    {v : Val} (h : check env b i = some r) (hr : r ≠ .mayPanic) (hl : lenOk bits b len)
    (hv : Has bits i v) : panics len v := by
  unfold check at h
  by_cases h1 : (env.suppressInConst && env.inConst) = true
  · rw [if_pos h1] at h; cases h
  rw [if_neg h1] at h
  by_cases h2 : (b == .other) = true
  · rw [if_pos h2] at h; cases h
  rw [if_neg h2] at h
  by_cases h3 : env.procMacro = true
  · rw [if_pos h3] at h; cases h
  rw [if_neg h3] at h
  have may : ∀ r', rangeMayPanic env r' = some r → False := by
    intro r' h
    unfold rangeMayPanic at h
    split at h
    · cases h
    · split at h
      · cases h
      · cases h; exact hr rfl
  cases hv with
  | @range rg s e hs he =>
    simp only at h
    match b with
    | .array none => cases h
    | .other => exact (may _ h).elim
    | .sliceLike => exact (may _ h).elim
    | .array (some size) =>
      have hl : len = size := hl
      subst hl
      simp only [checkRange] at h
      show rangePanics len s e rg.closed
      unfold rangePanics
      split at h
      · rename_i hx
        obtain ⟨x, hx, hlt⟩ := any_some hx
        have := constStart_eq hx hs
        have hlt := of_decide_eq_true hlt
        omega
      · split at h
        · rename_i _ hx
          obtain ⟨x, hx, hlt⟩ := any_some hx
          have := constEnd_eq hx he
          have hlt := of_decide_eq_true hlt
          omega
        · split at h
          · cases h
          · exact (may _ h).elim
  | @single bd cb n hn ha =>
    have sliceLike : ∀ {x : Prop}, (if (env.allowInTests && env.inTest) = true then none
        else some Report.mayPanic) = some r → x := by
      intro x h
      split at h
      · cases h
      · cases h; exact absurd rfl hr
    simp only [checkSingle] at h
    split at h
    · rename_i size c ec
      split at h
      · cases h
      · unfold checkConst at h
        split at h
        · rename_i off size
          split at h
          · rename_i hc
            have hl : len = size := hl
            simp only [Bool.and_eq_true, decide_eq_true_eq] at hc
            have := ha _ ec
            show len ≤ n
            omega
          · cases h
        · cases h
    · split at h
      · cases h
      · exact sliceLike h
    · exact sliceLike h
  | other =>
    have sliceLike : ∀ {x : Prop}, (if (env.allowInTests && env.inTest) = true then none
        else some Report.mayPanic) = some r → x := by
      intro x h
      split at h
      · cases h
      · cases h; exact absurd rfl hr
    simp only [checkSingle] at h
    split at h
    · split at h
      · cases h
      · unfold checkConst at h
        split at h
        · split at h
          · rename_i hc; simp at hc
          · cases h
        · cases h
    · split at h
      · cases h
      · exact sliceLike h
    · exact sliceLike h

theorem const_order {st en : Option Bound} {c : Bool} {len x y : Nat} (ex : constStart st = some x)
    (ey : constEnd c len en = some y) (hx : x ≤ len)
    (ho : ∀ x y, st = some ⟨some (.int x)⟩ → en = some ⟨some (.int y)⟩ → x ≤ if c then y + 1 else y) :
    x ≤ y := by
  match st, en with
  | none, _ => cases ex; exact Nat.zero_le _
  | _, none => cases ey; exact hx
  | some ⟨some (.int k)⟩, some ⟨some (.int l)⟩ =>
    have := ho k l rfl rfl
    cases ex
    cases c <;> (cases ey; exact this)
  | some ⟨none⟩, _ => cases ex
  | some ⟨some .other⟩, _ => cases ex
  | _, some ⟨none⟩ => cases ey
  | _, some ⟨some .other⟩ => cases ey

/-- `x[4]` and `x[..=4]` of an array with four items are reported, where nothing switches that off. -/
example : check ⟨true, false, false, false, false, 64⟩ (.array (some 4)) (.single ⟨some (.int 4)⟩ false true)
      = some .index ∧
    check ⟨true, false, false, false, false, 64⟩ (.array (some 4)) (.range ⟨none, some ⟨some (.int 4)⟩, true⟩)
      = some .end_ ∧
    Has 64 (.range ⟨none, some ⟨some (.int 4)⟩, true⟩) (.range none (some 4) true) :=
  ⟨by decide +kernel, by decide +kernel, .range .none (.some (by decide) fun _ h => by cases h; rfl)⟩

/-- Nothing switches the lints off. -/
def Env.On (env : Env) : Prop :=
  (env.suppressInConst && env.inConst) = false ∧ env.procMacro = false ∧
    (env.allowInTests && env.inTest) = false

/-- What the lints leave out: arrays whose size is not known, `const` blocks, constants that are
ranges, and ranges that end before they begin. -/
inductive Seen : Base → Index → Prop
  | range {b r} : b ≠ .array none →
      (∀ x y, r.start = some ⟨some (.int x)⟩ → r.end_ = some ⟨some (.int y)⟩ →
        x ≤ if r.closed then y + 1 else y) → Seen b (.range r)
  | item {b e} : b ≠ .array none → (∀ c, e.const = some c → c ≠ .other) → Seen b (.single e false true)
  | other {b} : Seen b (.single ⟨none⟩ false false)

/-- **C80.**  Where both lints are silent, indexing does not panic.  Missing, and false, see
`Verif.Indexing.Witness`: what is not in `Seen`, and types that are neither arrays nor known to be
like slices. -/
theorem silent_safe_partial {env : Env} {bits : Nat} {b : Base} {i : Index} {len : Nat}
    {v : Val} (h : check env b i = none) (he : env.On) (hb : b ≠ .other) (hh : bits ≤ env.host)
    (hi : Seen b i) (hl : lenOk bits b len) (hv : Has bits i v) : ¬ panics len v := by
  obtain ⟨h1, h3, h4⟩ := he
  have h2 : ¬ (b == .other) = true := fun e => hb (eq_of_beq e)
  unfold check at h
  rw [if_neg (by rw [h1]; decide), if_neg h2, if_neg (by rw [h3]; decide)] at h
  have may : ∀ r', rangeMayPanic env r' = none → r'.start = none ∧ r'.end_ = none := by
    intro r' h
    unfold rangeMayPanic at h
    split at h
    · rename_i hc
      simpa using hc
    · rw [h4] at h; cases h
  have whole : ∀ {s e} {r : Range}, r.start = none ∧ r.end_ = none → BoundVal bits r.start s →
      BoundVal bits r.end_ e → ¬ rangePanics len s e r.closed := by
    intro s e r hn hs he
    rw [hn.1] at hs; rw [hn.2] at he
    cases hs; cases he
    simp [rangePanics, endVal]
  cases hv with
  | @range rg s e hs he =>
    simp only at h
    cases hi with
    | range hn ho =>
      show ¬ rangePanics len s e rg.closed
      match b with
      | .array none => exact absurd rfl hn
      | .other => exact absurd rfl hb
      | .sliceLike => exact whole (may _ h) hs he
      | .array (some size) =>
        have hl : len = size := hl
        subst hl
        simp only [checkRange] at h
        split at h
        · cases h
        · rename_i hx
          split at h
          · cases h
          · rename_i hy
            split at h
            · rename_i hc
              rw [Bool.and_eq_true] at hc
              obtain ⟨x, ex⟩ := Option.isSome_iff_exists.mp hc.1
              obtain ⟨y, ey⟩ := Option.isSome_iff_exists.mp hc.2
              have e1 := constStart_eq ex hs
              have e2 := constEnd_eq ey he
              rw [ex] at hx; rw [ey] at hy
              simp only [Option.any_some, decide_eq_true_eq] at hx hy
              unfold rangePanics
              have hxy : x ≤ y := const_order ex ey (by omega) ho
              omega
            · exact whole (may _ h) hs he
  | @single bd cb n hn ha =>
    show ¬ len ≤ n
    cases hi with
    | item hno hc =>
      simp only [checkSingle] at h
      split at h
      · rename_i size c ec
        match size, c with
        | none, _ => exact absurd rfl hno
        | some size, .other => exact absurd rfl (hc _ ec)
        | some size, .int off =>
          have hl : len = size := hl
          have := ha _ ec
          simp only [checkConst, Bool.false_eq_true, if_false] at h
          split at h
          · cases h
          · rename_i hx
            have : 2 ^ bits ≤ 2 ^ env.host := Nat.pow_le_pow_right (by decide) hh
            simp only [Bool.and_eq_true, decide_eq_true_eq, Bool.and_true] at hx
            omega
      · rw [h4] at h; cases h
      · rw [h4] at h; cases h
  | other =>
    cases hi with
    | other =>
      simp only [checkSingle] at h
      split at h
      · rename_i ec; cases ec
      · rw [h4] at h; cases h
      · rw [h4] at h; cases h

/-- `x[1..=3]` and `x[3]` of an array with four items. -/
example : Seen (.array (some 4)) (.range ⟨some ⟨some (.int 1)⟩, some ⟨some (.int 3)⟩, true⟩) ∧
    Seen (.array (some 4)) (.single ⟨some (.int 3)⟩ false true) ∧
    check ⟨true, false, false, false, false, 64⟩ (.array (some 4))
      (.range ⟨some ⟨some (.int 1)⟩, some ⟨some (.int 3)⟩, true⟩) = none ∧
    check ⟨true, false, false, false, false, 64⟩ (.array (some 4)) (.single ⟨some (.int 3)⟩ false true) = none :=
  ⟨.range (by decide) (fun _ _ h h' => by cases h; cases h'; decide),
    .item (by decide) (fun _ h => by cases h; decide), by decide +kernel, by decide +kernel⟩

/-- Ranges of slices that never panic although they are reported: `[0..]`, `[..0]` and `[0..0]`. -/
def Harmless (r : Range) : Prop :=
  (r.start = none ∨ r.start = some ⟨some (.int 0)⟩) ∧
    (r.end_ = none ∨ (r.closed = false ∧ r.end_ = some ⟨some (.int 0)⟩))

/-- The constants are values of `usize`. -/
def boundOk (bits : Nat) (b : Bound) : Prop := ∀ c, b.const = some (.int c) → c < 2 ^ bits

/-- A value that the bound can have: the constant, or any other. -/
theorem pick {bits : Nat} (b : Bound) (hb : boundOk bits b) (n : Nat) (hn : n < 2 ^ bits) :
    ∃ m, BoundVal bits (some b) (some m) ∧ (∀ c, b.const = some (.int c) → m = c) ∧
      ((∀ c, b.const ≠ some (.int c)) → m = n) := by
  obtain ⟨_ | (c | _)⟩ := b
  · exact ⟨n, .some hn (fun c h => by cases h), (fun c h => by cases h), fun _ => rfl⟩
  · exact ⟨c, .some (hb _ rfl) (fun _ h => by cases h; rfl), (fun _ h => by cases h; rfl),
      fun h => absurd rfl (h c)⟩
  · exact ⟨n, .some hn (fun c h => by cases h), (fun c h => by cases h), fun _ => rfl⟩

theorem pickOpt {bits : Nat} (b : Option Bound) (hb : ∀ e, b = some e → boundOk bits e) (n : Nat)
    (hn : n < 2 ^ bits) : ∃ m, BoundVal bits b m ∧ (b = none → m = none) ∧
      (∀ c, b = some ⟨some (.int c)⟩ → m = some c) ∧
      (b ≠ none → (∀ c, b ≠ some ⟨some (.int c)⟩) → m = some n) := by
  cases b with
  | none => exact ⟨none, .none, fun _ => rfl, (fun c h => by cases h), fun h => absurd rfl h⟩
  | some b =>
    obtain ⟨m, h1, h2, h3⟩ := pick b (hb b rfl) n hn
    refine ⟨some m, h1, (fun h => by cases h), fun c h => ?_, fun _ h => ?_⟩
    · cases h; rw [h2 c rfl]
    · rw [h3 fun c hc => h c (by obtain ⟨_⟩ := b; simp only at hc; rw [hc])]

/-- **C80.**  Where `indexing_slicing` reports, there are values of the variables for which indexing
panics.  Missing, and false, see `Verif.Indexing.Witness`: `Harmless` ranges. -/
theorem mayPanic_can_partial {env : Env} {bits : Nat} {b : Base} {i : Index}
    (h : check env b i = some .mayPanic)
    (hh : ∀ r, i = .range r → ¬ Harmless r)
    (hbits : 1 < 2 ^ bits) (hsize : ∀ n, b = .array (some n) → n + 1 < 2 ^ bits)
    (hok : match i with
      | .range r => (∀ e, r.start = some e → boundOk bits e) ∧ ∀ e, r.end_ = some e → boundOk bits e
      | .single e _ _ => boundOk bits e) :
    ∃ len v, lenOk bits b len ∧ Has bits i v ∧ panics len v := by
  unfold check at h
  by_cases h1 : (env.suppressInConst && env.inConst) = true
  · rw [if_pos h1] at h; cases h
  rw [if_neg h1] at h
  by_cases h2 : (b == .other) = true
  · rw [if_pos h2] at h; cases h
  rw [if_neg h2] at h
  by_cases h3 : env.procMacro = true
  · rw [if_pos h3] at h; cases h
  rw [if_neg h3] at h
  cases i with
  | range r =>
    have slice : lenOk bits b 0 → ∃ len v, lenOk bits b len ∧ Has bits (.range r) v ∧ panics len v := by
      intro h0
      have hr := hh r rfl
      obtain ⟨s, hs, s0, sc, sn⟩ := pickOpt r.start hok.1 1 hbits
      obtain ⟨e, he, e0, ec, en⟩ := pickOpt r.end_ hok.2 1 hbits
      refine ⟨0, .range s e r.closed, h0, .range hs he, ?_⟩
      show rangePanics 0 s e r.closed
      unfold rangePanics
      by_cases hse : s.getD 0 = 0 ∧ endVal 0 r.closed e = 0
      · refine absurd ⟨?_, ?_⟩ hr
        · obtain ⟨_ | ⟨_ | (c | _)⟩, hst⟩ : ∃ b, r.start = b := ⟨_, rfl⟩
          · exact .inl hst
          · rw [sn (by rw [hst]; simp) (by rw [hst]; simp)] at hse; cases hse.1
          · rw [sc c hst] at hse
            have : c = 0 := hse.1
            exact .inr (by rw [hst, this])
          · rw [sn (by rw [hst]; simp) (by rw [hst]; simp)] at hse; cases hse.1
        · obtain ⟨_ | ⟨_ | (c | _)⟩, hst⟩ : ∃ b, r.end_ = b := ⟨_, rfl⟩
          · exact .inl hst
          · rw [en (by rw [hst]; simp) (by rw [hst]; simp)] at hse
            have := hse.2
            simp only [endVal] at this
            split at this <;> cases this
          · rw [ec c hst] at hse
            have := hse.2
            simp only [endVal] at this
            split at this
            · cases this
            · rename_i hc
              exact .inr ⟨eq_false_of_ne_true hc, by rw [hst, this]⟩
          · rw [en (by rw [hst]; simp) (by rw [hst]; simp)] at hse
            have := hse.2
            simp only [endVal] at this
            split at this <;> cases this
      · omega
    match b with
    | .other => exact absurd rfl h2
    | .sliceLike => exact slice (Nat.lt_of_succ_lt hbits)
    | .array none => cases h
    | .array (some size) =>
      have hs1 := hsize size rfl
      simp only [checkRange] at h
      split at h
      · cases h
      · rename_i hx
        split at h
        · cases h
        · rename_i hy
          split at h
          · cases h
          · rename_i hc
            obtain ⟨s, hs, s0, sc, sn⟩ := pickOpt r.start hok.1 (size + 1) hs1
            obtain ⟨e, he, e0, ec, en⟩ := pickOpt r.end_ hok.2 (size + 1) hs1
            refine ⟨size, .range s e r.closed, rfl, .range hs he, ?_⟩
            show rangePanics size s e r.closed
            unfold rangePanics
            cases est : constStart r.start with
            | none =>
              have : s = some (size + 1) := by
                refine sn (fun h => ?_) (fun c h => ?_)
                · rw [h] at est; cases est
                · rw [h] at est; cases est
              subst this
              simp only [Option.getD_some]
              omega
            | some x =>
              cases een : constEnd r.closed size r.end_ with
              | none =>
                have : e = some (size + 1) := by
                  refine en (fun h => ?_) (fun c h => ?_)
                  · rw [h] at een; cases een
                  · rw [h] at een
                    simp only [constEnd] at een
                    split at een <;> cases een
                subst this
                refine .inr ?_
                simp only [endVal]
                split <;> omega
              | some y => rw [est, een] at hc; exact absurd rfl hc
  | single e cb us =>
    have done : ∀ len, lenOk bits b len → len < 2 ^ bits → (∀ c, e.const = some (.int c) → len ≤ c) →
        ∃ len v, lenOk bits b len ∧ Has bits (.single e cb us) v ∧ panics len v := by
      intro len hl hlt hc
      cases us with
      | false => exact ⟨len, .range (some 1) (some 0) false, hl, .other, .inl (show 0 < 1 by decide)⟩
      | true =>
        obtain ⟨m, hm, m1, m2⟩ := pick e hok len hlt
        cases hm with
        | some hm ha =>
          refine ⟨len, .usize m, hl, .single hm ha, ?_⟩
          show len ≤ m
          obtain ⟨_ | (c | _)⟩ := e
          · rw [m2 fun c h => by cases h]; exact Nat.le_refl _
          · rw [m1 c rfl]; exact hc c rfl
          · rw [m2 fun c h => by cases h]; exact Nat.le_refl _
    match b with
    | .other => exact absurd rfl h2
    | .sliceLike => exact done 0 (Nat.lt_of_succ_lt hbits) (Nat.lt_of_succ_lt hbits) fun _ _ => Nat.zero_le _
    | .array none => exact done 0 (Nat.lt_of_succ_lt hbits) (Nat.lt_of_succ_lt hbits) fun _ _ => Nat.zero_le _
    | .array (some size) =>
      obtain ⟨_ | c⟩ := e
      · exact done size rfl (Nat.lt_of_succ_lt (hsize size rfl)) fun c h => by cases h
      · simp only [checkSingle] at h
        split at h
        · cases h
        · unfold checkConst at h
          split at h
          · split at h <;> cases h
          · cases h

/-- `x[i]` of an array, and `v[1..]` of a slice. -/
example : check ⟨true, false, false, false, false, 64⟩ (.array (some 4)) (.single ⟨none⟩ false true)
      = some .mayPanic ∧
    check ⟨true, false, false, false, false, 64⟩ .sliceLike (.range ⟨some ⟨some (.int 1)⟩, none, false⟩)
      = some .mayPanic ∧ ¬ Harmless ⟨some ⟨some (.int 1)⟩, none, false⟩ :=
  ⟨by decide +kernel, by decide +kernel, fun h => by rcases h.1 with h | h <;> cases h⟩

end Verif.Indexing
