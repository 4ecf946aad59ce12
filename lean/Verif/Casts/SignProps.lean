import Verif.Casts.TruncProps

/-! C60: a cast of a signed number to an unsigned type which `cast_sign_loss` doesn't report never has a negative operand. -/

namespace Verif.Casts
open Verif.RInt

/-- What a sign claims about a value. -/
def Sign.Claims : Sign → Int → Prop
  | .pos, v => 0 ≤ v
  | .neg, v => v < 0
  | .uncertain, _ => True

theorem constSign_sound {p : Nat} {K : E → Option Nat} (hK : Right p K) {e : E} {v : Int} {s : Sign} (ht : e.Typed p) (he : Ev p e v)
    (h : constSign K p e = some s) : s.Claims v := by
  have hin := ev_in ht he
  have hok := ty_ok ht
  unfold constSign constSigned constUnsigned at h
  cases hs : e.ty.signed
  · have hv := ((it_unsigned (t := e.ty.it p) hs).1 hin).1
    simp only [hs, Bool.false_eq_true, if_false] at h
    split at h
    · cases h; exact hv
    · cases h
  · simp only [hs, if_true] at h
    cases hc : K e with
    | none => simp [hc] at h
    | some c =>
      simp only [hc, Option.map_some, Option.some.injEq] at h
      have hcv := hK.2 e c v hc ht he
      have hit : e.ty.it p = ⟨true, e.ty.bits p⟩ := by rw [ITy.it, hs]
      rw [hit] at hcv hin
      have hse := Consts.sextW_toBits (by have := hok.1; omega) hok.2 hin
      rw [← hcv] at hse
      rw [hse] at h
      split at h
      · cases h; assumption
      · cases h; simp only [Sign.Claims]; omega

/-! ## Calls -/

theorem call_typed {p : Nat} {e r : E} {m : Meth} (h : e.call? = some (m, r)) (ht : e.Typed p) : r.Typed p := by
  cases e <;> simp [E.call?] at h
  · obtain ⟨rfl, rfl⟩ := h; exact ht.2.1
  · obtain ⟨rfl, rfl⟩ := h; exact ht.2.1
  · obtain ⟨rfl, rfl⟩ := h; exact ht.2.1

/-- `unwrap` and so on have the value of the receiver. -/
theorem unwrap_value {p : Nat} {e r : E} {m : Meth} {v : Int} (h : e.call? = some (m, r)) (ht : e.Typed p) (hm : isUnwrap m = true)
    (he : Ev p e v) : Ev p r v := by
  cases he <;> simp [E.call?] at h
  · next ty m' a x ha hr =>
    obtain ⟨rfl, rfl⟩ := h
    have har := ht.2.2.2.2
    cases m' <;> simp [isUnwrap] at hm
    · cases hr; exact ha
    · cases hr; exact ha
    · exact absurd (har 1 rfl) (by decide)
    · cases hr; exact ha
  · next ty m' a b x y ha hb hr =>
    obtain ⟨rfl, rfl⟩ := h
    have har := ht.2.2.2.2.2.2.2
    cases m' <;> simp [isUnwrap] at hm
    · exact absurd (har 0 rfl) (by decide)
    · exact absurd (har 0 rfl) (by decide)
    · have := ht.2.2.2.2.2.2.1 rfl
      rw [this] at hb
      cases hb
    · exact absurd (har 0 rfl) (by decide)
  · next ty a ha =>
    obtain ⟨rfl, rfl⟩ := h
    exact ha
  · next ty m' a b c x y z ha hb hc hr =>
    obtain ⟨rfl, rfl⟩ := h
    have har := ht.2.2.2.2.2.2
    cases m' <;> simp [isUnwrap] at hm
    · exact absurd (har 0 rfl) (by decide)
    · exact absurd (har 0 rfl) (by decide)
    · exact absurd (har 1 rfl) (by decide)
    · exact absurd (har 0 rfl) (by decide)

/-- The methods of the list return no negative number. -/
theorem retPositive_value {p : Nat} {e r : E} {m : Meth} {v : Int} (h : e.call? = some (m, r)) (ht : e.Typed p) (hm : retPositive m = true)
    (he : Ev p e v) : 0 ≤ v := by
  cases he <;> simp [E.call?] at h
  · next ty m' a x ha hr =>
    obtain ⟨rfl, rfl⟩ := h
    have har := ht.2.2.2.2
    have h1 := (it_zero (ty.it p)).2
    cases m' <;> simp [retPositive] at hm <;> simp only [Meth.run0] at hr
    · have := hr.1; omega
    · omega
    · exact hr.2.1
    · exact hr.2.1
    · exact absurd (har 1 rfl) (by decide)
    · exact absurd (har 1 rfl) (by decide)
    · exact absurd (har 1 rfl) (by decide)
  · next ty m' a b x y ha hb hr =>
    obtain ⟨rfl, rfl⟩ := h
    have har := ht.2.2.2.2.2.2.2
    cases m' <;> simp [retPositive] at hm <;> simp only [Meth.run1] at hr
    · exact absurd (har 0 rfl) (by decide)
    · exact absurd (har 0 rfl) (by decide)
    · exact absurd (har 0 rfl) (by decide)
    · exact absurd (har 0 rfl) (by decide)
    · rw [hr.2]; exact Int.emod_nonneg x hr.1
    · rw [hr.2]; exact Int.emod_nonneg x hr.1
    · rw [hr.2]; exact Int.emod_nonneg x hr.1
  · next ty a ha =>
    obtain ⟨rfl, rfl⟩ := h
    cases hm
  · next ty m' a b c x y z ha hb hc hr =>
    obtain ⟨rfl, rfl⟩ := h
    have har := ht.2.2.2.2.2.2
    cases m' <;> simp [retPositive] at hm
    · exact absurd (har 0 rfl) (by decide)
    · exact absurd (har 0 rfl) (by decide)
    · exact absurd (har 0 rfl) (by decide)
    · exact absurd (har 0 rfl) (by decide)
    · exact absurd (har 1 rfl) (by decide)
    · exact absurd (har 1 rfl) (by decide)
    · exact absurd (har 1 rfl) (by decide)

/-- The state of the loop: a call of the method has the value, and the expression is this call or its receiver. -/
def Peeled (p : Nat) (v : Int) (name : Meth) (e : E) : Prop :=
  ∃ c r, c.call? = some (name, r) ∧ c.Typed p ∧ Ev p c v ∧ (e = c ∨ e = r)

theorem peelStep_peeled {p : Nat} {v : Int} {name m : Meth} {e r : E} (h : Peeled p v name e) (hs : peelStep name e = some (m, r)) :
    Peeled p v m r := by
  obtain ⟨c, rc, h1, h2, h3, h4⟩ := h
  unfold peelStep at hs
  split at hs
  · next hu =>
    have hrc := unwrap_value h1 h2 hu h3
    have trc := call_typed h1 h2
    split at hs
    · next m' r' he =>
      split at hs
      · next hm =>
        subst hm
        rcases h4 with rfl | rfl
        · rw [h1] at he
          cases he
          exact ⟨rc, r, hs, trc, hrc, .inr rfl⟩
        · exact ⟨r', r, hs, call_typed he trc, unwrap_value he trc hu hrc, .inr rfl⟩
      · cases hs
    · cases hs
  · cases hs

theorem peelLoop_peeled {p : Nat} {v : Int} (f : Nat) {name : Meth} {e : E} (h : Peeled p v name e) :
    ∃ e', Peeled p v (peelLoop f name e) e' := by
  induction f generalizing name e with
  | zero => exact ⟨e, h⟩
  | succ f ih =>
    unfold peelLoop
    split
    · next m r hs => exact ih (peelStep_peeled h hs)
    · exact ⟨e, h⟩

theorem peelLoop_positive {p : Nat} {v : Int} {f : Nat} {name : Meth} {e r : E} (hc : e.call? = some (name, r)) (ht : e.Typed p)
    (he : Ev p e v) (h : retPositive (peelLoop f name e) = true) : 0 ≤ v := by
  obtain ⟨e', c, r', h1, h2, h3, _⟩ := peelLoop_peeled f (p := p) (v := v) ⟨e, r, hc, ht, he, .inl rfl⟩
  exact retPositive_value h1 h2 h h3

theorem peelLoop_other {name : Meth} {e : E} (f : Nat) (h : isUnwrap name = false) : peelLoop f name e = name := by
  cases f with
  | zero => rfl
  | succ f =>
    unfold peelLoop
    have : peelStep name e = none := by unfold peelStep; rw [if_neg (by simp [h])]
    rw [this]

/-! ## Powers -/

theorem pow_neg_odd {x : Int} {n : Nat} (hx : x < 0) (hn : n % 2 = 1) : x ^ n < 0 := by
  obtain ⟨k, rfl⟩ : ∃ k, n = k + 1 := ⟨n - 1, by omega⟩
  rw [Int.pow_succ]
  have h1 : 0 ≤ x ^ k := Int.pow_nonneg_of_even (by omega)
  have h2 : x ^ k ≠ 0 := Int.pow_ne_zero (by omega)
  exact Int.mul_neg_of_pos_of_neg (by omega) hx

theorem powSign_sound {t : IT} {m : Meth} (hm : isPow m = true) {s : Sign} {x y v : Int} {n : Option Nat} (hs : s.Claims x) (hx : t.In x)
    (hn : ∀ k, n = some k → y = k) (hr : m.run1 t x y v) : (powSign s n).Claims v := by
  have hz := it_zero t
  have hv : ∃ w : Int, 0 ≤ y ∧ w = x ^ y.toNat ∧ (0 ≤ w → 0 ≤ v) ∧ (w < 0 → x < 0 → v < 0) := by
    have sg : x < 0 → t.min < 0 := fun h => by have := hx.1; omega
    cases m <;> simp [isPow] at hm <;> simp only [Meth.run1] at hr
    · exact ⟨v, hr.1, hr.2.1, id, fun h _ => h⟩
    · refine ⟨x ^ y.toNat, hr.1, rfl, ?_, ?_⟩
      · intro h; omega
      · intro h h'; have := sg h'; omega
    · exact ⟨v, hr.1, hr.2.1, id, fun h _ => h⟩
  obtain ⟨w, hy, hw, v0, v1⟩ := hv
  cases n with
  | none =>
    cases s <;> simp [powSign, Sign.Claims] at hs ⊢
    exact v0 (hw ▸ Int.pow_nonneg hs)
  | some k =>
    have hk := hn k rfl
    have ek : y.toNat = k := by omega
    rw [ek] at hw
    by_cases h2 : k % 2 = 0
    · have : (k % 2 == 0) = true := by simp [h2]
      have hpos : 0 ≤ v := v0 (hw ▸ Int.pow_nonneg_of_even h2)
      cases s <;> simp [powSign, h2, Sign.Claims] <;> exact hpos
    · have hodd : k % 2 = 1 := by omega
      cases s <;> simp [powSign, hodd, Sign.Claims] at hs ⊢
      · exact v0 (hw ▸ Int.pow_nonneg hs)
      · exact v1 (hw ▸ pow_neg_odd hs hodd) hs

/-! ## `expr_sign` -/

theorem ite_claims {c : Bool} {v : Int} (h : c = true → 0 ≤ v) : (if c then Sign.pos else Sign.uncertain).Claims v := by
  split
  · next hc => exact h hc
  · trivial

theorem exprSign_sound {p : Nat} {K : E → Option Nat} (hK : Right p K) {e : E} {v : Int} (ht : e.Typed p) (he : Ev p e v) :
    (exprSign K p e).Claims v := by
  have dflt : ∀ e' : E, e'.Typed p → Ev p e' v → ((constSign K p e').getD .uncertain).Claims v := by
    intro e' ht' he'
    cases hc : constSign K p e' with
    | none => trivial
    | some s => exact constSign_sound hK ht' he' hc
  induction e generalizing v with
  | atom | lit | str | cast | block | locl | bin => exact dflt _ ht he
  | call0 t m a ih =>
    unfold exprSign
    split
    · next s hc => exact constSign_sound hK ht he hc
    · exact ite_claims (peelLoop_positive rfl ht he)
  | call1 t m a b iha ihb =>
    unfold exprSign
    split
    · next s hc => exact constSign_sound hK ht he hc
    · split
      · next hpow =>
        have ha_sound : ∀ x, Ev p a x → (exprSign K p a).Claims x := by
          intro x hx
          refine iha ht.2.1 hx ?_
          intro e' ht' he'
          cases hc : constSign K p e' with
          | none => trivial
          | some s => exact constSign_sound hK ht' he' hc
        by_cases hm : isUnwrap m = true
        · -- the call of `expect`
          have hx : m = .expect := by
            have := ht.2.2.2.2.2.2.2
            cases m <;> simp [isUnwrap] at hm
            · exact absurd (this 0 rfl) (by decide)
            · exact absurd (this 0 rfl) (by decide)
            · rfl
            · exact absurd (this 0 rfl) (by decide)
          have hb := ht.2.2.2.2.2.2.1 hx
          subst hb
          have hva := unwrap_value (e := .call1 t m a .str) rfl ht hm he
          have hs := ha_sound v hva
          have : constUnsigned K .str = none := rfl
          rw [this]
          cases hse : exprSign K p a <;> rw [hse] at hs <;> simp [powSign, Sign.Claims] at hs ⊢
          exact hs
        · have hm' : isUnwrap m = false := by simpa using hm
          rw [peelLoop_other _ hm'] at hpow
          cases he with
          | @call1 _ _ _ _ x y _ ha hb hr =>
            have hsame : a.ty = t := ht.2.2.2.1 (by cases m <;> simp [isPow] at hpow <;> rfl)
            have hx := ev_in ht.2.1 ha
            rw [hsame] at hx
            refine powSign_sound hpow (ha_sound x ha) hx ?_ hr
            intro k hk
            have hub : b.ty.signed = false := ht.2.2.2.2.2.1 hpow
            unfold constUnsigned at hk
            rw [if_neg (by simp [hub])] at hk
            have hin := ev_in ht.2.2.1 hb
            have := hK.2 b k y hk ht.2.2.1 hb
            have h0 := ((it_unsigned (t := b.ty.it p) hub).1 hin).1
            rw [it_in_nonneg hin h0] at this
            omega
          | expect => cases hm'
      · exact ite_claims (peelLoop_positive rfl ht he)
  | call2 t m a b c =>
    unfold exprSign
    split
    · next s hc => exact constSign_sound hK ht he hc
    · exact ite_claims (peelLoop_positive rfl ht he)

/-! ## Products and sums -/

theorem muldiv_sound {p : Nat} {K : E → Option Nat} (hK : Right p K) {e : E} {v : Int} (ht : e.Typed p) (he : Ev p e v)
    (hu : Sign.uncertain ∉ (muldivPeel e).map (exprSign K p)) :
    (((muldivPeel e).map (exprSign K p)).count .neg % 2 = 0 → 0 ≤ v) ∧ (((muldivPeel e).map (exprSign K p)).count .neg % 2 = 1 → v ≤ 0) := by
  -- a single operand whose sign determines that of the value
  have single : ∀ (e' : E) (x w : Int), e'.Typed p → Ev p e' x → Sign.uncertain ∉ [exprSign K p e'] → (0 ≤ x → 0 ≤ w) → (x < 0 → w ≤ 0) →
      (([exprSign K p e'] : List Sign).count .neg % 2 = 0 → 0 ≤ w) ∧ (([exprSign K p e'] : List Sign).count .neg % 2 = 1 → w ≤ 0) := by
    intro e' x w ht' he' hu' h0 h1
    have := exprSign_sound hK ht' he'
    cases hs : exprSign K p e' <;> rw [hs] at this hu' <;> simp [Sign.Claims] at this hu' ⊢
    · exact h0 this
    · exact h1 this
  induction e generalizing v with
  | bin op a b iha ihb =>
    cases he with
    | @bin _ _ _ x y _ ha hb hr =>
      obtain ⟨ta, tb, hok, hsame⟩ := ht
      have both : (op = .mul ∨ op = .div) →
          ((((muldivPeel a ++ muldivPeel b).map (exprSign K p)).count .neg % 2 = 0 → 0 ≤ v) ∧
          (((muldivPeel a ++ muldivPeel b).map (exprSign K p)).count .neg % 2 = 1 → v ≤ 0)) := by
        intro hop
        have hpe : muldivPeel (.bin op a b) = muldivPeel a ++ muldivPeel b := by rcases hop with rfl | rfl <;> rfl
        rw [hpe, List.map_append, List.mem_append] at hu
        have i1 := iha ta ha (fun h => hu (.inl h))
        have i2 := ihb tb hb (fun h => hu (.inr h))
        rw [List.map_append, List.count_append]
        have hv : (0 ≤ x → 0 ≤ y → 0 ≤ v) ∧ (x ≤ 0 → y ≤ 0 → 0 ≤ v) ∧ (0 ≤ x → y ≤ 0 → v ≤ 0) ∧ (x ≤ 0 → 0 ≤ y → v ≤ 0) := by
          rcases hop with rfl | rfl
          · have := (checked_ok hr).1
            subst this
            exact ⟨Int.mul_nonneg, Int.mul_nonneg_of_nonpos_of_nonpos, Int.mul_nonpos_of_nonneg_of_nonpos, Int.mul_nonpos_of_nonpos_of_nonneg⟩
          · have := (div_ok hr).2.1
            subst this
            refine ⟨Int.tdiv_nonneg, Int.tdiv_nonneg_of_nonpos_of_nonpos, Int.tdiv_nonpos_of_nonneg_of_nonpos, ?_⟩
            intro h1 h2
            have := Int.tdiv_nonneg (a := -x) (b := y) (by omega) h2
            rw [Int.neg_tdiv] at this
            omega
        generalize ((muldivPeel a).map (exprSign K p)).count .neg = na at *
        generalize ((muldivPeel b).map (exprSign K p)).count .neg = nb at *
        rcases Nat.mod_two_eq_zero_or_one na with e1 | e1 <;> rcases Nat.mod_two_eq_zero_or_one nb with e2 | e2
        · exact ⟨fun _ => hv.1 (i1.1 e1) (i2.1 e2), fun h => by omega⟩
        · exact ⟨fun h => by omega, fun _ => hv.2.2.1 (i1.1 e1) (i2.2 e2)⟩
        · exact ⟨fun h => by omega, fun _ => hv.2.2.2 (i1.2 e1) (i2.1 e2)⟩
        · exact ⟨fun _ => hv.2.1 (i1.2 e1) (i2.2 e2), fun h => by omega⟩
      cases op with
      | mul => exact both (.inl rfl)
      | div => exact both (.inr rfl)
      | rem =>
        have hv := (rem_ok hr).2
        have hb' := tmod_between x y
        exact single a x v ta ha hu (by omega) (by omega)
      | shr =>
        have hv := (shr_ok hr).2.2
        have hb' := shr_between x y.toNat
        exact single a x v ta ha hu (by omega) (by omega)
      | add => exact single (.bin .add a b) v v ⟨ta, tb, hok, hsame⟩ (.bin ha hb hr) hu id (fun h => by omega)
      | and => exact single (.bin .and a b) v v ⟨ta, tb, hok, hsame⟩ (.bin ha hb hr) hu id (fun h => by omega)
      | other => exact single (.bin .other a b) v v ⟨ta, tb, hok, hsame⟩ (.bin ha hb hr) hu id (fun h => by omega)
  | atom t k => exact single (.atom t k) v v ht he hu id (fun h => by omega)
  | lit t k => exact single (.lit t k) v v ht he hu id (fun h => by omega)
  | str => cases he
  | cast t e => exact single (.cast t e) v v ht he hu id (fun h => by omega)
  | block e => exact single (.block e) v v ht he hu id (fun h => by omega)
  | locl e => exact single (.locl e) v v ht he hu id (fun h => by omega)
  | call0 t m a => exact single (.call0 t m a) v v ht he hu id (fun h => by omega)
  | call1 t m a b => exact single (.call1 t m a b) v v ht he hu id (fun h => by omega)
  | call2 t m a b c => exact single (.call2 t m a b c) v v ht he hu id (fun h => by omega)

theorem add_sound {p : Nat} {K : E → Option Nat} (hK : Right p K) {e : E} {v : Int} (ht : e.Typed p) (he : Ev p e v)
    (h : ∀ s ∈ (addPeel e).map (exprSign K p), s = .pos) : 0 ≤ v := by
  have single : ∀ e' : E, e'.Typed p → Ev p e' v → (∀ s ∈ [exprSign K p e'], s = .pos) → 0 ≤ v := by
    intro e' ht' he' hs
    have := exprSign_sound hK ht' he'
    rw [hs (exprSign K p e') (by simp)] at this
    exact this
  induction e generalizing v with
  | bin op a b iha ihb =>
    by_cases hop : op = .add
    · subst hop
      cases he with
      | @bin _ _ _ x y _ ha hb hr =>
        simp only [addPeel, List.map_append, List.mem_append] at h
        have sg : ∀ (w : Int) (e' : E), e'.Typed p → Ev p e' w → (∀ s ∈ [exprSign K p e'], s = .pos) → 0 ≤ w := by
          intro w e' ht' he' hs
          have := exprSign_sound hK ht' he'
          rw [hs (exprSign K p e') (by simp)] at this
          exact this
        have h1 := iha ht.1 ha (fun s hs => h s (.inl hs)) (sg x)
        have h2 := ihb ht.2.1 hb (fun s hs => h s (.inr hs)) (sg y)
        have := (checked_ok hr).1
        omega
    · have hpe : addPeel (.bin op a b) = [.bin op a b] := by cases op <;> first | rfl | exact absurd rfl hop
      rw [hpe] at h
      exact single _ ht he h
  | str => cases he
  | _ => exact single _ ht he h

/-- **C60.** If the lint is silent about a cast of a signed expression to an unsigned type then no value of the expression is negative; arithmetic which overflows
panics. -/
theorem signLoss_sound {p : Nat} {K : E → Option Nat} (hK : Right p K) {e : E} {to : ITy} {v : Int} (ht : e.Typed p)
    (hs : e.ty.signed = true) (hu : to.signed = false) (h : losesSign K p e to = false) (he : Ev p e v) : 0 ≤ v := by
  simp only [losesSign, hs, hu, Bool.true_and, Bool.not_false, Bool.and_eq_false_iff, decide_eq_false_iff_not,
    Decidable.not_not] at h
  rcases h with (h | h) | h
  · have := exprSign_sound hK ht he
    rw [h] at this
    exact this
  · unfold muldivSign at h
    split at h
    · cases h
    · next hc =>
      split at h
      · cases h
      · next hn =>
        exact (muldiv_sound hK ht he (by simpa using hc)).1 (by omega)
  · unfold addSign at h
    split at h
    · cases h
    · next hc =>
      split at h
      · next hn =>
        refine add_sound hK ht he ?_
        intro s hs'
        cases s with
        | pos => rfl
        | neg => exact absurd hn (by have := List.count_pos_iff.2 hs'; omega)
        | uncertain => exact absurd hs' (by simpa using hc)
      · split at h <;> cases h

/-- `x.pow(2) * y.rem_euclid(3) as u32` and `x.checked_abs().expect("..") + 1 as u32` aren't reported; `x * y as u32` is. -/
example : let x := E.atom (iN 32) 0
    let e := E.bin .mul (.call1 (iN 32) .pow x (.lit (uN 32) 2)) (.call1 (iN 32) .remEuclid (.atom (iN 32) 1) (.lit (iN 32) 3))
    let f := E.bin .add (.call1 (iN 32) .expect (.call0 (iN 32) .checkedAbs x) .str) (.lit (iN 32) 1)
    losesSign (litK 64) 64 e (uN 32) = false ∧ losesSign (litK 64) 64 f (uN 32) = false ∧
    losesSign (litK 64) 64 (.bin .mul x x) (uN 32) = true ∧ f.Typed 64 := by
  refine ⟨by decide +kernel, by decide +kernel, by decide +kernel, ?_⟩
  simp [E.Typed, ITy.Ok, ITy.bits, iN, E.ty, Meth.sameRes, Meth.sameArg, isPow, Meth.arity]; decide

/-- What the lint knows isn't enough for overflow that wraps around (builds without overflow checks): `x.pow(2)` is called nonnegative, but
`46341i32.pow(2)` wraps around to a negative number. -/
theorem pow_wraps : losesSign (litK 64) 64 (.call1 (iN 32) .pow (.atom (iN 32) 0) (.lit (uN 32) 2)) (uN 32) = false ∧
    ((iN 32).it 64).wrap (46341 ^ 2) < 0 := by decide +kernel

end Verif.Casts
