import Verif.Casts.Lemmas

/-! C59: a cast `cast_possible_truncation` doesn't report keeps all bits of the value. -/

namespace Verif.Casts
open Verif.RInt

/-! ## The part of the language for which the estimate of the lint is right -/

/-- Unsigned expressions for which the estimate is right. Excluded are casts of signed or wider expressions, and a method with one argument other than `min`
which is called on a receiver known to be small. -/
def E.PlainU (p : Nat) (K : E → Option Nat) (n : Nat) : E → Prop
  | .atom t _ => t.signed = false ∧ t.bits p ≤ n
  | .lit t _ => t.signed = false ∧ t.bits p ≤ n
  | .str => True
  | .cast t e => t.signed = false ∧ e.PlainU p K n
  | .block e => e.PlainU p K n
  | .locl e => e.PlainU p K n
  | .bin op a b => a.ty.signed = false ∧ a.ty.bits p ≤ n ∧ (op ≠ .other → a.PlainU p K n) ∧ (op = .and → b.PlainU p K n)
  | .call0 t _ _ => t.signed = false ∧ t.bits p ≤ n
  | .call1 t m a _ => t.signed = false ∧ t.bits p ≤ n ∧ (m = .min ∧ a.PlainU p K n ∨ n ≤ reduce K n false a)
  | .call2 t _ _ _ _ => t.signed = false ∧ t.bits p ≤ n

/-- Signed expressions for which the estimate is right. Excluded are casts of unsigned or wider expressions, and `&` unless one operand is a nonnegative
constant which has no more bits than the estimate says. -/
def E.PlainS (p : Nat) (K : E → Option Nat) (n : Nat) : E → Prop
  | .atom t _ => t.signed = true ∧ t.bits p ≤ n
  | .lit t _ => t.signed = true ∧ t.bits p ≤ n
  | .str => True
  | .cast t e => t.signed = true ∧ e.ty.signed = true ∧ e.ty.bits p ≤ t.bits p ∧ e.PlainS p K n
  | .block e => e.PlainS p K n
  | .locl e => e.PlainS p K n
  | .bin op a b => a.ty.signed = true ∧ a.ty.bits p ≤ n ∧ (op ≠ .other → op ≠ .and → a.PlainS p K n) ∧
      (op = .and → n ≤ reduce K n true (.bin .and a b) ∨
        ∃ c, (K a = some c ∨ K b = some c) ∧ c < 2 ^ (a.ty.bits p - 1) ∧ bitLen c ≤ reduce K n true (.bin .and a b))
  | .call0 t _ _ => t.signed = true ∧ t.bits p ≤ n
  | .call1 t _ _ _ => t.signed = true ∧ t.bits p ≤ n
  | .call2 t _ _ _ _ => t.signed = true ∧ t.bits p ≤ n

/-! ## The estimate -/

theorem pow_mono {a b : Nat} (h : a ≤ b) : (2 : Int) ^ a ≤ 2 ^ b := by
  have := Nat.pow_le_pow_right (n := 2) (by decide) h
  exact_mod_cast this

theorem u64Max_ge : 128 ≤ u64Max := by decide

/-- A value of at most 128 bits is below the bound which stands for an unknown number of bits. -/
theorem lt_u64Max {n : Nat} {v : Int} (h : v < 2 ^ n) (hn : n ≤ 128) : v < 2 ^ u64Max :=
  Int.lt_of_lt_of_le h (pow_mono (Nat.le_trans hn u64Max_ge))

theorem lt_pow_min {a b : Nat} {v : Int} (h1 : v < 2 ^ a) (h2 : v < 2 ^ b) : v < 2 ^ Nat.min a b := by
  by_cases h : a ≤ b
  · rw [show Nat.min a b = a from Nat.min_eq_left h]; exact h1
  · rw [show Nat.min a b = b from Nat.min_eq_right (by omega)]; exact h2

theorem le_pow_min {a b : Nat} {v : Nat} (h1 : v ≤ 2 ^ a) (h2 : v ≤ 2 ^ b) : v ≤ 2 ^ Nat.min a b := by
  by_cases h : a ≤ b
  · rw [show Nat.min a b = a from Nat.min_eq_left h]; exact h1
  · rw [show Nat.min a b = b from Nat.min_eq_right (by omega)]; exact h2

theorem it_pos {p : Nat} {t : ITy} (h : t.Ok p) : 0 < (t.it p).bits := by
  have := h.1
  simp only [ITy.it]; omega

/-- The value of a constant of an unsigned type is below the power of its bits. -/
theorem const_lt {p : Nat} {K : E → Option Nat} (hK : Right p K) {e : E} {v : Int} (ht : e.Typed p) (h : Ev p e v)
    (hs : e.ty.signed = false) : v < 2 ^ ((constBits K e).getD u64Max) := by
  have hin := (it_unsigned (t := e.ty.it p) hs).1 (ev_in ht h)
  have hok := ty_ok ht
  cases hc : K e with
  | none => simp only [constBits, hc, Option.map_none, Option.getD_none]; exact lt_u64Max hin.2 hok.2
  | some c =>
    simp only [constBits, hc, Option.map_some, Option.getD_some]
    have hcv := hK.2 e c v hc ht h
    rw [it_in_nonneg (ev_in ht h) hin.1] at hcv
    have := bitLen_lt c
    have h2 := cast_two_pow (bitLen c)
    omega

theorem and_unsigned {t : IT} (h : 0 < t.bits) (hs : t.signed = false) {x y : Int} (hx : t.In x) (hy : t.In y) :
    t.and x y ≤ x ∧ t.and x y ≤ y := by
  have e := t.toBits_ofBits (t.toBits x &&& t.toBits y)
  rw [Nat.mod_eq_of_lt (Nat.and_lt_two_pow _ (t.toBits_lt y))] at e
  have hi := t.ofBits_in h (t.toBits x &&& t.toBits y)
  have := it_in_nonneg hi ((it_unsigned hs).1 hi).1
  have hx' := it_in_nonneg hx ((it_unsigned hs).1 hx).1
  have hy' := it_in_nonneg hy ((it_unsigned hs).1 hy).1
  have h1 : t.toBits x &&& t.toBits y ≤ t.toBits x := Nat.and_le_left
  have h2 : t.toBits x &&& t.toBits y ≤ t.toBits y := Nat.and_le_right
  have p0 := ((it_unsigned hs).1 hi).1
  have p1 := ((it_unsigned hs).1 hx).1
  have p2 := ((it_unsigned hs).1 hy).1
  unfold IT.and
  omega

/-- Division by a number of `k + 1` bits removes `k` bits. -/
theorem div_bits {r k : Nat} {x y : Nat} (hx : x < 2 ^ r) (hy : 2 ^ k ≤ y) : x / y < 2 ^ (r - k) := by
  have hy0 : 0 < y := Nat.lt_of_lt_of_le (Nat.two_pow_pos k) hy
  rw [Nat.div_lt_iff_lt_mul hy0]
  by_cases h : k ≤ r
  · have : 2 ^ (r - k) * 2 ^ k = 2 ^ r := by rw [← Nat.pow_add]; congr 1; omega
    have := Nat.mul_le_mul_left (2 ^ (r - k)) hy
    omega
  · rw [show r - k = 0 by omega]
    have := Nat.pow_le_pow_right (n := 2) (by decide) (show r ≤ k by omega)
    omega

/-- The shift the lint subtracts is the one which is executed. -/
theorem shiftBits_eq {p : Nat} {K : E → Option Nat} (hK : Right p K) {b : E} {y : Int} (ht : b.Typed p) (h : Ev p b y) (h0 : 0 ≤ y) :
    shiftBits K b ≤ y.toNat := by
  unfold shiftBits
  cases hc : K b with
  | none => simp
  | some c =>
    have := hK.2 b c y hc ht h
    rw [it_in_nonneg (ev_in ht h) h0] at this
    simp only
    split <;> omega

theorem emod_le_self {x m : Int} (h : 0 ≤ x) (hm : 0 < m) : x % m ≤ x := by
  have h1 := Int.emod_add_mul_ediv x m
  have h2 : 0 ≤ m * (x / m) := Int.mul_nonneg (by omega) (Int.ediv_nonneg h (by omega))
  omega

theorem plainU_unsigned {p : Nat} {K : E → Option Nat} {n : Nat} {e : E} {v : Int} (hp : e.PlainU p K n) (h : Ev p e v) :
    e.ty.signed = false := by
  induction h with
  | block _ ih => exact ih hp
  | locl _ ih => exact ih hp
  | _ => exact hp.1

/-- The estimate for unsigned expressions: every value is below the power of the estimated bits. -/
theorem reduce_unsigned {p : Nat} {K : E → Option Nat} (hK : Right p K) {n : Nat} {e : E} {v : Int} (ht : e.Typed p) (hp : e.PlainU p K n)
    (h : Ev p e v) : v < 2 ^ reduce K n false e := by
  have bound : ∀ {t : ITy} {w : Int}, t.signed = false ∧ t.bits p ≤ n → (t.it p).In w → w < 2 ^ n := by
    intro t w ⟨hs, hb⟩ hw
    exact Int.lt_of_lt_of_le ((it_unsigned (t := t.it p) hs).1 hw).2 (pow_mono hb)
  induction h with
  | atom h => exact bound hp h
  | lit => exact bound hp ht.2
  | @cast ty e v he ih =>
    simp only [reduce]
    have hv := ih ht.2 hp.2
    have hvin := ev_in ht.2 he
    have hs : (ty.it p).signed = false := hp.1
    by_cases h0 : 0 ≤ v
    · have hle : (ty.it p).wrap v ≤ v := by
        have hw := (ty.it p).wrap_emod v
        have hin := (it_unsigned hs).1 ((ty.it p).wrap_in (it_pos ht.1) v)
        rw [Int.emod_eq_of_lt hin.1 hin.2] at hw
        rw [hw]
        exact emod_le_self h0 (two_pow_pos _)
      omega
    · exact absurd ((it_unsigned (t := e.ty.it p) (plainU_unsigned hp.2 he)).1 hvin).1 h0
  | block _ ih => exact ih ht hp
  | locl _ ih => exact ih ht hp
  | @bin op a b x y v ha hb hr ih1 ih2 =>
    obtain ⟨ta, tb, hok, hsame⟩ := ht
    obtain ⟨hs, hn, pa, pb⟩ := hp
    have hx := ev_in ta ha
    have hx' := (it_unsigned (t := a.ty.it p) hs).1 hx
    have hv : (a.ty.it p).In v := ev_in (e := .bin op a b) ⟨ta, tb, hok, hsame⟩ (.bin ha hb hr)
    have hv' := (it_unsigned (t := a.ty.it p) hs).1 hv
    have hy : op ≠ .shr → op ≠ .other → (a.ty.it p).In y := by
      intro h1 h2
      have := ev_in tb hb
      rwa [← hsame h1 h2] at this
    cases op with
    | add => exact bound ⟨hs, hn⟩ hv
    | mul => exact bound ⟨hs, hn⟩ hv
    | other => exact bound ⟨hs, hn⟩ hv
    | div =>
      have hxr := ih1 ta (pa (by simp))
      have hy' := (it_unsigned (t := a.ty.it p) hs).1 (hy (by simp) (by simp))
      obtain ⟨hy0, he, _⟩ := div_ok hr
      have hq : v = x / y := by rw [he]; exact Int.tdiv_eq_ediv_of_nonneg hx'.1
      simp only [reduce, if_neg (show ¬(false = true) by simp)]
      have key : ∀ k : Nat, (2 : Int) ^ k ≤ y → v < 2 ^ (reduce K n false a - k) := by
        intro k hk
        obtain ⟨x', rfl⟩ := Int.eq_ofNat_of_zero_le hx'.1
        obtain ⟨y', rfl⟩ := Int.eq_ofNat_of_zero_le hy'.1
        have h1 : x' < 2 ^ reduce K n false a := by exact_mod_cast hxr
        have h2 : 2 ^ k ≤ y' := by exact_mod_cast hk
        have := div_bits h1 h2
        rw [hq]
        exact_mod_cast this
      cases hc : K b with
      | none =>
        simp only [constBits, hc, Option.map_none, Option.getD_none]
        exact key 0 (by simp; omega)
      | some c =>
        simp only [constBits, hc, Option.map_some, Option.getD_some]
        apply key
        have hcv := hK.2 b c y hc tb hb
        rw [it_in_nonneg (ev_in tb hb) hy'.1] at hcv
        have := bitLen_le (c := c) (by omega)
        have h2 := cast_two_pow (bitLen c - 1)
        omega
    | rem =>
      have hxr := ih1 ta (pa (by simp))
      have hyin := hy (by simp) (by simp)
      have hy' := (it_unsigned (t := a.ty.it p) hs).1 hyin
      obtain ⟨hy0, he⟩ := rem_ok hr
      have hq : v = x % y := by rw [he]; exact Int.tmod_eq_emod_of_nonneg hx'.1
      simp only [reduce]
      refine lt_pow_min ?_ ?_
      · have h1 : v < y := by rw [hq]; exact Int.emod_lt_of_pos x (by omega)
        have h2 := const_lt hK tb hb (by rw [← hsame (by simp) (by simp)]; exact hs)
        omega
      · have : v ≤ x := by rw [hq]; exact emod_le_self hx'.1 (by omega)
        omega
    | and =>
      have hxr := ih1 ta (pa (by simp))
      have hyr := ih2 tb (pb rfl)
      have hyin := hy (by simp) (by simp)
      simp only [Op.run] at hr
      obtain ⟨l1, l2⟩ := and_unsigned (it_pos hok) hs hx hyin
      rw [← hr] at l1 l2
      have c1 := const_lt hK tb hb (by rw [← hsame (by simp) (by simp)]; exact hs)
      have c2 := const_lt hK ta ha hs
      simp only [reduce]
      exact lt_pow_min (lt_pow_min (lt_pow_min (by omega) (by omega)) (by omega)) (by omega)
    | shr =>
      have hxr := ih1 ta (pa (by simp))
      obtain ⟨y0, _, he⟩ := shr_ok hr
      have hle := shiftBits_eq hK tb hb y0
      simp only [reduce]
      obtain ⟨x', rfl⟩ := Int.eq_ofNat_of_zero_le hx'.1
      have h1 : x' < 2 ^ reduce K n false a := by exact_mod_cast hxr
      have := div_bits (k := shiftBits K b) h1 (Nat.pow_le_pow_right (by decide) hle)
      rw [he]
      exact_mod_cast this
  | @call0 ty m a x v ha hr ih =>
    have hv : (ty.it p).In v := ev_in (e := .call0 ty m a) ht (.call0 ha hr)
    simp only [reduce]
    split
    · next hm => exact absurd (ht.2.2.2.1 hm) (by simp [hp.1])
    · exact bound hp hv
  | @call1 ty m a b x y v ha hb hr ih1 ih2 =>
    have hv : (ty.it p).In v := ev_in (e := .call1 ty m a b) ht (.call1 ha hb hr)
    have hv' := (it_unsigned (t := ty.it p) hp.1).1 hv
    simp only [reduce, if_neg (show ¬(false = true) by simp)]
    refine lt_pow_min ?_ ?_
    · rcases hp.2.2 with ⟨hm, pa⟩ | hr'
      · subst hm
        simp only [Meth.run1] at hr
        have := ih1 ht.2.1 pa
        omega
      · exact Int.lt_of_lt_of_le (bound ⟨hp.1, hp.2.1⟩ hv) (pow_mono hr')
    · by_cases hm : m = .min
      · subst hm
        simp only [Meth.run1] at hr
        have hbt : b.ty = ty := ht.2.2.2.2.1 rfl
        have := const_lt hK ht.2.2.1 hb (by rw [hbt]; exact hp.1)
        simp only [if_true]
        omega
      · simp only [hm, if_false, Option.getD_none]
        exact lt_u64Max hv'.2 ht.1.2
  | @expect ty a v ha ih =>
    have hv : (ty.it p).In v := ev_in (e := .call1 ty .expect a .str) ht (.expect ha)
    have hv' := (it_unsigned (t := ty.it p) hp.1).1 hv
    simp only [reduce, if_neg (show ¬(false = true) by simp)]
    refine lt_pow_min ?_ ?_
    · rcases hp.2.2 with ⟨hm, _⟩ | hr'
      · cases hm
      · exact Int.lt_of_lt_of_le (bound ⟨hp.1, hp.2.1⟩ hv) (pow_mono hr')
    · simp only [if_neg (show ¬(Meth.expect = Meth.min) by simp), Option.getD_none]
      exact lt_u64Max hv'.2 ht.1.2
  | @call2 ty m a b c x y z v ha hb hc hr ih1 ih2 ih3 =>
    have hv : (ty.it p).In v := ev_in (e := .call2 ty m a b c) ht (.call2 ha hb hc hr)
    have hn := bound hp hv
    simp only [reduce]
    by_cases hm : m = .clamp
    · subst hm
      simp only [Meth.run2] at hr
      obtain ⟨tb, tc⟩ := ht.2.2.2.2.2.1 rfl
      have hb' := const_lt hK ht.2.2.1 hb (by rw [tb]; exact hp.1)
      have hc' := const_lt hK ht.2.2.2.1 hc (by rw [tc]; exact hp.1)
      rw [if_pos rfl]
      split
      · next l h e1 e2 =>
        rw [e1, Option.getD_some] at hb'
        rw [e2, Option.getD_some] at hc'
        have := pow_mono (Nat.le_max_right l h)
        rw [show l.max h = max l h from rfl]
        omega
      · exact hn
    · rw [if_neg hm]; exact hn

/-- `&` with a nonnegative value of a signed type. -/
theorem and_signed {t : IT} {x y : Int} (hc : t.toBits x < 2 ^ (t.bits - 1) ∨ t.toBits y < 2 ^ (t.bits - 1)) :
    0 ≤ t.and x y ∧ (t.and x y).natAbs ≤ t.toBits x ∧ (t.and x y).natAbs ≤ t.toBits y := by
  have h1 : t.toBits x &&& t.toBits y ≤ t.toBits x := Nat.and_le_left
  have h2 : t.toBits x &&& t.toBits y ≤ t.toBits y := Nat.and_le_right
  have hl := t.toBits_lt x
  unfold IT.and IT.ofBits
  dsimp only
  rw [Nat.mod_eq_of_lt (show t.toBits x &&& t.toBits y < 2 ^ t.bits by omega), if_neg (by omega)]
  omega

/-- A constant of a signed type has at most the bits of its representation. -/
theorem const_abs {p : Nat} {K : E → Option Nat} (hK : Right p K) {e : E} {v : Int} {c : Nat} (ht : e.Typed p) (h : Ev p e v)
    (hs : e.ty.signed = true) (hc : K e = some c) : v.natAbs ≤ 2 ^ bitLen c := by
  have hcv := hK.2 e c v hc ht h
  have hin := ev_in ht h
  have hpos := it_pos (ty_ok ht)
  have hl := bitLen_lt c
  by_cases h0 : 0 ≤ v
  · rw [it_in_nonneg hin h0] at hcv; omega
  · have hin' := (it_signed (t := e.ty.it p) hs).1 hin
    have hb := (e.ty.it p).toBits_cast v
    have e1 : v % 2 ^ (e.ty.it p).bits = v + 2 ^ (e.ty.it p).bits := by
      have h2 := two_pow_succ hpos
      have h3 := two_pow_pos ((e.ty.it p).bits - 1)
      rw [← Int.add_emod_right, Int.emod_eq_of_lt (by omega) (by omega)]
    rw [e1, ← hcv] at hb
    have h2 := two_pow_succ hpos
    have hge : 2 ^ ((e.ty.it p).bits - 1) ≤ c := by
      have h4 := cast_two_pow ((e.ty.it p).bits - 1)
      omega
    have := Nat.pow_le_pow_right (n := 2) (by decide) (Nat.le_of_succ_le (le_bitLen hge))
    have h4 := cast_two_pow ((e.ty.it p).bits - 1)
    omega

/-- The estimate for signed expressions: the absolute value is at most the power of the estimated bits. -/
theorem reduce_signed {p : Nat} {K : E → Option Nat} (hK : Right p K) {n : Nat} {e : E} {v : Int} (ht : e.Typed p) (hp : e.PlainS p K n)
    (h : Ev p e v) : v.natAbs ≤ 2 ^ reduce K n true e := by
  have bound : ∀ {t : ITy} {w : Int}, t.signed = true ∧ t.bits p ≤ n → (t.it p).In w → w.natAbs ≤ 2 ^ n := by
    intro t w ⟨hs, hb⟩ hw
    have := (it_signed (t := t.it p) hs).1 hw
    have h2 := Nat.pow_le_pow_right (n := 2) (by decide) (show (t.it p).bits - 1 ≤ n by simp only [ITy.it]; omega)
    have h4 := cast_two_pow ((t.it p).bits - 1)
    omega
  induction h with
  | atom h => exact bound hp h
  | lit => exact bound hp ht.2
  | @cast ty e v he ih =>
    simp only [reduce]
    have hv := ih ht.2 hp.2.2.2
    have hin := (it_signed (t := e.ty.it p) hp.2.1).1 (ev_in ht.2 he)
    have hle := pow_mono (show (e.ty.it p).bits - 1 ≤ (ty.it p).bits - 1 by have := hp.2.2.1; simp only [ITy.it]; omega)
    have : (ty.it p).In v := (it_signed (t := ty.it p) hp.1).2 ⟨by omega, by omega⟩
    rw [(ty.it p).wrap_of_in (it_pos ht.1) this]
    exact hv
  | block _ ih => exact ih ht hp
  | locl _ ih => exact ih ht hp
  | @bin op a b x y v ha hb hr ih1 ih2 =>
    obtain ⟨ta, tb, hok, hsame⟩ := ht
    obtain ⟨hs, hn, pa, pb⟩ := hp
    have hx := ev_in ta ha
    have hv : (a.ty.it p).In v := ev_in (e := .bin op a b) ⟨ta, tb, hok, hsame⟩ (.bin ha hb hr)
    have hvn := bound ⟨hs, hn⟩ hv
    cases op with
    | add => exact hvn
    | mul => exact hvn
    | other => exact hvn
    | div =>
      have hxr := ih1 ta (pa (by simp) (by simp))
      obtain ⟨_, he, _⟩ := div_ok hr
      have := Int.natAbs_tdiv_le_natAbs x y
      rw [← he] at this
      simp only [reduce, if_true, Nat.sub_zero]
      omega
    | rem =>
      have hxr := ih1 ta (pa (by simp) (by simp))
      obtain ⟨hy0, he⟩ := rem_ok hr
      have e1 : v.natAbs = x.natAbs % y.natAbs := by rw [he, Int.natAbs_tmod]
      have e2 := Nat.mod_le x.natAbs y.natAbs
      have e3 := Nat.mod_lt x.natAbs (show 0 < y.natAbs by omega)
      simp only [reduce]
      refine le_pow_min ?_ (by omega)
      cases hc : K b with
      | none =>
        simp only [constBits, hc, Option.map_none, Option.getD_none]
        have h1 := (it_signed (t := a.ty.it p) hs).1 hv
        have h2 : (a.ty.it p).bits - 1 ≤ u64Max := by
          have := hok.2
          have := u64Max_ge
          simp only [ITy.it]; omega
        have h3 := Nat.pow_le_pow_right (n := 2) (by decide) h2
        have h4 := cast_two_pow ((a.ty.it p).bits - 1)
        omega
      | some c =>
        simp only [constBits, hc, Option.map_some, Option.getD_some]
        have := const_abs hK tb hb (by rw [← hsame (by simp) (by simp)]; exact hs) hc
        omega
    | shr =>
      have hxr := ih1 ta (pa (by simp) (by simp))
      obtain ⟨y0, _, he⟩ := shr_ok hr
      have hle := shiftBits_eq hK tb hb y0
      simp only [reduce]
      rw [he]
      generalize hk : y.toNat = k at *
      have hpk := two_pow_pos k
      -- the bound is shifted as well
      have key : (2 : Int) ^ reduce K n true a ≤ 2 ^ (reduce K n true a - shiftBits K b) * 2 ^ k := by
        rw [← Int.pow_add]
        exact pow_mono (by omega)
      have c1 := cast_two_pow (reduce K n true a)
      have c2 := cast_two_pow (reduce K n true a - shiftBits K b)
      have up : x / 2 ^ k ≤ 2 ^ (reduce K n true a - shiftBits K b) := by
        have : x / 2 ^ k ≤ 2 ^ (reduce K n true a - shiftBits K b) * 2 ^ k / 2 ^ k := Int.ediv_le_ediv hpk (by omega)
        rwa [Int.mul_ediv_cancel _ (by omega)] at this
      have lo : -(2 ^ (reduce K n true a - shiftBits K b)) ≤ x / 2 ^ k := by
        rw [Int.le_ediv_iff_mul_le hpk, Int.neg_mul]
        omega
      omega
    | and =>
      simp only [Op.run] at hr
      rcases pb rfl with h | ⟨c, hc, hlt, hle⟩
      · exact Nat.le_trans hvn (Nat.pow_le_pow_right (by decide) h)
      · have ab := hsame (by simp) (by simp)
        have hxc : ∀ c', K a = some c' → c' = (a.ty.it p).toBits x := fun c' h => hK.2 a c' x h ta ha
        have hyc : ∀ c', K b = some c' → c' = (a.ty.it p).toBits y := fun c' h => by rw [ab]; exact hK.2 b c' y h tb hb
        have hvc : v.natAbs ≤ c := by
          rcases hc with h | h
          · have := hxc c h
            subst this
            rw [hr]
            exact (and_signed (.inl hlt)).2.1
          · have := hyc c h
            subst this
            rw [hr]
            exact (and_signed (.inr hlt)).2.2
        have := bitLen_lt c
        have := Nat.pow_le_pow_right (n := 2) (by decide) hle
        omega
  | @call0 ty m a x v ha hr ih =>
    have hv : (ty.it p).In v := ev_in (e := .call0 ty m a) ht (.call0 ha hr)
    simp only [reduce]
    split
    · next hm =>
      subst hm
      simp only [Meth.run0] at hr
      rw [hr]
      rcases Int.lt_trichotomy x 0 with h | h | h
      · rw [Int.sign_eq_neg_one_of_neg h]; decide
      · rw [h]; decide
      · rw [Int.sign_eq_one_of_pos h]; decide
    · exact bound hp hv
  | @call1 ty m a b x y v ha hb hr ih1 ih2 =>
    have hv : (ty.it p).In v := ev_in (e := .call1 ty m a b) ht (.call1 ha hb hr)
    simp only [reduce, if_true]
    exact bound hp hv
  | @expect ty a v ha ih =>
    have hv : (ty.it p).In v := ev_in (e := .call1 ty .expect a .str) ht (.expect ha)
    simp only [reduce, if_true]
    exact bound hp hv
  | @call2 ty m a b c x y z v ha hb hc hr ih1 ih2 ih3 =>
    have hv : (ty.it p).In v := ev_in (e := .call2 ty m a b c) ht (.call2 ha hb hc hr)
    have hn := bound hp hv
    simp only [reduce]
    by_cases hm : m = .clamp
    · subst hm
      simp only [Meth.run2] at hr
      obtain ⟨tb, tc⟩ := ht.2.2.2.2.2.1 rfl
      rw [if_pos rfl]
      split
      · next l h e1 e2 =>
        simp only [constBits, Option.map_eq_some_iff] at e1 e2
        obtain ⟨c1, k1, rfl⟩ := e1
        obtain ⟨c2, k2, rfl⟩ := e2
        have a1 := const_abs hK ht.2.2.1 hb (by rw [tb]; exact hp.1) k1
        have a2 := const_abs hK ht.2.2.2.1 hc (by rw [tc]; exact hp.1) k2
        have m1 := Nat.pow_le_pow_right (n := 2) (by decide) (Nat.le_max_left (bitLen c1) (bitLen c2))
        have m2 := Nat.pow_le_pow_right (n := 2) (by decide) (Nat.le_max_right (bitLen c1) (bitLen c2))
        rw [show (bitLen c1).max (bitLen c2) = max (bitLen c1) (bitLen c2) from rfl]
        omega
      · exact hn
    · rw [if_neg hm]; exact hn

/-! ## The lint -/

/-- The casts for which the comparison of widths is right: the target type isn't `usize` or `isize`, or so is the type of the operand, or the
operand has at most 64 bits and so have pointers. -/
def WidthsOk (p : Nat) (frm to : ITy) : Prop := to.ptrSized = true → frm.ptrSized = true ∨ (p = 64 ∧ frm.bits p ≤ 64)

theorem silent_bits {p : Nat} (hp : p = 16 ∨ p = 32 ∨ p = 64) {frm to : ITy} {r : Nat} (hw : WidthsOk p frm to)
    (hto : to.bits p ∈ [8, 16, 32, 64, 128]) (h : truncLint p frm to r = false) : r ≤ to.bits p ∨ frm.bits p ≤ to.bits p := by
  unfold truncLint at h
  cases hf : frm.ptrSized <;> cases ht : to.ptrSized <;> simp only [hf, ht] at h
  · simp at h; exact .inl h
  · right
    rcases hw ht with h1 | ⟨h1, h2⟩
    · rw [hf] at h1; cases h1
    · have : to.bits p = p := by
        unfold ITy.bits ITy.ptrSized at *
        cases hwt : to.width <;> simp_all
      omega
  · right
    simp at h
    have : frm.bits p = p := by
      unfold ITy.bits ITy.ptrSized at *
      cases hwt : frm.width <;> simp_all
    simp only [List.mem_cons, List.not_mem_nil, or_false] at hto
    omega
  · simp at h; exact .inl h

/-- **C59 (unsigned operands).** If the lint is silent about `e as to` then no value of `e` has more bits than the target type, and the cast to an unsigned
type keeps the value. Missing: the expressions excluded by `PlainU` and the widths excluded by `WidthsOk`, for which it is wrong (`method_not_min`,
`cast_inside`, `u128_to_usize`, `u64_to_usize32`). -/
theorem truncation_unsigned_partial {p : Nat} (hp : p = 16 ∨ p = 32 ∨ p = 64) {K : E → Option Nat} (hK : Right p K) {e : E} {to : ITy} {v : Int}
    (ht : e.Typed p) (hpl : e.PlainU p K (e.ty.bits p)) (hu : e.ty.signed = false) (hto : to.bits p ∈ [8, 16, 32, 64, 128])
    (hw : WidthsOk p e.ty to) (h : truncates K p e to = false) (he : Ev p e v) :
    0 ≤ v ∧ v < 2 ^ to.bits p ∧ (to.signed = false → (to.it p).wrap v = v) := by
  have hin := (it_unsigned (t := e.ty.it p) hu).1 (ev_in ht he)
  have hlt : v < 2 ^ to.bits p := by
    unfold truncates at h
    rw [hu] at h
    rcases silent_bits hp hw hto h with h1 | h1
    · exact Int.lt_of_lt_of_le (reduce_unsigned hK ht hpl he) (pow_mono h1)
    · exact Int.lt_of_lt_of_le hin.2 (pow_mono h1)
  refine ⟨hin.1, hlt, fun hs => (to.it p).wrap_of_in ?_ ((it_unsigned (t := to.it p) hs).2 ⟨hin.1, hlt⟩)⟩
  simp only [List.mem_cons, List.not_mem_nil, or_false] at hto
  simp only [ITy.it]; omega

/-- **C59 (signed operands).** If the lint is silent about `e as to` then the absolute value of every value of `e` is at most `2 ^ to.bits`; a cast to a signed
type keeps the value if the estimate is two bits below the width or the operand's type isn't wider. Missing: the two bits
(`signed_remainder`), and what `PlainS` and `WidthsOk` exclude (`mask_of_sign`). -/
theorem truncation_signed_partial {p : Nat} (hp : p = 16 ∨ p = 32 ∨ p = 64) {K : E → Option Nat} (hK : Right p K) {e : E} {to : ITy} {v : Int}
    (ht : e.Typed p) (hpl : e.PlainS p K (e.ty.bits p)) (hs : e.ty.signed = true) (hto : to.bits p ∈ [8, 16, 32, 64, 128])
    (hw : WidthsOk p e.ty to) (h : truncates K p e to = false) (he : Ev p e v) :
    v.natAbs ≤ 2 ^ to.bits p ∧
    (to.signed = true → reduce K (e.ty.bits p) true e + 2 ≤ to.bits p ∨ e.ty.bits p ≤ to.bits p → (to.it p).wrap v = v) := by
  have hin := (it_signed (t := e.ty.it p) hs).1 (ev_in ht he)
  have hr := reduce_signed hK ht hpl he
  have c1 := cast_two_pow ((e.ty.it p).bits - 1)
  have hpos : 0 < (to.it p).bits := by
    simp only [List.mem_cons, List.not_mem_nil, or_false] at hto
    simp only [ITy.it]; omega
  constructor
  · unfold truncates at h
    rw [hs] at h
    rcases silent_bits hp hw hto h with h1 | h1
    · exact Nat.le_trans hr (Nat.pow_le_pow_right (by decide) h1)
    · have h2 := Nat.pow_le_pow_right (n := 2) (by decide) (show (e.ty.it p).bits - 1 ≤ to.bits p by simp only [ITy.it]; omega)
      omega
  · intro ts hb
    apply (to.it p).wrap_of_in hpos
    refine (it_signed (t := to.it p) ts).2 ?_
    rcases hb with hb | hb
    · have h2 := Nat.pow_lt_pow_right (a := 2) (by decide) (show reduce K (e.ty.bits p) true e < (to.it p).bits - 1 by simp only [ITy.it]; omega)
      have c2 := cast_two_pow ((to.it p).bits - 1)
      omega
    · have h2 := pow_mono (show (e.ty.it p).bits - 1 ≤ (to.it p).bits - 1 by simp only [ITy.it]; omega)
      omega

/-! `u8`, `i8`, .. -/

def uN (n : Nat) : ITy := ⟨false, some n⟩
def iN (n : Nat) : ITy := ⟨true, some n⟩
def usize : ITy := ⟨false, none⟩

/-- `(x / 256 % 10).min(y) as u8`: the lint is silent. -/
example : let x := E.atom (uN 64) 0
    let e := E.call1 (uN 64) .min (.bin .rem (.bin .div x (.lit (uN 64) 256)) (.lit (uN 64) 10)) (.atom (uN 64) 1)
    truncates (litK 64) 64 e (uN 8) = false ∧ e.Typed 64 ∧ e.PlainU 64 (litK 64) 64 ∧ WidthsOk 64 e.ty (uN 8) := by
  refine ⟨by decide +kernel, ?_, ?_, ?_⟩
  · simp only [E.Typed, ITy.Ok, ITy.bits, uN, Option.getD_some, ITy.it, E.ty]; simp; decide
  · simp [E.PlainU, uN, E.ty, ITy.bits]
  · simp [WidthsOk, ITy.ptrSized, uN]

/-- `(x % 50) as i8`: the lint is silent and the cast keeps the value. -/
example : let e := E.bin .rem (.atom (iN 64) 0) (.lit (iN 64) 50)
    truncates (litK 64) 64 e (iN 8) = false ∧ e.Typed 64 ∧ e.PlainS 64 (litK 64) 64 ∧ reduce (litK 64) 64 true e + 2 ≤ 8 := by
  refine ⟨by decide +kernel, ?_, ?_, by decide +kernel⟩
  · simp only [E.Typed, ITy.Ok, ITy.bits, iN, Option.getD_some, ITy.it, E.ty]; simp; decide
  · simp [E.PlainS, iN, E.ty, ITy.bits]

end Verif.Casts
