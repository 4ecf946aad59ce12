import Verif.Casts.TruncWitness

/-! C62: `cast_enum_truncation` is emitted if and only if some variant has a discriminant with too many bits. -/

namespace Verif.Casts
open Verif.RInt

/-! ## Specification: the discriminants of an enum -/

/-- The number. -/
def EnumValue.val : EnumValue → Int
  | .unsigned x => x
  | .signed x => x

/-- The discriminants of the variants as they are written: with an explicit one or without. Without one it is the previous one plus one, for the first
variant 0. -/
def values (next : Int) : List (Option EnumValue) → List Int
  | [] => []
  | some v :: r => v.val :: values (v.val + 1) r
  | none :: r => next :: values (next + 1) r

/-- What rustc stores (`VariantDiscr`): for a variant without explicit discriminant the distance from the last one with an explicit discriminant, or from the
first variant. -/
def discrs (d : Nat) : List (Option EnumValue) → List Discr
  | [] => []
  | some v :: r => .explicit (some v) :: discrs 1 r
  | none :: r => .relative d :: discrs (d + 1) r

/-- The values rustc accepts: those of an `i128` or a `u128`. -/
def EnumOk (vs : List (Option EnumValue)) : Prop :=
  (∀ v ∈ values 0 vs, i128Min ≤ v ∧ v < 2 ^ 128) ∧ ∀ x, some (EnumValue.signed x) ∈ vs → x ≤ i128Max

/-! ## The bits of a value -/

theorem bitLen_le_iff {c n : Nat} : bitLen c ≤ n ↔ c < 2 ^ n :=
  ⟨fun h => Nat.lt_of_lt_of_le (bitLen_lt c) (Nat.pow_le_pow_right (by decide) h), bitLen_le_of_lt⟩

theorem toNat_lt_pow {x : Int} {n : Nat} : x.toNat < 2 ^ n ↔ x < 2 ^ n := by
  have h0 := two_pow_pos n
  have h1 := cast_two_pow n
  omega

theorem neg_bits {x : Int} {m : Nat} (hm : 1 ≤ m) (hx : x < 0) : bitLen (-(x + 1)).toNat + 1 ≤ m ↔ -(2 ^ (m - 1)) ≤ x := by
  have e : bitLen (-(x + 1)).toNat + 1 ≤ m ↔ bitLen (-(x + 1)).toNat ≤ m - 1 := by omega
  rw [e, bitLen_le_iff, toNat_lt_pow]
  omega

/-- **C62 (one variant).** The number of bits of a value is the least number with which it can be written, in two's complement if it is negative. -/
theorem enumValueBits_le {ev : EnumValue} {m : Nat} (hm : 1 ≤ m) : enumValueBits ev ≤ m ↔ Fits m ev.val := by
  have h1 := two_pow_pos (m - 1)
  have h2 := two_pow_pos m
  have h3 := cast_two_pow m
  unfold Fits
  cases ev with
  | unsigned x =>
    simp only [enumValueBits, EnumValue.val, bitLen_le_iff]
    omega
  | signed x =>
    simp only [enumValueBits, EnumValue.val]
    by_cases hx : x < 0
    · rw [if_pos hx, neg_bits hm hx]
      omega
    · rw [if_neg hx, bitLen_le_iff, toNat_lt_pow]
      omega

/-- The bits of 255, 256, -128 and -129. -/
example : enumValueBits (.unsigned 255) = 8 ∧ enumValueBits (.signed 256) = 9 ∧ enumValueBits (.signed (-128)) = 8 ∧ enumValueBits (.signed (-129)) = 9 := by
  decide +kernel

theorem discrs_get {d : Nat} {vs : List (Option EnumValue)} {pre : List Discr} (hpre : d ≤ pre.length) {next : Int}
    (hbase : (∃ v, pre[pre.length - d]? = some (.explicit (some v)) ∧ 1 ≤ d ∧ next = v.val + d) ∨
      (pre.length = d ∧ next = d ∧ (d = 0 ∨ ∃ x, pre[0]? = some (.relative x)))) {i : Nat} (hi : i < vs.length) :
    (discriminantValue (pre ++ discrs d vs) (pre.length + i)).map EnumValue.val = (values next vs)[i]? := by
  induction vs generalizing d pre next i with
  | nil => cases hi
  | cons v r ih =>
    cases v with
    | some v =>
      cases i with
      | zero => simp [discriminantValue, discrs, values]
      | succ i =>
        have := @ih 1 (pre ++ [.explicit (some v)]) (by simp) (v.val + 1) (.inl ⟨v, by simp, by omega, by simp⟩) i (by simpa using hi)
        simp only [List.append_assoc, List.singleton_append, List.length_append, List.length_singleton] at this
        simp only [discrs, values, List.getElem?_cons_succ]
        rw [← this]
        congr 2
        omega
    | none =>
      cases i with
      | zero =>
        simp only [discrs, values, Nat.add_zero, List.getElem?_cons_zero]
        unfold discriminantValue
        rw [show (pre ++ Discr.relative d :: discrs (d + 1) r)[pre.length]? = some (.relative d) by simp]
        simp only
        rw [if_neg (by omega)]
        rcases hbase with ⟨v, h1, h2, h3⟩ | ⟨h1, h2, h3⟩
        · rw [List.getElem?_append_left (by omega), h1]
          simp only [Option.map_some]
          subst h3
          cases v <;> simp [EnumValue.add, EnumValue.val]
        · rcases h3 with h3 | ⟨x, h3⟩
          · subst h3
            have : pre = [] := List.length_eq_zero_iff.1 h1
            subst this
            subst h2
            rfl
          · have hl : 0 < pre.length := by
              cases pre with
              | nil => cases h3
              | cons => simp
            rw [List.getElem?_append_left (by omega), h1, Nat.sub_self, h3]
            subst h2
            rfl
      | succ i =>
        have hb : ((∃ v, (pre ++ [Discr.relative d])[(pre ++ [Discr.relative d]).length - (d + 1)]? = some (.explicit (some v)) ∧ 1 ≤ d + 1 ∧
            next + 1 = v.val + (d + 1 : Nat)) ∨
            ((pre ++ [Discr.relative d]).length = d + 1 ∧ next + 1 = (d + 1 : Nat) ∧ (d + 1 = 0 ∨ ∃ x, (pre ++ [Discr.relative d])[0]? = some (.relative x)))) := by
          rcases hbase with ⟨v, h1, h2, h3⟩ | ⟨h1, h2, h3⟩
          · refine .inl ⟨v, ?_, by omega, by omega⟩
            simp only [List.length_append, List.length_singleton, Nat.add_sub_add_right]
            rw [List.getElem?_append_left (by omega), h1]
          · refine .inr ⟨by simp [h1], by omega, .inr ?_⟩
            rcases h3 with h3 | ⟨x, h3⟩
            · have : pre = [] := List.length_eq_zero_iff.1 (by omega)
              subst this
              exact ⟨d, rfl⟩
            · refine ⟨x, ?_⟩
              have hl : 0 < pre.length := by
                cases pre with
                | nil => cases h3
                | cons => simp
              rw [List.getElem?_append_left hl, h3]
        have := @ih (d + 1) (pre ++ [.relative d]) (by simp; omega) (next + 1) hb i (by simpa using hi)
        simp only [List.append_assoc, List.singleton_append, List.length_append, List.length_singleton] at this
        simp only [discrs, values, List.getElem?_cons_succ]
        rw [← this]
        congr 2
        omega

/-- **C62.** `get_discriminant_value` gives the discriminant of the variant. -/
theorem discriminantValue_spec {vs : List (Option EnumValue)} {i : Nat} (hi : i < vs.length) :
    (discriminantValue (discrs 0 vs) i).map EnumValue.val = (values 0 vs)[i]? := by
  have := @discrs_get 0 vs [] (by simp) 0 (.inr ⟨rfl, rfl, .inl rfl⟩) i hi
  simpa using this

/-- `enum E { A, B, C = -4, D, E }` -/
example : values 0 [none, none, some (.signed (-4)), none, none] = [0, 1, -4, -3, -2] ∧
    discriminantValue (discrs 0 [none, none, some (.signed (-4)), none, none]) 4 = some (.signed (-2)) := by decide +kernel

/-! ## All variants -/

theorem bitLen_i128Max : bitLen i128Max.toNat = 127 := by decide +kernel
theorem bitLen_i128Min : bitLen (-(i128Min + 1)).toNat = 127 := by decide +kernel

/-- The state of the fold makes sense. -/
structure Fold.Ok (s : Fold) : Prop where
  start_le : s.start ≤ 0
  start_ge : i128Min ≤ s.start
  last_le : s.last ≤ i128Max
  last_ge : i128Min ≤ s.last
  explicit_le : s.explicit ≤ i128Max
  explicit_ge : s.start ≤ s.explicit
  order : s.start ≤ s.last ∨ s.start = 0

theorem foldBits_le {s : Fold} (h : s.Ok) {m : Nat} (hm : 1 ≤ m) : foldBits s ≤ m ↔ -(2 ^ (m - 1)) ≤ s.start ∧ s.last < 2 ^ m := by
  have h1 := two_pow_pos (m - 1)
  have h2 := two_pow_pos m
  have := h.start_le
  unfold foldBits
  by_cases hc : s.start > s.last
  · rw [if_pos hc]
    have := h.order
    omega
  · rw [if_neg hc]
    have e : ∀ a b : Nat, Nat.max a b ≤ m ↔ a ≤ m ∧ b ≤ m := fun a b => Nat.max_le
    rw [e]
    by_cases hs : s.start < 0
    · rw [if_pos hs, neg_bits hm hs]
      by_cases hl : s.last > 0
      · rw [if_pos hl, bitLen_le_iff, toNat_lt_pow]
      · rw [if_neg hl]; omega
    · rw [if_neg hs]
      by_cases hl : s.last > 0
      · rw [if_pos hl, bitLen_le_iff, toNat_lt_pow]; omega
      · rw [if_neg hl]; omega

theorem relative_le {s : Fold} {x : Nat} (h : s.explicit + x ≤ i128Max) : foldStep s (.relative x) = { s with last := max s.last (s.explicit + x) } := by
  simp only [foldStep, if_pos h]

theorem relative_gt {s : Fold} {x : Nat} (h : ¬s.explicit + x ≤ i128Max) : foldStep s (.relative x) = { s with start := i128Min } := by
  simp only [foldStep, if_neg h]

theorem unsigned_le {s : Fold} {x : Nat} (h : (x : Int) ≤ i128Max) :
    foldStep s (.explicit (some (.unsigned x))) = { s with explicit := x, last := max s.last x } := by
  simp only [foldStep, if_pos h]

theorem unsigned_gt {s : Fold} {x : Nat} (h : ¬(x : Int) ≤ i128Max) : foldStep s (.explicit (some (.unsigned x))) = { s with start := i128Min } := by
  simp only [foldStep, if_neg h]

theorem foldStep_ok {s : Fold} (h : s.Ok) {d : Discr} (hd : ∀ x, d = .explicit (some (.signed x)) → i128Min ≤ x ∧ x ≤ i128Max) : (foldStep s d).Ok := by
  obtain ⟨h1, h2, h3, h4, h5, h7, h6⟩ := h
  have m0 : i128Min ≤ 0 := by decide
  have over : Fold.Ok { s with start := i128Min } := ⟨m0, Int.le_refl _, h3, h4, h5, Int.le_trans h2 h7, .inl h4⟩
  cases d with
  | relative x =>
    by_cases hc : s.explicit + x ≤ i128Max
    · rw [relative_le hc]
      refine ⟨h1, h2, ?_, ?_, h5, h7, ?_⟩ <;> simp only <;> omega
    · rw [relative_gt hc]
      exact over
  | explicit v =>
    rcases v with _ | ⟨x⟩ | ⟨x⟩
    · exact ⟨h1, h2, h3, h4, h5, h7, h6⟩
    · by_cases hc : (x : Int) ≤ i128Max
      · rw [unsigned_le hc]
        refine ⟨h1, h2, ?_, ?_, ?_, ?_, ?_⟩ <;> simp only <;> omega
      · rw [unsigned_gt hc]
        exact over
    · have := hd x rfl
      refine ⟨?_, ?_, ?_, ?_, ?_, ?_, ?_⟩ <;> simp only [foldStep] <;> omega

theorem foldStep_start {s : Fold} (h : s.start = i128Min) {d : Discr} (hd : ∀ x, d = .explicit (some (.signed x)) → i128Min ≤ x ∧ x ≤ i128Max) :
    (foldStep s d).start = i128Min := by
  cases d with
  | relative x =>
    by_cases hc : s.explicit + x ≤ i128Max
    · rw [relative_le hc]; exact h
    · rw [relative_gt hc]
  | explicit v =>
    rcases v with _ | ⟨x⟩ | ⟨x⟩
    · exact h
    · by_cases hc : (x : Int) ≤ i128Max
      · rw [unsigned_le hc]; exact h
      · rw [unsigned_gt hc]
    · have := hd x rfl
      simp only [foldStep]
      omega

theorem fold_large {s : Fold} (h : s.Ok) (hs : s.start = i128Min) {ds : List Discr}
    (hd : ∀ x, Discr.explicit (some (.signed x)) ∈ ds → i128Min ≤ x ∧ x ≤ i128Max) {m : Nat} (hm : 1 ≤ m) : foldBits (ds.foldl foldStep s) ≤ m ↔ 128 ≤ m := by
  induction ds generalizing s with
  | nil =>
    rw [List.foldl_nil, foldBits_le h hm, hs]
    constructor
    · rintro ⟨h1, _⟩
      refine Decidable.byContradiction fun hn => ?_
      have : (2 : Int) ^ (m - 1) ≤ 2 ^ 126 := pow_mono (by omega)
      have : i128Min = -(2 ^ 127) := rfl
      omega
    · intro h1
      have e1 : (2 : Int) ^ 127 ≤ 2 ^ (m - 1) := pow_mono (by omega)
      have e2 : (2 : Int) ^ 128 ≤ 2 ^ m := pow_mono h1
      have := h.last_le
      simp only [i128Min, i128Max] at *
      omega
  | cons d ds ih =>
    have hd' : ∀ x, d = .explicit (some (.signed x)) → i128Min ≤ x ∧ x ≤ i128Max := fun x hx => hd x (by rw [hx]; simp)
    rw [List.foldl_cons]
    exact ih (foldStep_ok h hd') (foldStep_start hs hd') (fun x hx => hd x (by simp [hx]))

theorem fits_large {v : Int} (h : i128Max < v) (h2 : v < 2 ^ 128) {m : Nat} : Fits m v ↔ 128 ≤ m := by
  have := two_pow_pos (m - 1)
  unfold Fits
  constructor
  · rintro ⟨_, h1⟩
    refine Decidable.byContradiction fun hn => ?_
    have : (2 : Int) ^ m ≤ 2 ^ 127 := pow_mono (by omega)
    simp only [i128Max] at h
    omega
  · intro h1
    have : (2 : Int) ^ 128 ≤ 2 ^ m := pow_mono h1
    simp only [i128Max] at h
    omega

theorem fits_all {v : Int} (h : i128Min ≤ v) (h2 : v < 2 ^ 128) {m : Nat} (h1 : 128 ≤ m) : Fits m v := by
  have e1 : (2 : Int) ^ 127 ≤ 2 ^ (m - 1) := pow_mono (by omega)
  have e2 : (2 : Int) ^ 128 ≤ 2 ^ m := pow_mono h1
  unfold Fits
  simp only [i128Min] at h
  omega

theorem mem_discrs {d : Nat} {vs : List (Option EnumValue)} {v : EnumValue} (h : Discr.explicit (some v) ∈ discrs d vs) : some v ∈ vs := by
  induction vs generalizing d with
  | nil => cases h
  | cons a r ih =>
    cases a with
    | none =>
      simp only [discrs, List.mem_cons] at h
      rcases h with h | h
      · cases h
      · exact List.mem_cons_of_mem _ (ih h)
    | some w =>
      simp only [discrs, List.mem_cons] at h
      rcases h with h | h
      · cases h; simp
      · exact List.mem_cons_of_mem _ (ih h)

theorem explicit_value {next : Int} {vs : List (Option EnumValue)} {v : EnumValue} (h : some v ∈ vs) : v.val ∈ values next vs := by
  induction vs generalizing next with
  | nil => cases h
  | cons a r ih =>
    cases a with
    | none =>
      simp only [List.mem_cons] at h
      rcases h with h | h
      · cases h
      · exact List.mem_cons_of_mem _ (ih h)
    | some w =>
      simp only [List.mem_cons] at h
      rcases h with h | h
      · cases h; simp [values]
      · exact List.mem_cons_of_mem _ (ih h)

theorem fold_fits {vs : List (Option EnumValue)} {s : Fold} (h : s.Ok) {d : Nat} {m : Nat} (hm : 1 ≤ m)
    (hv : ∀ v ∈ values (s.explicit + d) vs, i128Min ≤ v ∧ v < 2 ^ 128) (hx : ∀ x, some (EnumValue.signed x) ∈ vs → x ≤ i128Max) :
    foldBits ((discrs d vs).foldl foldStep s) ≤ m ↔ (-(2 ^ (m - 1)) ≤ s.start ∧ s.last < 2 ^ m) ∧ ∀ v ∈ values (s.explicit + d) vs, Fits m v := by
  have hp := two_pow_pos (m - 1)
  induction vs generalizing s d with
  | nil => simp [discrs, values, foldBits_le h hm]
  | cons a r ih =>
    have dx : ∀ x, Discr.explicit (some (.signed x)) ∈ discrs d (a :: r) → i128Min ≤ x ∧ x ≤ i128Max := by
      intro x hx'
      have := mem_discrs hx'
      exact ⟨(hv _ (explicit_value this)).1, hx x this⟩
    -- a value too large for `i128`
    have large : ∀ (s' : Fold) (ds : List Discr) (v : Int), s'.Ok → s'.start = i128Min → (∀ x, Discr.explicit (some (.signed x)) ∈ ds → i128Min ≤ x ∧ x ≤ i128Max) →
        v ∈ values (s.explicit + d) (a :: r) → i128Max < v →
        (foldBits (ds.foldl foldStep s') ≤ m ↔ (-(2 ^ (m - 1)) ≤ s.start ∧ s.last < 2 ^ m) ∧ ∀ v ∈ values (s.explicit + d) (a :: r), Fits m v) := by
      intro s' ds v h' hs' hds hmem hgt
      rw [fold_large h' hs' hds hm]
      constructor
      · intro hm'
        refine ⟨?_, fun w hw => fits_all (hv w hw).1 (hv w hw).2 hm'⟩
        have e1 : (2 : Int) ^ 127 ≤ 2 ^ (m - 1) := pow_mono (by omega)
        have e2 : (2 : Int) ^ 128 ≤ 2 ^ m := pow_mono hm'
        have := h.start_ge
        have := h.last_le
        simp only [i128Min, i128Max] at *
        omega
      · rintro ⟨_, hf⟩
        exact (fits_large hgt (hv v hmem).2).1 (hf v hmem)
    have hx' : ∀ x, some (EnumValue.signed x) ∈ r → x ≤ i128Max := fun x h' => hx x (by simp [h'])
    have hst := h.start_le
    have hex := h.explicit_ge
    cases a with
    | none =>
      have hok := foldStep_ok (d := .relative d) h (by intro x hx; cases hx)
      have es : s.explicit + (d : Int) + 1 = s.explicit + ((d + 1 : Nat) : Int) := by omega
      simp only [values, es] at hv
      simp only [discrs, List.foldl_cons]
      by_cases hc : s.explicit + d ≤ i128Max
      · rw [relative_le hc] at hok ⊢
        refine (ih hok (fun v h' => hv v (List.mem_cons_of_mem _ h')) hx').trans ?_
        simp only [values, es, List.mem_cons, forall_eq_or_imp]
        constructor
        · rintro ⟨⟨h1, h2⟩, h3⟩
          exact ⟨⟨h1, by omega⟩, ⟨by omega, by omega⟩, h3⟩
        · rintro ⟨⟨h1, h2⟩, h4, h3⟩
          exact ⟨⟨h1, by have := h4.2; omega⟩, h3⟩
      · rw [relative_gt hc] at hok ⊢
        exact large _ _ (s.explicit + d) hok rfl (fun x h' => dx x (by simp [discrs, h'])) (by simp [values]) (by omega)
    | some w =>
      have hok := foldStep_ok (d := .explicit (some w)) h (fun x h' => dx x (by simp [discrs, h']))
      simp only [values] at hv
      simp only [discrs, List.foldl_cons]
      cases w with
      | signed x =>
        simp only [EnumValue.val] at hv
        refine (ih hok (fun v h' => hv v (List.mem_cons_of_mem _ h')) hx').trans ?_
        simp only [values, EnumValue.val, List.mem_cons, forall_eq_or_imp, foldStep]
        constructor
        · rintro ⟨⟨h1, h2⟩, h3⟩
          exact ⟨⟨by omega, by omega⟩, ⟨by omega, by omega⟩, h3⟩
        · rintro ⟨⟨h1, h2⟩, h4, h3⟩
          have := h4.1
          have := h4.2
          exact ⟨⟨by omega, by omega⟩, h3⟩
      | unsigned x =>
        simp only [EnumValue.val] at hv
        by_cases hc : (x : Int) ≤ i128Max
        · rw [unsigned_le hc] at hok ⊢
          refine (ih hok (fun v h' => hv v (List.mem_cons_of_mem _ h')) hx').trans ?_
          simp only [values, EnumValue.val, List.mem_cons, forall_eq_or_imp]
          constructor
          · rintro ⟨⟨h1, h2⟩, h3⟩
            exact ⟨⟨by omega, by omega⟩, ⟨by omega, by omega⟩, h3⟩
          · rintro ⟨⟨h1, h2⟩, h4, h3⟩
            have := h4.1
            have := h4.2
            exact ⟨⟨by omega, by omega⟩, h3⟩
        · rw [unsigned_gt hc] at hok ⊢
          exact large _ _ x hok rfl (fun x h' => dx x (by simp [discrs, h'])) (by simp [values, EnumValue.val]) (by omega)

/-- **C62 (an enum).** The number of bits of an enum is the least number into which the discriminants of all variants fit. -/
theorem enumBits_le {vs : List (Option EnumValue)} (h : EnumOk vs) {m : Nat} (hm : 1 ≤ m) : enumBits (discrs 0 vs) ≤ m ↔ ∀ v ∈ values 0 vs, Fits m v := by
  have hok : Fold.Ok ⟨0, 0, i128Min⟩ := by constructor <;> decide
  have := @fold_fits vs ⟨0, 0, i128Min⟩ hok 0 m hm (by simpa using h.1) h.2
  have h1 := two_pow_pos (m - 1)
  have h2 := two_pow_pos m
  unfold enumBits
  rw [this]
  constructor
  · rintro ⟨_, h3⟩
    simpa using h3
  · intro h3
    refine ⟨⟨by simp only; omega, ?_⟩, by simpa using h3⟩
    have : i128Min < 0 := by decide
    simp only; omega

/-- **C62.** The lint is emitted for a cast of an enum to a type with a fixed width if and only if some discriminant doesn't fit; for a cast to a type as wide as
a pointer if and only if some discriminant doesn't fit into 32 bits, unless the discriminants have the width of a pointer, too. -/
theorem enum_truncation {p : Nat} {vs : List (Option EnumValue)} (h : EnumOk vs) {to : ITy} (hto : to.Std) (frmPtr : Bool) :
    enumTruncates p frmPtr (enumBits (discrs 0 vs)) to = true ↔
      (to.ptrSized = false ∧ ∃ v ∈ values 0 vs, ¬Fits (to.bits p) v) ∨ (to.ptrSized = true ∧ frmPtr = false ∧ ∃ v ∈ values 0 vs, ¬Fits 32 v) := by
  have ex : ∀ m, 1 ≤ m → (m < enumBits (discrs 0 vs) ↔ ∃ v ∈ values 0 vs, ¬Fits m v) := by
    intro m hm
    rw [← Nat.not_le, enumBits_le h hm]
    constructor
    · intro hn
      exact Decidable.byContradiction fun hne => hn fun v hv => Decidable.byContradiction fun hf => hne ⟨v, hv, hf⟩
    · rintro ⟨v, hv, hf⟩ hall
      exact hf (hall v hv)
  cases hp : to.ptrSized with
  | false =>
    have h1 : 1 ≤ to.bits p := by
      cases hw : to.width with
      | none => simp [ITy.ptrSized, hw] at hp
      | some n =>
        have := hto n hw
        simp only [List.mem_cons, List.not_mem_nil, or_false] at this
        simp only [ITy.bits, hw, Option.getD_some]
        omega
    have : enumTruncates p frmPtr (enumBits (discrs 0 vs)) to = decide (to.bits p < enumBits (discrs 0 vs)) := by cases frmPtr <;> simp [enumTruncates, hp]
    rw [this, decide_eq_true_eq, ex _ h1]
    simp
  | true =>
    cases frmPtr with
    | true => simp [enumTruncates, hp]
    | false =>
      have : enumTruncates p false (enumBits (discrs 0 vs)) to = decide (32 < enumBits (discrs 0 vs)) := by simp [enumTruncates, hp]
      rw [this, decide_eq_true_eq, ex _ (by decide)]
      simp

/-- `enum { A = -129, B = 100 }` has 9 bits; `enum { A = 255 }` has 8 and `enum { A = 255, B }` has 9. -/
example : enumBits (discrs 0 [some (.signed (-129)), some (.signed 100)]) = 9 ∧ enumBits (discrs 0 [some (.signed 255)]) = 8 ∧
    enumBits (discrs 0 [some (.signed 255), none]) = 9 ∧ EnumOk [some (.signed 255), none] ∧
    enumTruncates 64 true (enumBits (discrs 0 [some (.signed 255), none])) (uN 8) = true := by
  refine ⟨by decide +kernel, by decide +kernel, by decide +kernel, ⟨by decide +kernel, ?_⟩, by decide +kernel⟩
  intro x hx
  simp at hx
  subst hx
  decide

/-- The sign of the target type isn't looked at: `enum { A = 200 }` cast to `i8` isn't reported, but the result is -56. (`cast_possible_wrap` only considers casts
of integers.) -/
theorem enum_wraps : enumTruncates 64 true (enumBits (discrs 0 [some (.signed 200)])) (iN 8) = false ∧ ((iN 8).it 64).wrap 200 = -56 := by decide +kernel

end Verif.Casts
