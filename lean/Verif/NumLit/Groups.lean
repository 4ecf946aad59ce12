import Verif.NumLit.Core

/-!
# C10 — digit grouping is canonical
-/

namespace Verif.NumLit
open Verif

/-! ## Groups of printed digits -/

theorem cycle_run (size : Nat) (ds : Str) : ∀ i, 0 < i → i < size →
    cycleDigits size i ds = ds.take (size - i) ++ cycleDigits size 0 (ds.drop (size - i)) := by
  induction ds with
  | nil => intro i _ _; simp [cycleDigits]
  | cons c cs ih =>
    intro i h0 h1
    have hi : i ≠ 0 := by omega
    rw [cycleDigits, if_neg hi]
    by_cases he : i + 1 = size
    · rw [he, Nat.mod_self, show size - i = 1 by omega]
      simp
    · rw [Nat.mod_eq_of_lt (by omega), ih (i + 1) (by omega) (by omega)]
      obtain ⟨k, hk⟩ : ∃ k, size - i = k + 1 := ⟨size - i - 1, by omega⟩
      rw [hk, show size - (i + 1) = k by omega]
      simp

theorem cycle_group (size : Nat) (hs : 2 ≤ size) (c : Char) (cs : Str) :
    cycleDigits size 0 (c :: cs) =
      '_' :: ((c :: cs).take size ++ cycleDigits size 0 ((c :: cs).drop size)) := by
  rw [cycleDigits, if_pos rfl, Nat.mod_eq_of_lt (by omega), cycle_run size cs 1 (by omega) (by omega)]
  obtain ⟨k, rfl⟩ : ∃ k, size = k + 1 := ⟨size - 1, by omega⟩
  simp

/-- Lengths of the groups of `n` digits cut into groups of `size`, the last one possibly shorter. -/
theorem cycle_lens (size : Nat) (hs : 2 ≤ size) (q r : Nat) (hr : r < size) : ∀ (x ds : Str),
    '_' ∉ x → '_' ∉ ds → ds.length = q * size + r →
    groupLens (x ++ cycleDigits size 0 ds) =
      x.length :: (List.replicate q size ++ if r = 0 then [] else [r]) := by
  induction q with
  | zero =>
    intro x ds hx hds hl
    simp only [Nat.zero_mul, Nat.zero_add] at hl
    cases ds with
    | nil =>
      have : r = 0 := by simpa using hl.symm
      simp [cycleDigits, groupLens, Text.split_char_none _ _ hx, this]
    | cons c cs =>
      have hr0 : r ≠ 0 := by intro e; rw [e] at hl; simp at hl
      have htake : (c :: cs).take size = c :: cs := List.take_of_length_le (by omega)
      have hdrop : (c :: cs).drop size = [] := List.drop_eq_nil_of_le (by omega)
      rw [cycle_group size hs, htake, hdrop]
      unfold groupLens
      rw [Text.split_char _ _ _ hx]
      simp only [cycleDigits, List.append_nil]
      rw [Text.split_char_none _ _ hds]
      simp [hr0, ← hl]
  | succ q ih =>
    intro x ds hx hds hl
    have hlen : size ≤ ds.length := by rw [hl, Nat.add_mul]; omega
    cases ds with
    | nil => simp at hlen; omega
    | cons c cs =>
      rw [cycle_group size hs]
      unfold groupLens
      rw [Text.split_char _ _ _ hx]
      have := ih ((c :: cs).take size) ((c :: cs).drop size)
        (fun e => hds (List.mem_of_mem_take e)) (fun e => hds (List.mem_of_mem_drop e))
        (by rw [List.length_drop, hl, Nat.add_mul]; omega)
      unfold groupLens at this
      rw [List.map_cons, this, List.length_take, Nat.min_eq_left hlen, List.replicate_succ]
      simp

theorem grouping_ge (r : Radix) : 2 ≤ r.grouping := by cases r <;> decide

theorem firstSize_le (size n : Nat) (hs : 0 < size) : firstSize size n ≤ size := by
  unfold firstSize
  have := Nat.mod_lt (n - 1) hs
  omega

theorem firstSize_rest (size n : Nat) (hn : 0 < n) :
    firstSize size n ≤ n ∧ ∃ q, n - firstSize size n = q * size := by
  unfold firstSize
  have := Nat.div_add_mod (n - 1) size
  have h2 := Nat.mod_le (n - 1) size
  refine ⟨by omega, (n - 1) / size, ?_⟩
  rw [Nat.mul_comm]
  omega

/-- The groups of a printed integer part. -/
theorem printedInt_lens (r : Radix) (ds : Str) (h : '_' ∉ ds) (hne : ds ≠ []) :
    ∃ first q, groupLens (printedInt r ds) = first :: List.replicate q r.grouping ∧
      1 ≤ first ∧ first ≤ r.grouping ∧ (r = .hexadecimal → first = r.grouping) ∧
      (q = 0 → (printedInt r ds).length ≤ r.grouping) := by
  have hn : 0 < ds.length := List.length_pos_iff.mpr hne
  obtain ⟨hle, q, hq⟩ := firstSize_rest r.grouping ds.length hn
  have hle' := firstSize_le r.grouping ds.length (by have := grouping_ge r; omega)
  have hpos := firstSize_pos r.grouping ds.length
  unfold printedInt grouped
  rw [← List.append_assoc]
  have := cycle_lens r.grouping (grouping_ge r) q 0 (by have := grouping_ge r; omega)
    ((if r = .hexadecimal then List.replicate (r.grouping - firstSize r.grouping ds.length) '0' else [])
      ++ ds.take (firstSize r.grouping ds.length)) (ds.drop (firstSize r.grouping ds.length))
    (by
      intro e
      rcases List.mem_append.mp e with e | e
      · split at e
        · exact absurd (List.eq_of_mem_replicate e) (by decide)
        · simp at e
      · exact h (List.mem_of_mem_take e))
    (fun e => h (List.mem_of_mem_drop e))
    (by rw [List.length_drop, hq]; rfl)
  rw [this]
  simp only [if_true, List.append_nil, List.length_append, List.length_take, Nat.min_eq_left hle]
  refine ⟨_, q, rfl, by omega, ?_, ?_, ?_⟩
  · split
    · rw [List.length_replicate]; omega
    · simpa using hle'
  · intro hr
    rw [if_pos hr, List.length_replicate]; omega
  · intro h0
    rw [h0, Nat.zero_mul] at hq
    rw [List.drop_eq_nil_of_le (by omega)]
    simp only [cycleDigits, List.append_nil, List.length_append, List.length_take, Nat.min_eq_left hle,
      List.length_nil, Nat.add_zero]
    split
    · rw [List.length_replicate]; omega
    · simpa using hle'

/-- The groups of a printed fraction. -/
theorem frac_lens (size : Nat) (hs : 2 ≤ size) (ds : Str) (h : '_' ∉ ds) (hne : ds ≠ []) :
    ∃ q last, groupLens (grouped size size ds) = List.replicate q size ++ [last] ∧
      1 ≤ last ∧ last ≤ size ∧ (q = 0 → (grouped size size ds).length ≤ size) := by
  have hn : 0 < ds.length := List.length_pos_iff.mpr hne
  unfold grouped
  by_cases hl : ds.length ≤ size
  · rw [List.take_of_length_le hl, List.drop_eq_nil_of_le hl]
    simp only [cycleDigits, List.append_nil, groupLens, Text.split_char_none _ _ h]
    exact ⟨0, ds.length, rfl, hn, hl, fun _ => hl⟩
  · have hq := Nat.div_add_mod (ds.length - size) size
    have hr := Nat.mod_lt (ds.length - size) (show 0 < size by omega)
    have := cycle_lens size hs ((ds.length - size) / size) ((ds.length - size) % size) hr
      (ds.take size) (ds.drop size) (fun e => h (List.mem_of_mem_take e))
      (fun e => h (List.mem_of_mem_drop e)) (by rw [List.length_drop, Nat.mul_comm]; omega)
    rw [this, List.length_take, Nat.min_eq_left (by omega)]
    by_cases h0 : (ds.length - size) % size = 0
    · rw [if_pos h0, List.append_nil]
      have hpos : 0 < (ds.length - size) / size := by
        rcases Nat.eq_zero_or_pos ((ds.length - size) / size) with e | e
        · rw [e, h0] at hq; omega
        · exact e
      refine ⟨(ds.length - size) / size, size, ?_, by omega, Nat.le_refl _, by omega⟩
      rw [← List.replicate_succ, List.replicate_succ']
    · rw [if_neg h0]
      exact ⟨(ds.length - size) / size + 1, (ds.length - size) % size, by simp [List.replicate_succ],
        by omega, by omega, fun e => absurd e (Nat.succ_ne_zero _)⟩

/-! ## Parsing the canonical form again -/

theorem cycle_last (size : Nat) (s : Str) : ∀ i, (cycleDigits size i s).getLast? = s.getLast? := by
  induction s with
  | nil => intro i; rfl
  | cons c cs ih =>
    intro i
    rw [cycleDigits, List.getLast?_append, ih, List.getLast?_cons]
    cases cs.getLast? <;> split <;> simp

theorem grouped_last (size first : Nat) (ds : Str) : (grouped size first ds).getLast? = ds.getLast? := by
  unfold grouped
  rw [List.getLast?_append, cycle_last, ← List.getLast?_append, List.take_append_drop]

theorem cut_us {x : Str} (h : x.getLast? ≠ some '_') (a : Bool) : cut (x ++ us a) = x := by
  cases a with
  | false => simp [us, cut, h]
  | true => simp [us, cut]

theorem grouped_last_ne {size first : Nat} {ds : Str} (h : '_' ∉ ds) :
    (grouped size first ds).getLast? ≠ some '_' := by
  rw [grouped_last]
  intro e
  exact h (List.mem_of_getLast? e)

theorem printedInt_last_ne {r : Radix} {ds : Str} (h : '_' ∉ ds) (hne : ds ≠ []) :
    (printedInt r ds).getLast? ≠ some '_' := by
  unfold printedInt
  rw [List.getLast?_append, grouped_last]
  cases hl : ds.getLast? with
  | none => exact absurd (List.getLast?_eq_none_iff.mp hl) hne
  | some c =>
    have := List.mem_of_getLast? hl
    simp only [Option.some_or, ne_eq, Option.some.injEq]
    intro e; exact h (e ▸ this)

theorem trim_us {x : Str} (h : x.getLast? ≠ some '_') (a : Bool) (suffix : Option Str)
    (ha : a = true → suffix ≠ none) : trim suffix (x ++ us a) = x := by
  cases suffix with
  | some sx => exact cut_us h a
  | none =>
    cases a with
    | true => exact absurd rfl (ha rfl)
    | false => simp [trim, us]

/-- The parts of the canonical form of an unsigned literal, parsed again. -/
theorem reparse {l l' : Lit} (hwf : l.WF) (hn : l.neg = false) {suffix : Option Str} {float : Bool}
    (hwf' : l'.WF) (hc : Canonical l suffix l')
    (hfloat : l'.floatForm = true → float = true) (hdec : float = true → l.radix = .decimal) :
    (parse l'.text suffix float).radix = l.radix ∧
    (parse l'.text suffix float).integer = printedInt l.radix (digitsOf l.int) ∧
    ((parse l'.text suffix float).fraction = none ∨
      ∃ ds, (parse l'.text suffix float).fraction = some (grouped 3 3 ds) ∧ '_' ∉ ds ∧
        l.radix = .decimal) := by
  obtain ⟨a1, F, a2, E, a3, rfl, ⟨ha1, ha2, ha3⟩, _, hF⟩ := hc
  have hin : Input (assemble l (printedInt l.radix (digitsOf l.int)) a1 F a2 E a3) :=
    ⟨hwf', fun h => by simp [assemble, hn] at h⟩
  rw [parse_eq hin]
  have hIlast := printedInt_last_ne (r := l.radix) (not_mem_digitsOf l.int) (WF.int_digit hwf)
  have hItext : DigitText l.radix (printedInt l.radix (digitsOf l.int)) :=
    printedInt_text (digitsOf_text (WF.int_text hwf))
  generalize printedInt l.radix (digitsOf l.int) = I at *
  have hplain : ∀ a, float = true → Plain (I ++ us a) := by
    intro a hfl
    apply digitText_plain
    have := us_text l.radix a hItext
    rwa [hdec hfl] at this
  have hneg : negText (assemble l I a1 F a2 E a3).neg = [] := by simp [assemble, hn, negText]
  have hint : (assemble l I a1 F a2 E a3).int = I ++ us a1 := rfl
  rw [hneg, List.nil_append, hint]
  refine ⟨rfl, ?_⟩
  cases F with
  | none =>
    cases E with
    | none =>
      have ht : tailText (assemble l I a1 none a2 none a3) = [] := rfl
      rw [ht, List.append_nil, trim_us hIlast a1 suffix
        (fun h => by simpa using (ha1 h).2)]
      have : splitDigitParts I float = (I, none, none) := by
        cases hfl : float with
        | false => rfl
        | true =>
          have := hplain false hfl
          simp only [us, Bool.false_eq_true, if_false, List.append_nil] at this
          exact split_int I this
      rw [this]
      exact ⟨rfl, Or.inl rfl⟩
    | some e =>
      obtain ⟨m, s, d⟩ := e
      have hfl : float = true := hfloat (by simp [assemble, Lit.floatForm])
      subst hfl
      have hm := (WF.exp_text hwf' (m, s, d ++ us a3) rfl).1
      simp only at hm
      have hmu : m ≠ '_' := by rcases hm with e | e <;> (rw [e]; decide)
      have ht : tailText (assemble l I a1 none a2 (some (m, s, d)) a3) = m :: (s.text ++ (d ++ us a3)) := by
        simp [tailText, assemble]
      rw [ht, trim_append _ _ _ _ hmu, split_exp _ _ m hm (hplain a1 rfl)]
      exact ⟨cut_us hIlast a1, Or.inl rfl⟩
  | some f =>
    have ha1' : a1 = false := by
      cases a1 with
      | false => rfl
      | true => exact absurd (ha1 rfl).1 (by simp)
    subst ha1'
    have hus : I ++ us false = I := by simp [us]
    have hfl : float = true := hfloat (by simp [assemble, Lit.floatForm])
    subst hfl
    obtain ⟨ds, rfl, hds, hdig⟩ := hF f rfl
    have hFlast := grouped_last_ne (size := 3) (first := 3) hds
    have hIp := hplain false rfl
    rw [hus] at hIp ⊢
    have hFp : Plain (grouped 3 3 ds) := digitText_plain (grouped_text hdig)
    have hFp' : Plain (grouped 3 3 ds ++ us a2) :=
      digitText_plain (us_text _ a2 (grouped_text hdig))
    cases E with
    | none =>
      have ht : tailText (assemble l I false (some (grouped 3 3 ds)) a2 none a3) =
          '.' :: (grouped 3 3 ds ++ us a2) := by
        simp [tailText, assemble]
      rw [ht, trim_append _ _ _ _ (by decide), trim_us hFlast a2 suffix
        (fun h => by simpa using (ha2 h).2), split_frac _ _ hIp hFp]
      exact ⟨rfl, Or.inr ⟨ds, rfl, hds, hdec rfl⟩⟩
    | some e =>
      obtain ⟨m, s, d⟩ := e
      have hm := (WF.exp_text hwf' (m, s, d ++ us a3) rfl).1
      simp only at hm
      have hmu : m ≠ '_' := by rcases hm with e | e <;> (rw [e]; decide)
      have ht : tailText (assemble l I false (some (grouped 3 3 ds)) a2 (some (m, s, d)) a3) =
          '.' :: ((grouped 3 3 ds ++ us a2) ++ m :: (s.text ++ (d ++ us a3))) := by
        simp [tailText, assemble]
      have e1 : I ++ '.' :: ((grouped 3 3 ds ++ us a2) ++ m :: (s.text ++ (d ++ us a3))) =
          (I ++ '.' :: (grouped 3 3 ds ++ us a2)) ++ m :: (s.text ++ (d ++ us a3)) := by simp
      have e2 : (I ++ '.' :: (grouped 3 3 ds ++ us a2)) ++ m :: trim suffix (s.text ++ (d ++ us a3)) =
          I ++ '.' :: ((grouped 3 3 ds ++ us a2) ++ m :: trim suffix (s.text ++ (d ++ us a3))) := by simp
      rw [ht, e1, trim_append _ _ _ _ hmu, e2, split_frac_exp _ _ _ m hm hIp hFp']
      refine ⟨rfl, Or.inr ⟨ds, ?_, hds, hdec rfl⟩⟩
      show some (cut (grouped 3 3 ds ++ us a2)) = _
      rw [cut_us hFlast]

/-- Groups of the canonical sizes pass `get_group_size`. -/
theorem size_ok (first q : Nat) (r : Radix) (b : Bool) (h : first ≤ r.grouping) :
    getGroupSize first (List.replicate q r.grouping) r b =
      .ok (if r = .decimal ∧ q ≠ 0 then some 3 else none) := by
  have h5 : ¬ (first > 5) := by cases r <;> simp [Radix.grouping] at h <;> omega
  cases q with
  | zero => cases r <;> simp [getGroupSize, groupSizeTail, h5]
  | succ q =>
    cases r <;> simp [Radix.grouping] at h <;>
      simp [getGroupSize, groupSizeTail, List.replicate_succ, Radix.grouping, h5] <;> omega

/-! ## The property -/

/-- What the grouping of digits should be: group lengths from left to right, `size` digits each, where
only the first (for an integer part) or the last (for a fraction) may be shorter. -/
def WellGroupedInt (size : Nat) (lens : List Nat) : Prop :=
  ∃ first q, lens = first :: List.replicate q size ∧ 1 ≤ first ∧ first ≤ size

def WellGroupedFrac (size : Nat) (lens : List Nat) : Prop :=
  lens = [0] ∨ ∃ q last, lens = List.replicate q size ++ [last] ∧ 1 ≤ last ∧ last ≤ size

/-- **C10.** Let `out` be what clippy proposes for an unsigned literal. Read again, its integer part and
its fraction are grouped as they should be for the radix (hexadecimal numbers have no short group at
all), and clippy's grouping checks accept it: clippy never asks to regroup its own suggestion. -/
theorem canonical_groups (l : Lit) (hwf : l.WF) (hneg : l.neg = false) (suffix : Option Str)
    (float : Bool) (hfloat : l.floatForm = true → float = true) (hdec : float = true → l.radix = .decimal)
    (out : Str) (hout : format l.text suffix float = some out) (lintFraction : Bool) :
    let n := fromLitKind out (suffix.map List.length) float
    n.radix = l.radix ∧
    WellGroupedInt l.radix.grouping (groupLens n.integer) ∧
    (l.radix = .hexadecimal → ∀ k ∈ groupLens n.integer, k = l.radix.grouping) ∧
    (∀ f ∈ n.fraction, WellGroupedFrac l.radix.grouping (groupLens f)) ∧
    checkGroups n lintFraction = .ok () := by
  intro n
  obtain ⟨l', hfmt, hwf', _, hr', _, hcan, _, _⟩ := format_core l hwf (by simp [hneg]) suffix float
    hfloat hdec
  rw [hout] at hfmt
  have hout' : out = l'.text ++ suffix.getD [] := by simpa using hfmt
  have hn : n = parse l'.text suffix float := by
    show fromLitKind out (suffix.map List.length) float = _
    rw [hout']
    cases suffix <;> simp [fromLitKind, splitSuffix]
  have hfloat' : l'.floatForm = true → float = true := by
    intro h'
    apply hfloat
    obtain ⟨a1, F, a2, E, a3, rfl, _, hff, _⟩ := hcan
    apply hff
    cases F <;> cases E <;> simp_all [assemble, Lit.floatForm]
  obtain ⟨hr, hi, hf⟩ := reparse hwf hneg hwf' hcan hfloat' hdec
  rw [← hn] at hr hi hf
  obtain ⟨first, q, hlens, h1, h2, hhex, hq0⟩ :=
    printedInt_lens l.radix (digitsOf l.int) (not_mem_digitsOf l.int) (WF.int_digit hwf)
  rw [← hi] at hlens hq0
  have hintOk : ∀ b, getGroupSize first (List.replicate q l.radix.grouping) l.radix b = .ok
      (if l.radix = .decimal ∧ q ≠ 0 then some 3 else none) := by
    intro b
    exact size_ok _ _ _ _ h2
  refine ⟨hr, ⟨first, q, hlens, h1, h2⟩, ?_, ?_, ?_⟩
  · intro hx k hk
    rw [hlens] at hk
    rcases List.mem_cons.mp hk with e | e
    · rw [e, hhex hx]
    · exact List.eq_of_mem_replicate e
  · intro f hfm
    rcases hf with hf | ⟨ds, hf, hds, hrd⟩
    · rw [hf] at hfm; simp at hfm
    · rw [hf] at hfm
      simp at hfm
      subst hfm
      rw [hrd]
      by_cases hne : ds = []
      · subst hne; exact Or.inl (by decide)
      · obtain ⟨q, last, hl, h1, h2, _⟩ := frac_lens 3 (by decide) ds hds hne
        exact Or.inr ⟨q, last, hl, h1, h2⟩
  · unfold checkGroups
    rw [hlens]
    simp only [hr, hintOk]
    rcases hf with hf | ⟨ds, hf, hds, hrd⟩
    · rw [hf]; rfl
    · rw [hf]
      rw [hrd] at hq0 ⊢
      by_cases hne : ds = []
      · subst hne
        have : (groupLens []).reverse = [0] := by decide
        have hg : grouped 3 3 [] = [] := by decide
        simp only [hg, this]
        by_cases hq : q = 0 <;> cases lintFraction <;>
          simp [hq, getGroupSize, groupSizeTail, partsConsistent, bind, Except.bind]
      · obtain ⟨q', last, hl, h1', h2', hq'⟩ := frac_lens 3 (by decide) ds hds hne
        have hrev : (groupLens (grouped 3 3 ds)).reverse = last :: List.replicate q' 3 := by
          rw [hl]; simp
        have := size_ok last q' .decimal lintFraction h2'
        simp only [Radix.grouping] at this hq0
        simp only [hrev, this]
        by_cases hq : q = 0 <;> by_cases hqq : q' = 0 <;>
          simp_all [partsConsistent, bind, Except.bind]

/-- Non-vacuity: the proposal for `12345.6789f64` read again. -/
example : format (str!"12345.6789") (some (str!"f64")) true = some (str!"12_345.678_9_f64") ∧
    (fromLitKind (str!"12_345.678_9_f64") (some 3) true).integer = str!"12_345" ∧
    (fromLitKind (str!"12_345.678_9_f64") (some 3) true).fraction = some (str!"678_9") := by decide

/-- The checks do reject literals that are grouped badly. -/
example : checkGroups (fromLitKind (str!"1_23_456") none false) true = .error .inconsistent ∧
    checkGroups (fromLitKind (str!"1234567") none false) true = .error .unreadable ∧
    checkGroups (fromLitKind (str!"0xABC_DE") none false) true = .error .unusualBytes ∧
    checkGroups (fromLitKind (str!"12_34567") none false) true = .error .large :=
  ⟨rfl, rfl, rfl, rfl⟩

/-! ## Formatting is idempotent on integers -/

theorem printedInt_idem (r : Radix) (ds : Str) (h : '_' ∉ ds) (hne : ds ≠ []) :
    printedInt r (digitsOf (printedInt r ds)) = printedInt r ds := by
  by_cases hr : r = .hexadecimal
  · subst hr
    have hn : 0 < ds.length := List.length_pos_iff.mpr hne
    have hd : digitsOf (printedInt .hexadecimal ds) =
        List.replicate (4 - firstSize 4 ds.length) '0' ++ ds := by
      unfold printedInt
      rw [digitsOf_append, grouped_digits _ _ _ h, if_pos rfl, digitsOf_eq_self]
      · rfl
      · intro e; exact absurd (List.eq_of_mem_replicate e) (by decide)
    have hf : firstSize 4 (4 - firstSize 4 ds.length + ds.length) = 4 := by unfold firstSize; omega
    have hle : firstSize 4 ds.length ≤ 4 := by unfold firstSize; omega
    rw [hd]
    simp only [printedInt, if_true, Radix.grouping, List.length_append, List.length_replicate, hf,
      Nat.sub_self, List.replicate_zero, List.nil_append, grouped]
    rw [List.take_append, List.drop_append, List.length_replicate,
      show 4 - (4 - firstSize 4 ds.length) = firstSize 4 ds.length by omega,
      List.take_of_length_le (by simp), List.drop_eq_nil_of_le (by simp)]
    simp
  · have hd : digitsOf (printedInt r ds) = ds := by
      simp only [printedInt, if_neg hr, List.nil_append]
      exact grouped_digits _ _ _ h
    rw [hd]

/-- The text printed for an integer literal. -/
theorem format_int {l : Lit} (h : Input l) (hf : l.frac = none) (he : l.exp = none) (suffix : Option Str)
    (float : Bool) (hdec : float = true → l.radix = .decimal) :
    format l.text suffix float = some (l.radix.text ++ (negText l.neg ++
      printedInt l.radix (digitsOf l.int)) ++ us suffix.isSome ++ suffix.getD []) := by
  have hp := parse_parsed h suffix float (by simp [Lit.floatForm, hf, he]) hdec
  unfold format
  generalize parse l.text suffix float = n at hp
  have hI := int_printed h hp
  have hItext : DigitText l.radix (printedInt l.radix (digitsOf l.int)) :=
    printedInt_text (digitsOf_text (WF.int_text h.wf))
  have hIhead := printedInt_head (r := l.radix) (not_mem_digitsOf l.int) (WF.int_digit h.wf)
  have hIne : printedInt l.radix (digitsOf l.int) ≠ [] := by
    intro e; rw [e] at hIhead; simp at hIhead
  have hnf : n.fraction = none := by
    rcases hp.frac with ⟨_, e⟩ | ⟨f, g, e, _⟩
    · exact e
    · rw [hf] at e; simp at e
  have hne : n.exponent = none := by
    rcases hp.exp with ⟨_, e⟩ | ⟨m, s, d, sep, ex, e, _⟩
    · exact e
    · rw [he] at e; simp at e
  cases suffix with
  | none =>
    rw [format_none hp.suffix (o := l.radix.text ++ (negText l.neg ++
      printedInt l.radix (digitsOf l.int)))]
    · simp [us]
    · simp [Num.unsuffixed, hI, hnf, hne, hp.pre]
  | some sx =>
    have hdot := ne_dot (t := l.radix.text ++ negText l.neg) hItext hIne
    rw [format_some hp.suffix ?_ hdot]
    · simp [us]
    · simp [Num.unsuffixed, hI, hnf, hne, hp.pre]

/-- **C10, idempotence.** What clippy prints for an integer literal is a fixed point: reading it again
and printing it changes nothing. -/
theorem format_idempotent (l : Lit) (hwf : l.WF) (hneg : l.neg = true → l.radix = .decimal)
    (hint : l.floatForm = false) (suffix : Option Str) (float : Bool)
    (hdec : float = true → l.radix = .decimal) (out : Str)
    (hout : format l.text suffix float = some out) :
    (fromLitKind out (suffix.map List.length) float).format = some out := by
  have hf : l.frac = none := by
    cases h : l.frac with
    | none => rfl
    | some f => simp [Lit.floatForm, h] at hint
  have he : l.exp = none := by
    cases h : l.exp with
    | none => rfl
    | some f => simp [Lit.floatForm, h] at hint
  have h : Input l := ⟨hwf, hneg⟩
  have hItext : DigitText l.radix (printedInt l.radix (digitsOf l.int)) :=
    printedInt_text (digitsOf_text (WF.int_text h.wf))
  have hIhead := printedInt_head (r := l.radix) (not_mem_digitsOf l.int) (WF.int_digit h.wf)
  have hok : (assemble l (printedInt l.radix (digitsOf l.int)) suffix.isSome none false none false).Suffixable :=
    assemble_ok hItext hIhead (by simp) (by simp) (by simp)
  have htext := assemble_text h (printedInt l.radix (digitsOf l.int)) suffix.isSome none false none false
  have h' : Input (assemble l (printedInt l.radix (digitsOf l.int)) suffix.isSome none false none false) :=
    ⟨Or.inl hok, hneg⟩
  have hfmt := format_int h hf he suffix float hdec
  have hfmt' := format_int h' rfl rfl suffix float hdec
  have hidem := printedInt_idem l.radix (digitsOf l.int) (not_mem_digitsOf l.int) (WF.int_digit hwf)
  have hint' : digitsOf (assemble l (printedInt l.radix (digitsOf l.int)) suffix.isSome none false none
      false).int = digitsOf (printedInt l.radix (digitsOf l.int)) := by
    show digitsOf (_ ++ us _) = _
    rw [digitsOf_append, us_digits, List.append_nil]
  rw [hint'] at hfmt'
  simp only [assemble, hidem] at hfmt'
  have hout' : out = (assemble l (printedInt l.radix (digitsOf l.int)) suffix.isSome none false none
      false).text ++ suffix.getD [] := by
    have := hout.symm.trans hfmt
    rw [htext]
    simpa using this
  have hn : fromLitKind out (suffix.map List.length) float = parse (assemble l
      (printedInt l.radix (digitsOf l.int)) suffix.isSome none false none false).text suffix float := by
    rw [hout']
    cases suffix <;> simp [fromLitKind, splitSuffix]
  rw [hn]
  exact hfmt'.trans (hfmt.symm.trans hout)

/-- Non-vacuity. -/
example : format (str!"0xabcde_") (some (str!"u64")) false = some (str!"0x000a_bcde_u64") ∧
    (fromLitKind (str!"0x000a_bcde_u64") (some 3) false).format = some (str!"0x000a_bcde_u64") := by decide

end Verif.NumLit
