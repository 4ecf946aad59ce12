import Verif.Footnote.Model

/-!
# Properties: references to footnotes that do not exist
-/

namespace Verif.Footnote

theorem isDigit_iff (c : Nat) : isDigit c = true ↔ Digit c := by simp [isDigit, Digit]

theorem not_digit_93 : isDigit 93 = false := by decide

theorem numbers_iff (l : List Nat) : ∀ i j n, j + l.length ≤ 64 →
    (numbers i j l = some n ↔ ∃ ds b, l = ds ++ 93 :: b ∧ (∀ c ∈ ds, Digit c) ∧ (j ≠ 0 ∨ ds ≠ []) ∧ n = i + j + ds.length + 1) := by
  induction l with
  | nil => intro i j n _; simp [numbers]
  | cons c l ih =>
    intro i j n hl
    rw [List.length_cons] at hl
    rw [numbers]
    by_cases h1 : (c == 93 && j != 0) = true
    · rw [if_pos h1]
      rw [Bool.and_eq_true, beq_iff_eq, bne_iff_ne] at h1
      constructor
      · intro h
        injection h with h
        exact ⟨[], l, by rw [h1.1]; rfl, by simp, Or.inl h1.2, by simp [← h]⟩
      · rintro ⟨ds, b, e, hd, _, hn⟩
        cases ds with
        | nil => rw [hn]; rfl
        | cons d ds =>
          injection e with e _
          have := (isDigit_iff d).2 (hd d List.mem_cons_self)
          rw [← e, h1.1, not_digit_93] at this
          cases this
    · rw [if_neg h1]
      by_cases h2 : (!isDigit c || decide (j ≥ 64)) = true
      · rw [if_pos h2]
        constructor
        · intro h; cases h
        · rintro ⟨ds, b, e, hd, hz, _⟩
          exfalso
          rw [Bool.or_eq_true, decide_eq_true_eq, Bool.not_eq_true'] at h2
          rcases h2 with h2 | h2
          · cases ds with
            | nil =>
              injection e with e _
              apply h1
              rcases hz with hz | hz
              · simp [e, hz]
              · exact absurd rfl hz
            | cons d ds =>
              injection e with e _
              have := (isDigit_iff d).2 (hd d List.mem_cons_self)
              rw [← e, h2] at this
              cases this
          · omega
      · rw [if_neg h2, ih i (j + 1) n (by omega)]
        rw [Bool.or_eq_true, not_or, Bool.not_eq_true', Bool.not_eq_false] at h2
        constructor
        · rintro ⟨ds, b, e, hd, _, hn⟩
          refine ⟨c :: ds, b, by rw [e]; rfl, ?_, Or.inr (by simp), by rw [hn, List.length_cons]; omega⟩
          intro x hx
          rcases List.mem_cons.1 hx with hx | hx
          · rw [hx]; exact (isDigit_iff c).1 h2.1
          · exact hd x hx
        · rintro ⟨ds, b, e, hd, hz, hn⟩
          cases ds with
          | nil =>
            injection e with e _
            rw [e, not_digit_93] at h2
            exact absurd h2.1 (by simp)
          | cons d ds =>
            injection e with _ e
            exact ⟨ds, b, e, fun x hx => hd x (List.mem_cons_of_mem _ hx), Or.inl (by omega), by rw [hn, List.length_cons]; omega⟩

theorem take_split (l ds b : List Nat) (n : Nat) (h : l.take n = ds ++ 93 :: b) : l = ds ++ 93 :: (b ++ l.drop n) := by
  have := List.take_append_drop n l
  rw [h, List.append_assoc, List.cons_append] at this
  exact this.symm

/-- What is found after `[^`. -/
theorem allNumbers_iff (text : List Nat) (i n : Nat) :
    allNumbers text i = some n ↔ ∃ ds b, text.drop i = ds ++ 93 :: b ∧ (∀ c ∈ ds, Digit c) ∧ ds ≠ [] ∧ ds.length < 64 ∧ n = i + ds.length + 1 := by
  unfold allNumbers
  rw [numbers_iff _ _ _ _ (by rw [Nat.zero_add, List.length_take]; exact Nat.min_le_left _ _)]
  constructor
  · rintro ⟨ds, b, e, hd, hz, hn⟩
    refine ⟨ds, _, take_split _ _ _ _ e, hd, hz.resolve_left (fun h => h rfl), ?_, by simpa using hn⟩
    have := congrArg List.length e
    rw [List.length_take, List.length_append, List.length_cons] at this
    omega
  · rintro ⟨ds, b, e, hd, hz, hl, hn⟩
    refine ⟨ds, b.take (64 - ds.length - 1), ?_, hd, Or.inr hz, by simpa using hn⟩
    rw [e, List.take_append, List.take_of_length_le (by omega)]
    have : 64 - ds.length = (64 - ds.length - 1) + 1 := by omega
    rw [this, List.take_succ_cons]
    rfl

theorem ref_parts (doc : List Nat) (start : Nat) (h0 : doc[start]? = some 91) (h1 : doc[start + 1]? = some 94) :
    doc = doc.take start ++ 91 :: 94 :: doc.drop (start + 2) ∧ (doc.take start).length = start := by
  obtain ⟨l0, e0⟩ := List.getElem?_eq_some_iff.1 h0
  obtain ⟨l1, e1⟩ := List.getElem?_eq_some_iff.1 h1
  refine ⟨?_, by rw [List.length_take]; omega⟩
  have h := List.take_append_drop start doc
  rw [List.drop_eq_getElem_cons l0, e0, List.drop_eq_getElem_cons l1, e1] at h
  exact h.symm

/-- When a bracket is reported, in terms of the text around it. -/
theorem report_iff (doc : List Nat) (start stop : Nat) (h0 : doc[start]? = some 91) : at_ doc start = .report stop ↔
    ∃ a ds b, Ref doc a ds b ∧ a.length = start ∧ stop = start + ds.length + 3 ∧ ds.length < 64 ∧ ¬Defines b ∧ a ≠ [] ∧ a.getLast? ≠ some 92 := by
  unfold at_
  constructor
  · intro h
    by_cases h1 : (doc[start + 1]? == some 94) = true
    · rw [if_pos h1] at h
      rw [beq_iff_eq] at h1
      obtain ⟨e, hl⟩ := ref_parts doc start h0 h1
      cases h2 : allNumbers doc (start + 2) with
      | none => rw [h2] at h; cases h
      | some n =>
        rw [h2] at h
        obtain ⟨ds, b, e2, hd, hz, h64, hn⟩ := (allNumbers_iff doc _ _).1 h2
        rw [e2] at e
        simp only at h
        by_cases h3 : (doc[n]? != some 58) = true
        · rw [if_pos h3] at h
          unfold before at h
          by_cases h4 : (start == 0) = true
          · rw [if_pos h4] at h; cases h
          · rw [if_neg h4] at h
            by_cases h5 : (doc[start - 1]? != some 92) = true
            · rw [if_pos h5] at h
              injection h with h
              rw [beq_iff_eq] at h4
              rw [bne_iff_ne] at h3 h5
              refine ⟨doc.take start, ds, b, ⟨e, hz, hd⟩, hl, by omega, h64, ?_, ?_, ?_⟩
              · intro hb
                apply h3
                rw [e, hn, List.getElem?_append_right (by omega), hl]
                have : start + 2 + ds.length + 1 - start = ds.length + 1 + 1 + 1 := by omega
                rw [this, List.getElem?_cons_succ, List.getElem?_cons_succ, List.getElem?_append_right (by omega)]
                have : ds.length + 1 - ds.length = 0 + 1 := by omega
                rw [this, List.getElem?_cons_succ, ← List.head?_eq_getElem?]
                exact hb
              · intro k
                rw [k] at hl
                exact h4 hl.symm
              · rw [List.getLast?_eq_getElem?, hl, List.getElem?_take, if_pos (by omega)]
                exact h5
            · rw [if_neg h5] at h; cases h
        · rw [if_neg h3] at h; cases h
    · rw [if_neg h1] at h; cases h
  · rintro ⟨a, ds, b, ⟨e, hz, hd⟩, hl, hs, h64, hb, ha, hg⟩
    have h1 : doc[start + 1]? = some 94 := by
      rw [e, List.getElem?_append_right (by omega), hl]
      have : start + 1 - start = 0 + 1 := by omega
      rw [this]; rfl
    have hdrop : doc.drop (start + 2) = ds ++ 93 :: b := by
      rw [e, List.drop_append, hl, List.drop_of_length_le (by omega)]
      have : start + 2 - start = 0 + 1 + 1 := by omega
      rw [this]; rfl
    have h2 := (allNumbers_iff doc (start + 2) (start + 2 + ds.length + 1)).2 ⟨ds, b, hdrop, hd, hz, h64, rfl⟩
    rw [h1, if_pos (by simp), h2]
    have h3 : doc[start + 2 + ds.length + 1]? = b.head? := by
      have h4 : start + 2 + ds.length + 1 = (start + 2) + (ds.length + 1) := by omega
      rw [h4, ← List.getElem?_drop, hdrop, List.getElem?_append_right (by omega)]
      have : ds.length + 1 - ds.length = 0 + 1 := by omega
      rw [this, List.getElem?_cons_succ, ← List.head?_eq_getElem?]
    simp only
    rw [h3, if_pos (by rw [bne_iff_ne]; exact hb)]
    have hs0 : start ≠ 0 := by
      intro k
      rw [k] at hl
      exact ha (List.eq_nil_of_length_eq_zero hl)
    unfold before
    rw [if_neg (by rw [beq_iff_eq]; exact hs0)]
    have h5 : doc[start - 1]? = a.getLast? := by
      rw [List.getLast?_eq_getElem?, hl, e, List.getElem?_append_left (by omega)]
    rw [h5, if_pos (by rw [bne_iff_ne]; exact hg)]
    congr 1
    omega

theorem slashes_zero (a : List Nat) (h : a.getLast? ≠ some 92) : slashes a = 0 := by
  unfold slashes
  rw [List.getLast?_eq_head?_reverse] at h
  cases hr : a.reverse with
  | nil => rfl
  | cons x l =>
    rw [hr] at h
    have : x ≠ 92 := fun e => h (by rw [e]; rfl)
    rw [List.takeWhile_cons_of_neg (by simpa using this)]
    rfl

/-- Only references are reported that are not escaped and not definitions, up to the closing bracket. -/
theorem only_refs (doc : List Nat) (start stop : Nat) (h0 : doc[start]? = some 91) (h : at_ doc start = .report stop) :
    ∃ a ds b, Ref doc a ds b ∧ a.length = start ∧ stop = start + ds.length + 3 ∧ ¬Defines b ∧ ¬Escaped a := by
  obtain ⟨a, ds, b, h1, h2, h3, _, h4, _, h5⟩ := (report_iff doc start stop h0).1 h
  exact ⟨a, ds, b, h1, h2, h3, h4, by unfold Escaped; rw [slashes_zero a h5]; decide⟩

/-- References are reported. Partial: not at the very start of the text, not right after a backslash that is itself escaped, and with fewer than 64 digits. -/
theorem refs_partial (doc a ds b : List Nat) (h : Ref doc a ds b) (hb : ¬Defines b) (ha : a ≠ []) (hs : slashes a = 0) (hl : ds.length < 64) :
    at_ doc a.length = .report (a.length + ds.length + 3) := by
  refine (report_iff doc a.length _ ?_).2 ⟨a, ds, b, h, rfl, rfl, hl, hb, ha, ?_⟩
  · rw [h.1, List.getElem?_append_right (by omega), Nat.sub_self]; rfl
  · intro k
    rw [List.getLast?_eq_head?_reverse] at k
    cases hr : a.reverse with
    | nil => rw [hr] at k; cases k
    | cons x l =>
      rw [hr] at k
      injection k with k
      unfold slashes at hs
      rw [hr, List.takeWhile_cons_of_pos (by simpa using k)] at hs
      cases hs

theorem brackets_mem (l : List Nat) : ∀ lo s, s ∈ brackets lo l ↔ ∃ k, s = lo + k ∧ l[k]? = some 91 := by
  induction l with
  | nil => intro lo s; simp [brackets]
  | cons c l ih =>
    intro lo s
    have key : (∃ k, s = lo + k ∧ (c :: l)[k]? = some 91) ↔ (s = lo ∧ c = 91) ∨ ∃ k, s = lo + 1 + k ∧ l[k]? = some 91 := by
      constructor
      · rintro ⟨k, h1, h2⟩
        cases k with
        | zero => exact Or.inl ⟨h1, by simpa using h2⟩
        | succ k => exact Or.inr ⟨k, by omega, by simpa using h2⟩
      · rintro (⟨h1, h2⟩ | ⟨k, h1, h2⟩)
        · exact ⟨0, h1, by simp [h2]⟩
        · exact ⟨k + 1, by omega, by simpa using h2⟩
    rw [key, brackets]
    by_cases h : (c == 91) = true
    · rw [if_pos h, List.mem_cons, ih]
      rw [beq_iff_eq] at h
      simp [h]
    · rw [if_neg h, ih]
      rw [beq_iff_eq] at h
      simp [h]

/-- Every bracket of the range is looked at, and nothing else. -/
theorem check_mem (doc : List Nat) (lo hi s : Nat) (o : Outcome) : (s, o) ∈ check doc lo hi ↔ lo ≤ s ∧ s < hi ∧ doc[s]? = some 91 ∧ o = at_ doc s := by
  unfold check
  rw [List.mem_map]
  constructor
  · rintro ⟨x, hx, e⟩
    injection e with e1 e2
    rw [e1] at hx e2
    obtain ⟨k, hk, hg⟩ := (brackets_mem _ _ _).1 hx
    rw [List.getElem?_take] at hg
    by_cases hlt : k < hi - lo
    · rw [if_pos hlt, List.getElem?_drop] at hg
      exact ⟨by omega, by omega, by rw [hk]; exact hg, e2.symm⟩
    · rw [if_neg hlt] at hg; cases hg
  · rintro ⟨h1, h2, h3, h4⟩
    refine ⟨s, (brackets_mem _ _ _).2 ⟨s - lo, by omega, ?_⟩, by rw [h4]⟩
    rw [List.getElem?_take, if_pos (by omega), List.getElem?_drop]
    have : lo + (s - lo) = s := by omega
    rw [this]
    exact h3

/-- The fragment is the one the position comes from. Partial: fragments before it give as many bytes as their texts are long, and so does it; see `other_fragment`. -/
theorem fragment_partial (start : Nat) (bf af : List Fragment) (f : Fragment) (h : From start bf f) (he : ∀ g ∈ bf ++ [f], g.gives = g.len) :
    thisFragment start (bf ++ f :: af) = some bf.length := by
  have key : ∀ (bf : List Fragment) (pos k : Nat) (last : Option Nat), (∀ g ∈ bf ++ [f], g.gives = g.len) → pos + (bf.map Fragment.gives).sum ≤ start →
      start < pos + (bf.map Fragment.gives).sum + f.gives → findFragment start pos k last (bf ++ f :: af) = some (k + bf.length) := by
    intro bf
    induction bf with
    | nil =>
      intro pos k last he h1 h2
      have hf := he f (by simp)
      simp only [List.map_nil, List.sum_nil, Nat.add_zero] at h1 h2
      rw [List.nil_append, findFragment, if_pos (by simp; omega)]
      rfl
    | cons g bf ih =>
      intro pos k last he h1 h2
      have hg := he g (by simp)
      rw [List.map_cons, List.sum_cons] at h1 h2
      rw [List.cons_append, findFragment, if_neg (by simp; omega), ih (pos + g.len) (k + 1) last (fun x hx => he x (List.mem_cons_of_mem _ hx)) (by omega) (by omega),
        List.length_cons]
      congr 1
      omega
  unfold thisFragment
  rw [key bf 0 0 _ he (by have := h.1; omega) (by have := h.2; omega), Nat.zero_add]

/-- `a [^1] b`. -/
def sample : List Nat := [97, 32, 91, 94, 49, 93, 32, 98]

example : check sample 0 8 = [(2, .report 6)] := by decide +kernel

example : Ref sample [97, 32] [49] [32, 98] ∧ ¬Defines [32, 98] ∧ slashes [97, 32] = 0 :=
  ⟨⟨rfl, by decide, by intro c hc; simp at hc; rw [hc]; exact ⟨by decide, by decide⟩⟩, by unfold Defines; decide, by decide⟩

example : From 5 [⟨4, 4⟩] ⟨3, 3⟩ ∧ thisFragment 5 [⟨4, 4⟩, ⟨3, 3⟩, ⟨9, 9⟩] = some 1 := ⟨⟨by decide, by decide⟩, by decide⟩

/-- At the very start of the text, a position below zero is asked for. -/
theorem start_overflow : at_ [91, 94, 49, 93] 0 = .overflow ∧ Ref [91, 94, 49, 93] [] [49] [] :=
  ⟨by decide +kernel, rfl, by decide, by intro c hc; simp at hc; rw [hc]; exact ⟨by decide, by decide⟩⟩

/-- After an escaped backslash, nothing is reported: `\\[^1]`. -/
theorem escaped_backslash : at_ [92, 92, 91, 94, 49, 93] 2 = .silent ∧ Ref [92, 92, 91, 94, 49, 93] [92, 92] [49] [] ∧ ¬Escaped [92, 92] :=
  ⟨by decide +kernel, ⟨rfl, by decide, by intro c hc; simp at hc; rw [hc]; exact ⟨by decide, by decide⟩⟩, by unfold Escaped; decide⟩

/-- When lines give more than their text is long, as `///a` does (one byte and the end of the line), a later fragment may be taken: here after four such lines the
reference is all of the fifth, `///[^1]`. -/
theorem other_fragment : From 8 [⟨1, 2⟩, ⟨1, 2⟩, ⟨1, 2⟩, ⟨1, 2⟩] ⟨4, 5⟩ ∧ thisFragment 8 [⟨1, 2⟩, ⟨1, 2⟩, ⟨1, 2⟩, ⟨1, 2⟩, ⟨4, 5⟩, ⟨9, 10⟩] = some 5 :=
  ⟨⟨by decide, by decide⟩, by decide⟩

end Verif.Footnote
