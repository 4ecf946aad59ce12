import Verif.TextLints.Model

/-!
# C12 — tab reports in doc comments cover exactly the tabs
-/

namespace Verif.TextLints
open Verif

/-- The reported chunks are non-empty, lie in `[lo, …)`, and are separated by at least one byte. -/
inductive Separated : Nat → List (Nat × Nat) → Prop
  | nil (lo) : Separated lo []
  | cons {lo a b rest} : lo ≤ a → a < b → Separated (b + 1) rest → Separated lo ((a, b) :: rest)

/-- Position `i` lies in some chunk. -/
def Covered (chunks : List (Nat × Nat)) (i : Nat) : Prop := ∃ c ∈ chunks, c.1 ≤ i ∧ i < c.2

theorem Separated.mono {lo lo' : Nat} {l : List (Nat × Nat)} (h : Separated lo l) (hl : lo' ≤ lo) :
    Separated lo' l := by
  cases h with
  | nil => exact .nil _
  | cons h1 h2 h3 => exact .cons (by omega) h2 h3

theorem takeWhile_tab_get (l : List Nat) (j : Nat) (h : j < (l.takeWhile (· == 9)).length) :
    l[j]? = some 9 := by
  induction l generalizing j with
  | nil => simp at h
  | cons a as ih =>
    rw [List.takeWhile_cons] at h
    split at h
    · rename_i ha
      cases j with
      | zero => simpa using ha
      | succ j => simpa using ih j (by simpa using h)
    · simp at h

theorem takeWhile_tab_end (l : List Nat) : l[(l.takeWhile (· == 9)).length]? ≠ some 9 := by
  induction l with
  | nil => simp
  | cons a as ih =>
    rw [List.takeWhile_cons]
    split
    · simpa using ih
    · rename_i ha
      simpa using ha

theorem chunks_sound (n : Nat) : ∀ (offset : Nat) (h : List Nat), h.length ≤ n →
    Separated offset (chunksOfTabs offset h) ∧
    (h[0]? ≠ some 9 → Separated (offset + 1) (chunksOfTabs offset h)) ∧
    ∀ i, Covered (chunksOfTabs offset h) (offset + i) ↔ h[i]? = some 9 := by
  induction n with
  | zero =>
    intro offset h hl
    have : h = [] := List.length_eq_zero_iff.mp (by omega)
    subst this
    unfold chunksOfTabs
    exact ⟨.nil _, fun _ => .nil _, fun i => by simp [Covered]⟩
  | succ n ih =>
    intro offset h hl
    unfold chunksOfTabs
    split
    · rename_i hf
      refine ⟨.nil _, fun _ => .nil _, fun i => ?_⟩
      rw [List.findIdx?_eq_none_iff] at hf
      constructor
      · rintro ⟨c, hc, _⟩; simp at hc
      · intro hi
        have := hf 9 (List.mem_of_getElem? hi)
        simp at this
    · rename_i i hf
      rw [List.findIdx?_eq_some_iff_getElem] at hf
      obtain ⟨hi, h9, hbefore⟩ := hf
      generalize hlen : 1 + ((h.drop (i + 1)).takeWhile (· == 9)).length = len
      have hlen1 : 1 ≤ len := by omega
      obtain ⟨hs, hs', hc⟩ := ih (offset + i + len) (h.drop (i + len)) (by
        simp only [List.length_drop]; omega)
      have hend : (h.drop (i + len))[0]? ≠ some 9 := by
        have := takeWhile_tab_end (h.drop (i + 1))
        rw [List.getElem?_drop] at this ⊢
        rwa [show i + len + 0 = i + 1 + ((h.drop (i + 1)).takeWhile (· == 9)).length by omega]
      have hmid : ∀ j, i ≤ j → j < i + len → h[j]? = some 9 := by
        intro j h1 h2
        by_cases hj : j = i
        · subst hj
          rw [List.getElem?_eq_getElem hi]
          simpa using h9
        · have := takeWhile_tab_get (h.drop (i + 1)) (j - (i + 1)) (by omega)
          rw [List.getElem?_drop] at this
          rwa [show i + 1 + (j - (i + 1)) = j by omega] at this
      have hrest := hs' hend
      refine ⟨.cons (by omega) (by omega) hrest, ?_, ?_⟩
      · intro h0
        have : i ≠ 0 := by
          rintro rfl
          rw [List.getElem?_eq_getElem hi] at h0
          simp at h9
          exact h0 (by rw [h9])
        exact .cons (by omega) (by omega) hrest
      · intro j
        constructor
        · rintro ⟨c, hcm, h1, h2⟩
          rcases List.mem_cons.mp hcm with rfl | hcm
          · exact hmid j (by simpa using h1) (by simp at h2; omega)
          · by_cases hj : i + len ≤ j
            · have := (hc (j - (i + len))).mp ⟨c, hcm, by omega, by omega⟩
              rw [List.getElem?_drop] at this
              rwa [show i + len + (j - (i + len)) = j by omega] at this
            · -- the chunk would start before the remaining text
              exfalso
              have key : ∀ {lo l}, Separated lo l → ∀ c ∈ l, lo ≤ c.1 := by
                intro lo l hsep
                induction hsep with
                | nil => intro c hc; simp at hc
                | cons h1 h2 _ ih =>
                  intro c hc
                  rcases List.mem_cons.mp hc with rfl | hc
                  · exact h1
                  · have := ih c hc; omega
              have := key hrest c hcm
              omega
        · intro hj
          by_cases h1 : j < i
          · exfalso
            have := hbefore j h1
            rw [List.getElem?_eq_getElem (by omega)] at hj
            simp at this hj
            exact this hj
          · by_cases h2 : j < i + len
            · exact ⟨_, List.mem_cons_self, by simp; omega, by simp; omega⟩
            · obtain ⟨c, hcm, hc1, hc2⟩ := (hc (j - (i + len))).mpr (by
                rw [List.getElem?_drop]
                rwa [show i + len + (j - (i + len)) = j by omega])
              exact ⟨c, List.mem_cons_of_mem _ hcm, by omega, by omega⟩

/-- **C12.** For every text, the reported chunks are in order, non-empty and separated by at least one
byte (so they are maximal and no tab is in two chunks), and a position lies in some chunk exactly if
the byte there is a tab. -/
theorem chunks_cover_tabs (text : List Nat) :
    Separated 0 (chunksOfTabs 0 text) ∧
    ∀ i, Covered (chunksOfTabs 0 text) i ↔ text[i]? = some 9 := by
  obtain ⟨h1, _, h3⟩ := chunks_sound text.length 0 text (Nat.le_refl _)
  exact ⟨h1, fun i => by simpa using h3 i⟩

/-- The chunks are determined by the two facts above: any list of separated chunks that covers exactly
the tabs is the reported one. -/
theorem separated_unique : ∀ (lo : Nat) (l₁ l₂ : List (Nat × Nat)), Separated lo l₁ → Separated lo l₂ →
    (∀ i, Covered l₁ i ↔ Covered l₂ i) → l₁ = l₂ := by
  have key : ∀ {lo l}, Separated lo l → ∀ i, Covered l i → lo ≤ i := by
    intro lo l hsep
    induction hsep with
    | nil => rintro i ⟨c, hc, _⟩; simp at hc
    | cons h1 h2 _ ih =>
      rintro i ⟨c, hc, h⟩
      rcases List.mem_cons.mp hc with rfl | hc
      · simp at h; omega
      · have := ih i ⟨c, hc, h⟩; omega
  intro lo l₁ l₂ h₁
  induction h₁ generalizing l₂ with
  | nil lo =>
    intro h₂ h
    cases h₂ with
    | nil => rfl
    | @cons _ a b _ h1 h2 _ =>
      obtain ⟨c, hc, _⟩ := (h a).mpr ⟨(a, b), List.mem_cons_self, by simp, h2⟩
      simp at hc
  | @cons lo a b rest h1 h2 h3 ih =>
    intro h₂ h
    have hcons : ∀ (a b : Nat) (rest : List (Nat × Nat)) (i : Nat),
        Covered ((a, b) :: rest) i ↔ (a ≤ i ∧ i < b) ∨ Covered rest i := by
      intro a b rest i; simp [Covered]
    cases h₂ with
    | nil =>
      obtain ⟨c, hc, _⟩ := (h a).mp ⟨(a, b), List.mem_cons_self, by simp, h2⟩
      simp at hc
    | @cons _ a' b' rest' g1 g2 g3 =>
      have ha : a = a' := by
        have e1 := (hcons _ _ _ _).mp ((h a).mp ((hcons _ _ _ _).mpr (Or.inl ⟨Nat.le_refl _, h2⟩)))
        have e2 := (hcons _ _ _ _).mp ((h a').mpr ((hcons _ _ _ _).mpr (Or.inl ⟨Nat.le_refl _, g2⟩)))
        rcases e1 with e1 | e1 <;> rcases e2 with e2 | e2
        · omega
        · have := key h3 _ e2; omega
        · have := key g3 _ e1; omega
        · have := key h3 _ e2; have := key g3 _ e1; omega
      subst ha
      have hb : b = b' := by
        rcases Nat.lt_trichotomy b b' with hlt | heq | hlt
        · have := (hcons _ _ _ _).mp ((h b).mpr ((hcons _ _ _ _).mpr (Or.inl ⟨by omega, hlt⟩)))
          rcases this with e | e
          · omega
          · have := key h3 _ e; omega
        · exact heq
        · have := (hcons _ _ _ _).mp ((h b').mp ((hcons _ _ _ _).mpr (Or.inl ⟨by omega, hlt⟩)))
          rcases this with e | e
          · omega
          · have := key g3 _ e; omega
      subst hb
      rw [ih rest' g3]
      intro i
      have hi := h i
      rw [hcons, hcons] at hi
      constructor
      · intro hc
        have := key h3 _ hc
        rcases hi.mp (Or.inr hc) with e | e
        · omega
        · exact e
      · intro hc
        have := key g3 _ hc
        rcases hi.mpr (Or.inr hc) with e | e
        · omega
        · exact e

/-- Non-vacuity: the example in the source, `sd\tasd\t\taa`. -/
example : chunksOfTabs 0 [115, 100, 9, 97, 115, 100, 9, 9, 97, 97] = [(2, 3), (6, 8)] := by
  decide +kernel

end Verif.TextLints
