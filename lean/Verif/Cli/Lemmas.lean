import Verif.Cli.Model

namespace Verif.Cli
open Verif Verif.Text

theorem newLoop_spec (sub : Str) (args clippy ws : List Str) :
    newLoop sub args clippy ws =
      let pre := ws.takeWhile (· != kDashes)
      (if kFix ∈ pre then kSubFix else sub,
       args ++ pre.filter (fun w => w != kFix && w != kNoDeps),
       clippy ++ pre.filter (· == kNoDeps),
       (ws.dropWhile (· != kDashes)).drop 1) := by
  induction ws generalizing sub args clippy with
  | nil => simp [newLoop]
  | cons w ws ih =>
    unfold newLoop
    by_cases h1 : w = kFix
    · subst h1
      simp only [if_true, ih]
      have e1 : (kFix != kDashes) = true := by decide
      have e3 : (kFix == kNoDeps) = false := by decide
      simp [e1, e3]
    · by_cases h2 : w = kNoDeps
      · subst h2
        have e0 : ¬ (kNoDeps = kFix) := by decide
        have e1 : (kNoDeps != kDashes) = true := by decide
        have e2 : (kNoDeps != kNoDeps) = false := by decide
        have e3 : ¬ (kFix = kNoDeps) := by decide
        simp only [e0, if_false, if_true, ih, List.takeWhile_cons, e1, List.dropWhile_cons]
        simp only [List.mem_cons, e3, false_or, List.filter_cons, e2, Bool.and_false,
          Bool.false_eq_true, if_false, beq_self_eq_true, if_true, List.append_assoc,
          List.singleton_append]
      · by_cases h3 : w = kDashes
        · subst h3
          simp [h1, h2]
        · have e : (w != kDashes) = true := by simpa using h3
          have e1 : (w != kFix) = true := by simpa using h1
          have e2 : (w != kNoDeps) = true := by simpa using h2
          have e3 : (w == kNoDeps) = false := by simpa using h2
          have e4 : ¬ (kFix = w) := fun h => h1 h.symm
          simp only [h1, h2, h3, if_false, ih, List.takeWhile_cons, e, List.dropWhile_cons, if_true]
          simp only [List.mem_cons, e4, false_or, List.filter_cons, e1, e2, e3, Bool.and_self,
            if_true, Bool.false_eq_true, if_false, List.append_assoc, List.singleton_append]

/-- The marker without its last two characters. -/
def markerStem : Str := str!"__CLIPPY_HACKERY"

theorem marker_no_border : ∀ k, k < 16 → 0 < k → ¬ marker <+: (marker.take k ++ marker) := by
  intro k hk h0
  have : ∀ k : Fin 16, 0 < k.val → ¬ marker <+: (marker.take k.val ++ marker) := by decide
  exact this ⟨k, hk⟩ h0

/-- A word without `__CLIPPY_HACKERY` is separated cleanly by the marker. -/
theorem clean_of_no_stem (w : Str) (h : ¬ markerStem <:+: w) :
    ∀ i, i < w.length → ¬ marker <+: (w ++ marker).drop i := by
  intro i hi hp
  rw [List.drop_append_of_le_length (by omega)] at hp
  have hlen : (w.drop i).length = w.length - i := by simp
  by_cases hl : 16 ≤ (w.drop i).length
  · apply h
    have h1 : markerStem <+: w.drop i ++ marker :=
      List.IsPrefix.trans (by decide : markerStem <+: marker) hp
    have h2 : markerStem <+: w.drop i :=
      List.prefix_of_prefix_length_le h1 ⟨marker, rfl⟩ (by
        have : markerStem.length = 16 := by decide
        rw [this]; exact hl)
    exact h2.isInfix.trans (List.drop_suffix i w).isInfix
  · have hle : (w.drop i).length ≤ marker.length := by
      have : marker.length = 18 := by decide
      omega
    have h1 : w.drop i <+: marker :=
      List.prefix_of_prefix_length_le ⟨marker, rfl⟩ hp hle
    have h2 : w.drop i = marker.take (w.drop i).length := by
      obtain ⟨t, ht⟩ := h1; rw [← ht]; simp
    refine marker_no_border (w.drop i).length (by omega) (by omega) ?_
    rw [← h2]; exact hp

theorem envValue_eq (ws : List Str) (acc : Str) :
    ws.foldl (fun s arg => s ++ arg ++ marker) acc =
      acc ++ (ws.map (fun w => w ++ marker)).flatten := by
  induction ws generalizing acc with
  | nil => simp
  | cons w ws ih => simp [ih]

theorem split_encode (ws : List Str) (h : ∀ w ∈ ws, ¬ markerStem <:+: w) :
    split marker ((ws.map (fun w => w ++ marker)).flatten) = ws ++ [[]] := by
  induction ws with
  | nil => decide
  | cons w ws ih =>
    simp only [List.map_cons, List.flatten_cons, List.append_assoc]
    rw [split_piece _ (by decide) _ _ (clean_of_no_stem w (h w (by simp)))]
    rw [ih (fun w' hw' => h w' (by simp [hw']))]; rfl

theorem decodePieces_spec (nd : Bool) (ws : List Str) :
    decodePieces nd ws =
      (nd || ws.contains (kNoDeps),
       ws.filter (fun w => w != [] && w != kNoDeps)) := by
  induction ws generalizing nd with
  | nil => simp [decodePieces]
  | cons w ws ih =>
    unfold decodePieces
    by_cases h1 : w = []
    · subst h1
      have : (kNoDeps == ([] : Str)) = false := by decide
      simp only [if_true, ih, List.contains_cons, this, Bool.false_or]
      simp
    · by_cases h2 : w = kNoDeps
      · subst h2
        have e : (kNoDeps != kNoDeps) = false := by decide
        simp only [h1, if_false, if_true, ih, List.contains_cons, beq_self_eq_true, Bool.true_or,
          Bool.or_true, List.filter_cons, e, Bool.and_false, Bool.false_eq_true]
      · have e1 : (w != []) = true := by simpa using h1
        have e2 : (w != kNoDeps) = true := by simpa using h2
        have e3 : (kNoDeps == w) = false := by
          simp only [beq_eq_false_iff_ne, ne_eq]; exact fun h => h2 h.symm
        simp only [h1, h2, if_false, ih, List.contains_cons, e3, Bool.false_or, List.filter_cons,
          e1, e2, Bool.and_self, if_true]

theorem splitOnce_some {c : Char} {s a b : Str} :
    splitOnce c s = (a, some b) ↔ s = a ++ c :: b ∧ c ∉ a := by
  induction s generalizing a with
  | nil => simp [splitOnce]
  | cons x xs ih =>
    unfold splitOnce
    by_cases h : x = c
    · subst h
      constructor
      · intro h; simp at h; obtain ⟨rfl, rfl⟩ := h; simp
      · rintro ⟨h, hn⟩
        cases a with
        | nil => simp at h; simp [h]
        | cons y a => simp at h; simp [h.1] at hn
    · simp only [h, if_false]
      cases a with
      | nil => simp; intro h'; exact absurd h' h
      | cons y a =>
        have := @ih a
        simp only [Prod.mk.injEq, List.cons.injEq, List.cons_append, List.mem_cons, not_or]
        constructor
        · rintro ⟨⟨rfl, h1⟩, h2⟩
          have := (this.1 (Prod.ext h1 h2))
          exact ⟨⟨rfl, this.1⟩, fun h' => h h'.symm, this.2⟩
        · rintro ⟨⟨rfl, h1⟩, _, h2⟩
          have := this.2 ⟨h1, h2⟩
          rw [this]; simp

theorem splitOnce_none {c : Char} {s a : Str} :
    splitOnce c s = (a, none) ↔ s = a ∧ c ∉ s := by
  induction s generalizing a with
  | nil => simp [splitOnce, eq_comm]
  | cons x xs ih =>
    unfold splitOnce
    by_cases h : x = c
    · subst h; simp
    · simp only [h, if_false]
      cases a with
      | nil => simp
      | cons y a =>
        have := @ih a
        simp only [Prod.mk.injEq, List.cons.injEq, List.mem_cons, not_or]
        constructor
        · rintro ⟨⟨rfl, h1⟩, h2⟩
          have := this.1 (Prod.ext h1 h2)
          exact ⟨⟨rfl, this.1⟩, fun h' => h h'.symm, this.2⟩
        · rintro ⟨⟨rfl, h1⟩, _, h2⟩
          rw [this.2 ⟨h1, h2⟩]; simp

end Verif.Cli
