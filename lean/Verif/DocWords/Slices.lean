import Verif.DocWords.Model

/-!
# Properties of slices
-/

namespace Verif.DocWords

theorem size_pos (c : Char) : 0 < c.utf8Size := Char.utf8Size_pos c

theorem bytes_append (a b : Word) : bytes (a ++ b) = bytes a + bytes b := by
  induction a with
  | nil => simp [bytes]
  | cons c r ih => simp only [List.cons_append, bytes, ih]; omega

theorem splitBytes_some : ∀ (w : Word) (n : Nat) (a b : Word), splitBytes n w = some (a, b) → w = a ++ b ∧ bytes a = n
  | [], n, a, b, h => by
    unfold splitBytes at h
    split at h
    · cases h; rename_i h0; exact ⟨rfl, by rw [h0]; rfl⟩
    · cases h
  | c :: r, n, a, b, h => by
    unfold splitBytes at h
    by_cases h0 : n = 0
    · rw [if_pos h0] at h; cases h; exact ⟨rfl, by rw [h0]; rfl⟩
    · rw [if_neg h0] at h
      by_cases h1 : n < c.utf8Size
      · rw [if_pos h1] at h; cases h
      · rw [if_neg h1] at h
        cases hs : splitBytes (n - c.utf8Size) r with
        | none => rw [hs] at h; cases h
        | some p =>
          obtain ⟨a', b'⟩ := p
          rw [hs] at h
          obtain ⟨e1, e2⟩ := splitBytes_some r _ a' b' hs
          simp only [Option.some.injEq, Prod.mk.injEq] at h
          obtain ⟨rfl, rfl⟩ := h
          exact ⟨by rw [e1]; rfl, by simp only [bytes]; omega⟩

theorem splitBytes_bytes : ∀ (a b : Word), splitBytes (bytes a) (a ++ b) = some (a, b)
  | [], [] => rfl
  | [], _ :: _ => rfl
  | c :: a, b => by
    have hp := size_pos c
    have e : bytes (c :: a) - c.utf8Size = bytes a := by simp only [bytes]; omega
    simp only [List.cons_append]
    unfold splitBytes
    rw [if_neg (by simp only [bytes]; omega), if_neg (by simp only [bytes]; omega), e, splitBytes_bytes a b]

/-- Beginnings of a text with the same number of bytes are the same. -/
theorem prefix_unique {a b c d : Word} (h : a ++ b = c ++ d) (hl : bytes a = bytes c) : a = c ∧ b = d := by
  have h1 := splitBytes_bytes a b
  rw [h, hl, splitBytes_bytes c d] at h1
  cases h1
  exact ⟨rfl, rfl⟩

/-- `s` is a part of the slice `o` of the same text. -/
def Part (o s : Slice) (x y : Word) : Prop := o.w = x ++ s.w ++ y ∧ s.l = o.l ++ x ∧ s.r = y ++ o.r

theorem Part.text {o s : Slice} {x y : Word} (h : Part o s x y) : s.text = o.text := by
  simp only [Slice.text, h.1, h.2.1, h.2.2, List.append_assoc]

theorem get_part {o s : Slice} {a b : Nat} (h : get o a b = some s) :
    ∃ x y, Part o s x y ∧ bytes x = a ∧ bytes s.w = b - a := by
  unfold get at h
  cases h1 : splitBytes a o.w with
  | none => rw [h1] at h; cases h
  | some p =>
    obtain ⟨x, y⟩ := p
    rw [h1] at h
    simp only at h
    cases h2 : splitBytes (b - a) y with
    | none => rw [h2] at h; cases h
    | some q =>
      obtain ⟨w, z⟩ := q
      rw [h2] at h
      cases h
      obtain ⟨e1, e2⟩ := splitBytes_some _ _ _ _ h1
      obtain ⟨e3, e4⟩ := splitBytes_some _ _ _ _ h2
      exact ⟨x, z, ⟨by rw [e1, e3]; simp, rfl, rfl⟩, e2, e4⟩

theorem Part.trans {o s t : Slice} {x y x' y' : Word} (h : Part o s x y) (h' : Part s t x' y') : Part o t (x ++ x') (y' ++ y) := by
  refine ⟨?_, ?_, ?_⟩
  · rw [h.1, h'.1]; simp
  · rw [h'.2.1, h.2.1]; simp
  · rw [h'.2.2, h.2.2]; simp

theorem trimStart_part (p : Char → Bool) (s : Slice) : Part s (trimStart p s) (s.w.takeWhile p) [] := by
  refine ⟨?_, rfl, rfl⟩
  simp [trimStart, List.takeWhile_append_dropWhile]

theorem trimEnd_part (p : Char → Bool) (s : Slice) : Part s (trimEnd p s) [] (s.w.reverse.takeWhile p).reverse := by
  refine ⟨?_, by simp [trimEnd], rfl⟩
  simp only [trimEnd, List.nil_append]
  rw [← List.reverse_append, List.takeWhile_append_dropWhile, List.reverse_reverse]

theorem all_takeWhile (p : Char → Bool) (l : Word) : ∀ c ∈ l.takeWhile p, p c = true := by
  induction l with
  | nil => intro c h; cases h
  | cons a r ih =>
    intro c h
    rw [List.takeWhile_cons] at h
    split at h
    · rename_i ha
      rcases List.mem_cons.1 h with rfl | h
      · exact ha
      · exact ih c h
    · cases h

theorem suffix_form (x w : Word) : x.isSuffixOf w = true ↔ ∃ p, w = p ++ x := by
  rw [List.isSuffixOf_iff_suffix]
  exact ⟨fun ⟨p, h⟩ => ⟨p, h.symm⟩, fun ⟨p, h⟩ => ⟨p, h.symm⟩⟩

theorem bare_append {k : Cls} {a b : Word} : Bare k (a ++ b) ↔ Bare k a ∧ Bare k b := by
  simp only [Bare, List.mem_append]
  exact ⟨fun h => ⟨fun c hc => h c (Or.inl hc), fun c hc => h c (Or.inr hc)⟩, fun h c hc => hc.elim (h.1 c) (h.2 c)⟩

theorem bare_reverse {k : Cls} {a : Word} : Bare k a.reverse ↔ Bare k a := by simp [Bare]

/-- Without punctuation: nothing is cut off in front, and only punctuation at the end. -/
theorem trimmed_part (k : Cls) (o : Slice) : ∃ y, Part o (trimmed k o) [] y ∧ Bare k y := by
  have hp := trimEnd_part (pattern k) o
  have hb : Bare k (o.w.reverse.takeWhile (pattern k)).reverse := by
    rw [bare_reverse]
    intro c hc
    have := all_takeWhile _ _ c hc
    simp only [pattern, Bool.and_eq_true, Bool.not_eq_true'] at this
    exact this.1
  unfold trimmed claw
  cases hg : get o 0 (bytes (trimEnd (pattern k) o).w + 2) with
  | none => exact ⟨_, hp, hb⟩
  | some t =>
    simp only
    by_cases hs : ['(', ')'].isSuffixOf t.w = true
    · rw [if_pos hs]
      obtain ⟨u, hu⟩ := (suffix_form _ _).1 hs
      obtain ⟨x, y, h1, h2, h3⟩ := get_part hg
      have hx : x = [] := by
        cases x with
        | nil => rfl
        | cons c r => have := size_pos c; simp only [bytes] at h2; omega
      subst hx
      refine ⟨y, h1, ?_⟩
      have e : u ++ (['(', ')'] ++ y) = (trimEnd (pattern k) o).w ++ (o.w.reverse.takeWhile (pattern k)).reverse := by
        have e1 := h1.1
        rw [hp.1, hu] at e1
        simpa using e1.symm
      have hl : bytes u = bytes (trimEnd (pattern k) o).w := by
        have e2 : bytes ['(', ')'] = 2 := by decide
        rw [hu, bytes_append, e2] at h3
        omega
      have := (prefix_unique e hl).2
      rw [← this] at hb
      exact (bare_append.1 hb).2
    · rw [if_neg hs]
      exact ⟨_, hp, hb⟩

/-- A single colon at the end is cut off in this word. -/
def EndsColon (k : Cls) (o : Slice) : Prop :=
  [':'] <:+ (uncolonStart (trimStart (pattern k) (trimmed k o))).w ∧ ¬ [':', ':'] <:+ (uncolonStart (trimStart (pattern k) (trimmed k o))).w

theorem bare_colon {k : Cls} (hk : Sane k) {l : Word} (h : ∀ c ∈ l, (c == ':') = true) : Bare k l := by
  intro c hc
  have : c = ':' := by simpa using h c hc
  rw [this]; exact hk.colon

theorem uncolonStart_part {k : Cls} (hk : Sane k) (o : Slice) : ∃ x, Part o (uncolonStart o) x [] ∧ Bare k x := by
  unfold uncolonStart
  split
  · exact ⟨_, trimStart_part _ o, bare_colon hk (all_takeWhile _ _)⟩
  · exact ⟨[], ⟨by simp, by simp, by simp⟩, fun c h => by cases h⟩

/-- The word without punctuation and single colons has punctuation and colons around it; what was cut off in front is counted right, if no colon
was cut off at the end. -/
theorem core_part {k : Cls} (hk : Sane k) (o : Slice) : ∃ x y, Part o (core k o) x y ∧ Bare k x ∧ Bare k y ∧
    (¬ EndsColon k o → bytes (trimmed k o).w - bytes (core k o).w = bytes x) := by
  obtain ⟨y, h1, hy⟩ := trimmed_part k o
  have h2 := trimStart_part (pattern k) (trimmed k o)
  have hx : Bare k ((trimmed k o).w.takeWhile (pattern k)) := by
    intro c hc
    have := all_takeWhile _ _ c hc
    simp only [pattern, Bool.and_eq_true, Bool.not_eq_true'] at this
    exact this.1
  obtain ⟨x', h3, hx'⟩ := uncolonStart_part hk (trimStart (pattern k) (trimmed k o))
  have h123 := (h1.trans h2).trans h3
  by_cases hc : EndsColon k o
  · have hce : Part (uncolonStart (trimStart (pattern k) (trimmed k o))) (core k o) []
        ((uncolonStart (trimStart (pattern k) (trimmed k o))).w.reverse.takeWhile (· == ':')).reverse := by
      unfold core uncolonEnd
      rw [if_pos (by
        simp only [Bool.and_eq_true, Bool.not_eq_true']
        refine ⟨List.isSuffixOf_iff_suffix.2 hc.1, ?_⟩
        cases hh : [':', ':'].isSuffixOf (uncolonStart (trimStart (pattern k) (trimmed k o))).w with
        | false => rfl
        | true => exact absurd (List.isSuffixOf_iff_suffix.1 hh) hc.2)]
      exact trimEnd_part _ _
    refine ⟨_, _, h123.trans hce, ?_, ?_, fun h => absurd hc h⟩
    · simp only [List.nil_append, List.append_nil]
      exact bare_append.2 ⟨hx, hx'⟩
    · simp only [List.nil_append]
      refine bare_append.2 ⟨?_, hy⟩
      rw [bare_reverse]
      exact bare_colon hk (all_takeWhile _ _)
  · have he : core k o = uncolonStart (trimStart (pattern k) (trimmed k o)) := by
      unfold core uncolonEnd
      rw [if_neg (by
        simp only [Bool.and_eq_true, Bool.not_eq_true']
        rintro ⟨e1, e2⟩
        apply hc
        refine ⟨List.isSuffixOf_iff_suffix.1 e1, fun e3 => ?_⟩
        rw [List.isSuffixOf_iff_suffix.2 e3] at e2
        cases e2)]
    refine ⟨_, _, he ▸ h123, ?_, by simpa using hy, fun _ => ?_⟩
    · simp only [List.nil_append]
      exact bare_append.2 ⟨hx, hx'⟩
    · have e1 := congrArg bytes (h2.trans h3).1
      rw [he]
      simp only [bytes_append, List.append_nil, bytes, List.nil_append] at e1 ⊢
      omega

theorem extend_part {o : Slice} (diff : Nat) : ∀ (n : Nat) (w : Slice) (x y : Word), Part o w x y → ∃ x' y', Part o (extend o diff n w) x' y'
  | 0, w, x, y, h => ⟨x, y, h⟩
  | n + 1, w, x, y, h => by
    unfold extend
    cases hg : get o diff (bytes w.w + diff + 1) with
    | none => exact ⟨x, y, h⟩
    | some t =>
      simp only
      split
      · obtain ⟨x', y', h', _⟩ := get_part hg
        exact extend_part diff n t x' y' h'
      · exact ⟨x, y, h⟩

/-- With the right offset only closing parentheses are taken in. -/
theorem extend_covers {k : Cls} {o : Slice} : ∀ (n : Nat) (w : Slice) (x y : Word), Part o w x y → Bare k y →
    ∃ y', Part o (extend o (bytes x) n w) x y' ∧ Bare k y' ∧ ∃ j, j ≤ n ∧ (extend o (bytes x) n w).w = w.w ++ List.replicate j ')'
  | 0, w, x, y, h, hy => ⟨y, h, hy, 0, Nat.le_refl _, by simp [extend]⟩
  | n + 1, w, x, y, h, hy => by
    unfold extend
    cases hg : get o (bytes x) (bytes w.w + bytes x + 1) with
    | none => exact ⟨y, h, hy, 0, by omega, by simp⟩
    | some t =>
      simp only
      by_cases hs : [')'].isSuffixOf t.w = true
      · rw [if_pos hs]
        obtain ⟨u, hu⟩ := (suffix_form _ _).1 hs
        obtain ⟨x', y', h', e1, e2⟩ := get_part hg
        have e3 : x' ++ (t.w ++ y') = x ++ (w.w ++ y) := by
          have := h'.1
          rw [h.1] at this
          simpa using this.symm
        obtain ⟨rfl, e4⟩ := prefix_unique e3 e1
        rw [hu, List.append_assoc] at e4
        have e5 : bytes u = bytes w.w := by
          have : bytes [')'] = 1 := by decide
          rw [hu, bytes_append, this] at e2
          omega
        obtain ⟨rfl, e6⟩ := prefix_unique e4 e5
        rw [← e6] at hy
        obtain ⟨y2, g1, g2, j, g3, g4⟩ := extend_covers n t x' y' h' (bare_append.1 hy).2
        refine ⟨y2, g1, g2, j + 1, by omega, ?_⟩
        rw [g4, hu, List.replicate_succ]
        simp
      · rw [if_neg hs]
        exact ⟨y, h, hy, 0, by omega, by simp⟩

end Verif.DocWords
