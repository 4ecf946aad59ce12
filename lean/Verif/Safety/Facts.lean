import Verif.Safety.Model

/-!
# Facts: searching in texts
-/

namespace Verif.Safety

open Verif.DocWords (bytes splitBytes bytes_append splitBytes_bytes splitBytes_some size_pos prefix_unique suffix_form)

theorem bytes_size (w : Word) : bytes w = size w := by
  induction w with
  | nil => rfl
  | cons c r ih => simp [bytes, size, ih]

theorem upper_size (c : Char) : c.toUpper.utf8Size = c.utf8Size := by
  unfold Char.toUpper
  split
  · rename_i h
    have h1 : c.val ≤ 127 := UInt32.le_trans h.2 (by decide)
    have h2 : c.val + ('A'.val - 'a'.val) ≤ 127 := by
      have a1 := UInt32.le_iff_toNat_le.1 h.1
      have a2 := UInt32.le_iff_toNat_le.1 h.2
      rw [UInt32.le_iff_toNat_le, UInt32.toNat_add]
      have e1 : 'a'.val.toNat = 97 := by decide
      have e2 : 'z'.val.toNat = 122 := by decide
      have e3 : ('A'.val - 'a'.val).toNat = 4294967264 := by decide
      have e4 : (127 : UInt32).toNat = 127 := by decide
      rw [e1] at a1; rw [e2] at a2; rw [e3, e4]
      omega
    have key : ∀ d : Char, d.val ≤ 127 → d.utf8Size = 1 := fun d hd => if_pos hd
    rw [key c h1]
    exact key _ h2
  · rfl

theorem bytes_upper (w : Word) : bytes (w.map Char.toUpper) = bytes w := by
  induction w with
  | nil => rfl
  | cons c r ih => simp only [List.map_cons, bytes, ih, upper_size]

/-- `x` is first found after `pre`. -/
def First (x w pre : Word) : Prop := (∃ post, w = pre ++ x ++ post) ∧ ∀ pre' post, w = pre' ++ x ++ post → pre.length ≤ pre'.length

theorem First.unique {x w p q : Word} (h1 : First x w p) (h2 : First x w q) : p = q := by
  obtain ⟨a, ha⟩ := h1.1
  obtain ⟨b, hb⟩ := h2.1
  have e1 := h1.2 _ _ hb
  have e2 := h2.2 _ _ ha
  rw [List.append_assoc] at ha hb
  exact (List.append_inj (ha.symm.trans hb) (by omega)).1

theorem find_none {x : Word} (hx : x ≠ []) : ∀ w, find x w = none → ∀ pre post, w ≠ pre ++ x ++ post
  | [], _, pre, post, h => by
    have := (List.append_eq_nil_iff.1 h.symm).1
    exact hx (List.append_eq_nil_iff.1 this).2
  | c :: r, hf, pre, post, h => by
    unfold find at hf
    split at hf
    · cases hf
    · rename_i hp
      cases pre with
      | nil =>
        apply hp
        rw [List.isPrefixOf_iff_prefix]
        exact ⟨post, by simpa using h.symm⟩
      | cons d pre =>
        simp only [List.cons_append, List.cons.injEq] at h
        exact find_none hx r (by simpa using hf) pre post h.2

theorem find_some {x : Word} (hx : x ≠ []) : ∀ w q, find x w = some q → ∃ pre, First x w pre ∧ q = bytes pre
  | [], q, hf => by
    unfold find at hf
    split at hf
    · rename_i he
      exact absurd (List.isEmpty_iff.1 he) hx
    · cases hf
  | c :: r, q, hf => by
    unfold find at hf
    split at hf
    · rename_i hp
      cases hf
      obtain ⟨post, hp⟩ := List.isPrefixOf_iff_prefix.1 hp
      exact ⟨[], ⟨⟨post, by simpa using hp.symm⟩, fun _ _ _ => Nat.zero_le _⟩, rfl⟩
    · rename_i hp
      cases hr : find x r with
      | none => rw [hr] at hf; cases hf
      | some q' =>
        rw [hr] at hf
        cases hf
        obtain ⟨pre, ⟨⟨post, h1⟩, h2⟩, h3⟩ := find_some hx r q' hr
        refine ⟨c :: pre, ⟨⟨post, by rw [h1]; simp⟩, ?_⟩, by simp only [bytes, h3]; omega⟩
        intro pre' post' h
        cases pre' with
        | nil =>
          exfalso
          apply hp
          rw [List.isPrefixOf_iff_prefix]
          exact ⟨post', by simpa using h.symm⟩
        | cons d pre' =>
          simp only [List.cons_append, List.cons.injEq] at h
          have := h2 pre' post' h.2
          simpa using this

theorem find_iff {x : Word} (hx : x ≠ []) (w : Word) (q : Nat) : find x w = some q ↔ ∃ pre, First x w pre ∧ q = bytes pre := by
  refine ⟨find_some hx w q, ?_⟩
  rintro ⟨pre, h1, rfl⟩
  cases hf : find x w with
  | none =>
    obtain ⟨post, h⟩ := h1.1
    exact absurd h (find_none hx w hf _ _)
  | some q =>
    obtain ⟨p, h2, h3⟩ := find_some hx w q hf
    rw [h3, h1.unique h2]

theorem first_safety (w pre : Word) : FirstSafety w pre ↔ (∃ r, w = pre ++ r) ∧ First word (w.map Char.toUpper) (pre.map Char.toUpper) := by
  constructor
  · rintro ⟨⟨b, post, h1, h2⟩, h3⟩
    refine ⟨⟨b ++ post, by rw [h1]; simp⟩, ⟨⟨post.map Char.toUpper, by rw [h1]; simp [show List.map Char.toUpper b = word from h2]⟩, ?_⟩⟩
    intro pre' post' h
    rw [List.append_assoc] at h
    obtain ⟨u, v, e1, e2, e3⟩ := List.map_eq_append_iff.1 h
    obtain ⟨b', p', e4, e5, e6⟩ := List.map_eq_append_iff.1 e3
    have := h3 u b' p' (by rw [e1, e4]; simp) e5
    rw [← e2]
    simpa using this
  · rintro ⟨⟨r, h0⟩, ⟨post, h1⟩, h2⟩
    rw [h0, List.map_append, List.append_assoc] at h1
    have h1 := List.append_cancel_left h1
    obtain ⟨b, p', e4, e5, e6⟩ := List.map_eq_append_iff.1 h1
    refine ⟨⟨b, p', by rw [h0, e4]; simp, e5⟩, fun pre' b' post' h hb => ?_⟩
    have := h2 (pre'.map Char.toUpper) (post'.map Char.toUpper) (by rw [h]; simp [show List.map Char.toUpper b' = word from hb])
    simpa using this

theorem word_ne : word ≠ [] := by decide

theorem findSafety_iff (w : Word) (q : Nat) : findSafety w = some q ↔ ∃ pre, FirstSafety w pre ∧ q = size pre := by
  unfold findSafety
  rw [find_iff word_ne]
  constructor
  · rintro ⟨u, h1, h2⟩
    obtain ⟨post, hp⟩ := h1.1
    rw [List.append_assoc] at hp
    obtain ⟨pre, r, e1, e2, e3⟩ := List.map_eq_append_iff.1 hp
    refine ⟨pre, (first_safety w pre).2 ⟨⟨r, e1⟩, by rw [e2]; exact h1⟩, ?_⟩
    rw [h2, ← e2, bytes_upper, bytes_size]
  · rintro ⟨pre, h1, h2⟩
    exact ⟨_, ((first_safety w pre).1 h1).2, by rw [bytes_upper, bytes_size, h2]⟩

theorem findSafety_none (w : Word) : findSafety w = none ↔ ¬ ∃ pre, FirstSafety w pre := by
  constructor
  · rintro h ⟨pre, hp⟩
    rw [(findSafety_iff w _).2 ⟨pre, hp, rfl⟩] at h
    cases h
  · intro h
    cases hf : findSafety w with
    | none => rfl
    | some q =>
      obtain ⟨pre, hp, _⟩ := (findSafety_iff w q).1 hf
      exact absurd ⟨pre, hp⟩ h

/-! ## White space -/

theorem drop_split (p : Char → Bool) (w : Word) : ∃ a, w = a ++ w.dropWhile p ∧ (∀ c ∈ a, p c = true) ∧ ∀ c q, w.dropWhile p = c :: q → p c = false := by
  refine ⟨w.takeWhile p, List.takeWhile_append_dropWhile.symm, DocWords.all_takeWhile p w, ?_⟩
  intro c q h
  induction w with
  | nil => cases h
  | cons a r ih =>
    rw [List.dropWhile_cons] at h
    split at h
    · exact ih h
    · rename_i hp
      cases h
      simpa using hp

theorem drop_of {p : Char → Bool} : ∀ (a m : Word), (∀ c ∈ a, p c = true) → (∀ c q, m = c :: q → p c = false) → (a ++ m).dropWhile p = m
  | [], m, _, hm => by
    cases m with
    | nil => rfl
    | cons a q => simp [hm a q rfl]
  | c :: x, m, hx, hm => by
    have h1 := drop_of x m (fun d hd => hx d (List.mem_cons_of_mem _ hd)) hm
    simp [hx c (by simp), h1]

theorem attribute_iff {k : Cls} (hk : Sane k) (t : Word) : isAttribute k t = true ↔
    (['#', '['] <+: t ∨ ['#', '!', '['] <+: t) ∧ ∃ a w, t = a ++ ']' :: w ∧ ∀ c ∈ w, k.sp c = true := by
  unfold isAttribute
  rw [Bool.and_eq_true, Bool.or_eq_true, List.isPrefixOf_iff_prefix, List.isPrefixOf_iff_prefix, suffix_form]
  refine and_congr_right (fun _ => ?_)
  obtain ⟨a, h1, h2, h3⟩ := drop_split k.sp t.reverse
  constructor
  · rintro ⟨p, hp⟩
    have hd := congrArg List.reverse hp
    rw [List.reverse_reverse] at hd
    refine ⟨p, a.reverse, ?_, by simpa using h2⟩
    have := congrArg List.reverse h1
    rw [List.reverse_reverse, List.reverse_append, hp] at this
    rw [this]; simp
  · rintro ⟨x, w, h4, h5⟩
    refine ⟨x, ?_⟩
    have e : t.reverse = w.reverse ++ (']' :: x.reverse) := by rw [h4]; simp
    rw [e, drop_of w.reverse (']' :: x.reverse) (by simpa using h5) (fun c q hc => by cases hc; exact hk.bracket)]
    simp

theorem skipped_iff {k : Cls} (hk : Sane k) (acc : Bool) (t : Word) : (t.isEmpty || (acc && isAttribute k t)) = true ↔ Skipped k acc t := by
  rw [Bool.or_eq_true, Bool.and_eq_true, attribute_iff hk, List.isEmpty_iff]
  rfl

theorem fence_iff {k : Cls} (hk : Sane k) (t : Word) : isFence k t = true ↔ Fence k t := by
  have key : ∀ d : Word, ['`', '`', '`'].isPrefixOf (d.dropWhile k.sp) = true ↔ ∃ w r, (∀ c ∈ w, k.sp c = true) ∧ d = w ++ ['`', '`', '`'] ++ r := by
    intro d
    rw [List.isPrefixOf_iff_prefix]
    constructor
    · rintro ⟨r, hr⟩
      obtain ⟨a, h1, h2, _⟩ := drop_split k.sp d
      exact ⟨a, r, h2, by rw [List.append_assoc, hr]; exact h1⟩
    · rintro ⟨w, r, h1, h2⟩
      refine ⟨r, ?_⟩
      rw [h2, List.append_assoc, drop_of w (['`', '`', '`'] ++ r) h1 (fun c q hc => by cases hc; exact hk.tick)]
  unfold isFence docText
  by_cases h1 : ['/', '/', '/'].isPrefixOf t = true
  · rw [if_pos h1]
    obtain ⟨d, rfl⟩ := List.isPrefixOf_iff_prefix.1 h1
    simp only [List.cons_append, List.nil_append, List.drop_succ_cons, List.drop_zero]
    rw [key]
    constructor
    · rintro ⟨w, r, h2, rfl⟩
      exact ⟨w, r, h2, Or.inl (by simp)⟩
    · rintro ⟨w, r, h2, h3 | h3⟩
      · exact ⟨w, r, h2, by simpa using h3⟩
      · simp at h3
  · rw [if_neg h1]
    by_cases h2 : ['/', '/', '!'].isPrefixOf t = true
    · rw [if_pos h2]
      obtain ⟨d, rfl⟩ := List.isPrefixOf_iff_prefix.1 h2
      simp only [List.cons_append, List.nil_append, List.drop_succ_cons, List.drop_zero]
      rw [key]
      constructor
      · rintro ⟨w, r, h4, rfl⟩
        exact ⟨w, r, h4, Or.inr (by simp)⟩
      · rintro ⟨w, r, h2, h3 | h3⟩
        · simp at h3
        · exact ⟨w, r, h2, by simpa using h3⟩
    · rw [if_neg h2]
      refine ⟨(fun h => by cases h), ?_⟩
      rintro ⟨w, r, _, h3 | h3⟩
      · exact absurd (List.isPrefixOf_iff_prefix.2 ⟨w ++ ['`', '`', '`'] ++ r, by rw [h3]; simp⟩) h1
      · exact absurd (List.isPrefixOf_iff_prefix.2 ⟨w ++ ['`', '`', '`'] ++ r, by rw [h3]; simp⟩) h2

/-! ## The lines -/

/-- A line as the model has it. -/
def Line.pos (l : Line) : Nat × Word := (size l.before, l.text)

theorem lines_cons (k : Cls) (acc : Bool) (n : Nat) (l : Word) (r : List Word) :
    lines k acc n (l :: r) = lines k acc (n + bytes l) r ++
      (if ((l.dropWhile k.sp).isEmpty || (acc && isAttribute k (l.dropWhile k.sp))) = true then [] else [(n + (bytes l - bytes (l.dropWhile k.sp)), l.dropWhile k.sp)]) := by
  simp only [lines, placed, List.reverse_cons, List.filter_append]
  congr 1
  by_cases h : ((l.dropWhile k.sp).isEmpty || (acc && isAttribute k (l.dropWhile k.sp))) = true
  · rw [if_pos h, List.filter_cons_of_neg (by rw [h]; decide)]; rfl
  · have h' := Bool.eq_false_iff.2 h
    rw [if_neg h, List.filter_cons_of_pos (by rw [h']; decide)]; rfl

theorem lines_of {k : Cls} (hk : Sane k) {acc : Bool} {before : Word} {ls : List Word} {near : List Line} (h : Relevant k acc before ls near) :
    lines k acc (bytes before) ls = near.map Line.pos := by
  induction h with
  | nil => rfl
  | skip h1 h2 h3 _ ih =>
    rw [lines_cons, drop_of _ _ h1 h2, if_pos ((skipped_iff hk acc _).2 h3), ← bytes_append, ih]
    simp
  | @keep before lead t ls near h1 h2 h3 _ ih =>
    rw [lines_cons, drop_of _ _ h1 h2, if_neg (fun h => h3 ((skipped_iff hk acc _).1 h)), ← bytes_append, ih]
    have e : bytes before + (bytes (lead ++ t) - bytes t) = size (before ++ lead) := by
      rw [← bytes_size, bytes_append, bytes_append]; omega
    simp [Line.pos, e]

theorem relevant_exists (k : Cls) (acc : Bool) : ∀ (ls : List Word) (before : Word), ∃ near, Relevant k acc before ls near
  | [], before => ⟨[], .nil⟩
  | l :: ls, before => by
    obtain ⟨a, h1, h2, h3⟩ := drop_split k.sp l
    obtain ⟨near, hn⟩ := relevant_exists k acc ls (before ++ (a ++ l.dropWhile k.sp))
    rw [h1]
    by_cases hs : Skipped k acc (l.dropWhile k.sp)
    · exact ⟨near, .skip h2 h3 hs hn⟩
    · exact ⟨_, .keep h2 h3 hs hn⟩

/-- The lines are parts of the text. -/
theorem relevant_text {k : Cls} {acc : Bool} {before : Word} {ls : List Word} {near : List Line} (h : Relevant k acc before ls near) :
    ∀ l ∈ near, ∃ after, before ++ ls.flatten = l.before ++ l.text ++ after := by
  induction h with
  | nil => intro l h; cases h
  | skip _ _ _ _ ih =>
    intro l hl
    obtain ⟨a, ha⟩ := ih l hl
    exact ⟨a, by rw [← ha]; simp⟩
  | @keep before lead t ls near _ _ _ _ ih =>
    intro l hl
    rcases List.mem_append.1 hl with hl | hl
    · obtain ⟨a, ha⟩ := ih l hl
      exact ⟨a, by rw [← ha]; simp⟩
    · have : l = ⟨before ++ lead, t⟩ := by simpa using hl
      subst this
      exact ⟨ls.flatten, by simp⟩

end Verif.Safety
