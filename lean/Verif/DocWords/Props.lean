import Verif.DocWords.Slices

/-!
# Properties: words of documentation that are put in backticks
-/

namespace Verif.DocWords

/-- A word ends between separators. -/
def Sep (k : Cls) (c : Char) : Prop := k.space c = true ∨ c = '\''

theorem split_facts (k : Cls) : ∀ (r l cur : Word), (∀ c ∈ cur, ¬ Sep k c) → (l = [] ∨ ∃ p c, l = p ++ [c] ∧ Sep k c) → ∀ s ∈ split k l cur r,
    s.text = l ++ cur ++ r ∧ (∀ c ∈ s.w, ¬ Sep k c) ∧ (s.l = [] ∨ ∃ p c, s.l = p ++ [c] ∧ Sep k c) ∧
      (s.r = [] ∨ ∃ c q, s.r = c :: q ∧ Sep k c)
  | [], l, cur, hc, hl, s, hs => by
    have : s = ⟨l, cur, []⟩ := by simpa [split] using hs
    subst this
    exact ⟨rfl, hc, hl, Or.inl rfl⟩
  | c :: r, l, cur, hc, hl, s, hs => by
    simp only [split] at hs
    by_cases h : (k.space c || c == '\'') = true
    · rw [if_pos h] at hs
      have hsep : Sep k c := by simpa [Sep] using h
      rcases List.mem_cons.1 hs with rfl | hs
      · exact ⟨rfl, hc, hl, Or.inr ⟨c, r, rfl, hsep⟩⟩
      · obtain ⟨e1, e2⟩ := split_facts k r (l ++ cur ++ [c]) [] (fun _ h => by cases h) (Or.inr ⟨l ++ cur, c, rfl, hsep⟩) s hs
        exact ⟨by rw [e1]; simp, e2⟩
    · rw [if_neg h] at hs
      have hsep : ¬ Sep k c := fun h' => h (by simpa [Sep] using h')
      obtain ⟨e1, e2⟩ := split_facts k r l (cur ++ [c]) (by
        intro d hd
        rcases List.mem_append.1 hd with hd | hd
        · exact hc d hd
        · have : d = c := by simpa using hd
          rw [this]; exact hsep) hl s hs
      exact ⟨by rw [e1]; simp, e2⟩

theorem split_all (k : Cls) : ∀ (r l cur x y : Word) (c : Char), r = x ++ c :: y → ¬ Sep k c →
    ∃ s ∈ split k l cur r, ∃ u v, s.w = u ++ c :: v ∧ s.l ++ u = l ++ cur ++ x
  | [], l, cur, x, y, c, h, _ => by simp at h
  | d :: r, l, cur, x, y, c, h, hc => by
    simp only [split]
    cases x with
    | nil =>
      simp only [List.nil_append, List.cons.injEq] at h
      obtain ⟨rfl, rfl⟩ := h
      rw [if_neg (fun h' => hc (by simpa [Sep] using h'))]
      -- the word goes on
      have key : ∀ (r l cur : Word), cur ≠ [] → ∃ s ∈ split k l cur r, ∃ v, s.w = cur ++ v ∧ s.l = l := by
        intro r
        induction r with
        | nil => intro l cur _; exact ⟨⟨l, cur, []⟩, by simp [split], [], by simp, rfl⟩
        | cons e r ih =>
          intro l cur hne
          simp only [split]
          by_cases h : (k.space e || e == '\'') = true
          · rw [if_pos h]
            exact ⟨⟨l, cur, e :: r⟩, by simp, [], by simp, rfl⟩
          · rw [if_neg h]
            obtain ⟨s, h1, v, h2, h3⟩ := ih l (cur ++ [e]) (by simp)
            exact ⟨s, h1, e :: v, by rw [h2]; simp, h3⟩
      obtain ⟨s, h1, v, h2, h3⟩ := key r l (cur ++ [d]) (by simp)
      exact ⟨s, h1, cur, v, by rw [h2]; simp, by rw [h3]; simp⟩
    | cons x0 x =>
      simp only [List.cons_append, List.cons.injEq] at h
      obtain ⟨rfl, rfl⟩ := h
      split
      · obtain ⟨s, h1, u, v, h2, h3⟩ := split_all k _ (l ++ cur ++ [d]) [] x y c rfl hc
        exact ⟨s, List.mem_cons_of_mem _ h1, u, v, h2, by rw [h3]; simp⟩
      · obtain ⟨s, h1, u, v, h2, h3⟩ := split_all k _ l (cur ++ [d]) x y c rfl hc
        exact ⟨s, h1, u, v, h2, by rw [h3]; simp⟩

/-- C137: the words looked at are exactly the parts of the text between white space and apostrophes: each is one, and every other character is in
one, at its place. -/
theorem words_of_text (k : Cls) (text : Word) :
    (∀ s ∈ split k [] [] text, s.text = text ∧ (∀ c ∈ s.w, ¬ Sep k c) ∧ (s.l = [] ∨ ∃ p c, s.l = p ++ [c] ∧ Sep k c) ∧
      (s.r = [] ∨ ∃ c q, s.r = c :: q ∧ Sep k c)) ∧
    (∀ x c y, text = x ++ c :: y → ¬ Sep k c → ∃ s ∈ split k [] [] text, ∃ u v, s.w = u ++ c :: v ∧ s.l ++ u = x) := by
  refine ⟨fun s hs => ?_, fun x c y h hc => ?_⟩
  · simpa using split_facts k text [] [] (fun _ h => by cases h) (Or.inl rfl) s hs
  · simpa using split_all k text [] [] x y c h hc

/-- ASCII only. -/
def ascii : Cls := ⟨fun c => c.isAlphanum, Char.isWhitespace, Char.isUpper, Char.isLower⟩

theorem ascii_sane : Sane ascii := by
  refine ⟨by decide, by decide, by decide, fun c h => ?_⟩
  show c.isLower = false
  simp only [Char.isUpper, Char.isLower, Bool.and_eq_true, decide_eq_true_eq, Bool.and_eq_false_iff, decide_eq_false_iff_not] at h ⊢
  left
  have h2 := h.2
  intro h3
  have := UInt32.le_trans h3 h2
  revert this
  decide

example : (split ascii [] [] "it's a Foo".toList).map (fun s => String.ofList s.w) = ["it", "s", "a", "Foo"] := by decide +kernel

theorem process_some {k : Cls} {g : Cfg} {o s : Slice} (h : process k g o = some s) :
    s = extend o (bytes (trimmed k o).w - bytes (core k o).w) (missing (core k o).w) (core k o) ∧
      (core k o).w ∉ g.valid ∧ ¬ (∀ c ∈ (core k o).w, c = ':') := by
  unfold process at h
  simp only at h
  by_cases hc : (g.valid.contains (core k o).w || (core k o).w.all (· == ':')) = true
  · rw [if_pos hc] at h; cases h
  · rw [if_neg hc] at h
    cases h
    refine ⟨rfl, fun h' => hc (by simp [h']), fun h' => hc ?_⟩
    simp only [Bool.or_eq_true, List.all_eq_true, beq_iff_eq]
    exact Or.inr h'

theorem report_some {k : Cls} {g : Cfg} {o s : Slice} {kind : Kind} (h : report k g o = some (s, kind)) :
    process k g o = some s ∧ checkWord k g s.w = some kind := by
  unfold report at h
  cases hp : process k g o with
  | none => rw [hp] at h; cases h
  | some w =>
    rw [hp] at h
    simp only at h
    cases hc : checkWord k g w.w with
    | none => rw [hc] at h; cases h
    | some kd =>
      rw [hc] at h
      cases h
      exact ⟨rfl, hc⟩

/-- C137: every report is for a part of the text at its place, inside of one word. -/
theorem report_in_text {k : Cls} (hk : Sane k) (g : Cfg) (text : Word) (s : Slice) (kind : Kind) (h : (s, kind) ∈ check k g text) :
    s.text = text ∧ (∀ c ∈ s.w, ¬ Sep k c) ∧ checkWord k g s.w = some kind := by
  obtain ⟨o, ho, hr⟩ := List.mem_filterMap.1 h
  obtain ⟨h1, h2⟩ := report_some hr
  obtain ⟨e, _⟩ := process_some h1
  obtain ⟨x, y, hp, _⟩ := core_part hk o
  obtain ⟨x', y', hp'⟩ := extend_part (bytes (trimmed k o).w - bytes (core k o).w) (missing (core k o).w) (core k o) x y hp
  rw [← e] at hp'
  obtain ⟨f1, f2, _⟩ := (words_of_text k text).1 o ho
  refine ⟨by rw [hp'.text, f1], fun c hc => f2 c ?_, h2⟩
  rw [hp'.1]
  simp [hc]

/-- Nothing is known or special. -/
def plain : Cfg := ⟨[], fun _ => false, false, false⟩

example : (check ascii plain "see (foo::bar()).".toList).map (fun s => (bytes s.1.l, String.ofList s.1.w, s.2)) = [(5, "foo::bar()", .ticks)] := by
  decide +kernel

/-- Full claim: what is put in backticks is a whole word: no letter or digit of it is left outside. Proved except for words from which a colon is
cut off at the end while a parenthesis is open (`shifted`). -/
theorem whole_word_partial {k : Cls} (hk : Sane k) (g : Cfg) (o s : Slice) (h : process k g o = some s)
    (hc : ¬ EndsColon k o ∨ missing (core k o).w = 0) :
    ∃ x y, o.w = x ++ s.w ++ y ∧ s.l = o.l ++ x ∧ s.r = y ++ o.r ∧ Bare k x ∧ Bare k y ∧ ∃ j, j ≤ missing (core k o).w ∧ s.w = (core k o).w ++ List.replicate j ')' := by
  obtain ⟨e, _⟩ := process_some h
  obtain ⟨x, y, hp, hx, hy, hd⟩ := core_part hk o
  rcases hc with hc | hc
  · rw [hd hc] at e
    obtain ⟨y', g1, g2, j, g3, g4⟩ := extend_covers (missing (core k o).w) (core k o) x y hp hy
    rw [← e] at g1 g4
    exact ⟨x, y', g1.1, g1.2.1, g1.2.2, hx, g2, j, g3, g4⟩
  · rw [hc] at e
    simp only [extend] at e
    subst e
    exact ⟨x, y, hp.1, hp.2.1, hp.2.2, hx, hy, 0, Nat.zero_le _, by simp⟩

example : (process ascii plain ⟨[], "(foo(bar)),".toList, []⟩).map (fun s => String.ofList s.w) = some "foo(bar)" ∧
    missing (core ascii ⟨[], "(foo(bar)),".toList, []⟩).w = 1 := by decide +kernel

/-! ## Which words -/

theorem has_iff (x : Word) : ∀ w, has x w = true ↔ x <:+: w
  | [] => by
    simp only [has, List.isEmpty_iff]
    exact ⟨fun h => by rw [h]; exact List.infix_refl _, fun h => List.eq_nil_of_infix_nil h⟩
  | c :: r => by
    simp only [has, Bool.or_eq_true, List.isPrefixOf_iff_prefix, has_iff x r]
    exact (List.infix_cons_iff).symm

theorem underscore_iff (w : Word) : hasUnderscore w = true ↔ Underscored w := by
  have h := has_iff ['\\', '_'] w
  cases hh : has ['\\', '_'] w with
  | true => simp [hasUnderscore, Underscored, hh, h.1 hh]
  | false =>
    have hn : ¬ ['\\', '_'] <:+: w := fun hi => by rw [h.2 hi] at hh; cases hh
    simp [hasUnderscore, Underscored, hh, hn]

theorem hyphen_iff (w : Word) : hasHyphen w = true ↔ Hyphenated w := by simp [hasHyphen, Hyphenated]

theorem strip_iff (x w p : Word) : stripSuffix x w = some p ↔ w = p ++ x := by
  unfold stripSuffix
  constructor
  · intro h
    split at h
    · rename_i hs
      obtain ⟨q, hq⟩ := (suffix_form x w).1 hs
      cases h
      rw [hq]
      simp
    · cases h
  · intro h
    rw [if_pos ((suffix_form x w).2 ⟨p, h⟩), h]
    simp

theorem lastSX_iff (p : Word) : lastSX p = true ↔ ∃ q, p = q ++ ['S'] ∨ p = q ++ ['X'] := by
  unfold lastSX
  constructor
  · intro h
    cases hl : p.getLast? with
    | none => rw [hl] at h; cases h
    | some c =>
      rw [hl] at h
      obtain ⟨q, hq⟩ := List.getLast?_eq_some_iff.1 hl
      simp only [Bool.or_eq_true, beq_iff_eq] at h
      rcases h with h | h
      · exact ⟨q, Or.inl (by rw [hq, h])⟩
      · exact ⟨q, Or.inr (by rw [hq, h])⟩
  · rintro ⟨q, h | h⟩ <;> rw [h] <;> simp

/-- The stem found is the one specified, and the only one. -/
theorem stem_iff (w s : Word) : Stem w s ↔ s = stem w := by
  have hall : ∀ p : Word, p.all Char.isUpper = true ↔ ∀ c ∈ p, c.isUpper = true := by intro p; simp [List.all_eq_true]
  have hes : ∀ p, (stripSuffix ['e', 's'] w).filter (fun p => p.all Char.isUpper && lastSX p) = some p ↔
      (w = p ++ ['e', 's'] ∧ (∀ c ∈ p, c.isUpper = true) ∧ (∃ q, p = q ++ ['S'] ∨ p = q ++ ['X'])) := by
    intro p
    rw [Option.filter_eq_some_iff, strip_iff, Bool.and_eq_true, hall, lastSX_iff]
  have hif : ∀ p, (stripSuffix ['i', 'f', 'i', 'e', 'd'] w).filter (fun p => p.all Char.isUpper) = some p ↔
      (w = p ++ ['i', 'f', 'i', 'e', 'd'] ∧ (∀ c ∈ p, c.isUpper = true)) := by
    intro p
    rw [Option.filter_eq_some_iff, strip_iff, hall]
  unfold stem
  cases h1 : (stripSuffix ['e', 's'] w).filter (fun p => p.all Char.isUpper && lastSX p) with
  | some p =>
    have hp := (hes p).1 h1
    simp only
    have huniq : ∀ t, FromAcronym w t → t = p := by
      rintro t (ht | ht)
      · exact List.append_cancel_right (ht.1.symm.trans hp.1)
      · exfalso
        have e := ht.1.symm.trans hp.1
        have := congrArg List.getLast? e
        simp at this
    constructor
    · intro h
      cases h with
      | acronym h => exact huniq _ h
      | plural h _ => exact absurd ⟨p, Or.inl hp⟩ h
      | self h _ => exact absurd ⟨p, Or.inl hp⟩ h
    · intro h; subst h; exact .acronym (Or.inl hp)
  | none =>
    simp only
    have n1 : ∀ t, ¬ (w = t ++ ['e', 's'] ∧ (∀ c ∈ t, c.isUpper = true) ∧ (∃ q, t = q ++ ['S'] ∨ t = q ++ ['X'])) := by
      intro t ht
      have := (hes t).2 ht
      rw [h1] at this; cases this
    cases h2 : (stripSuffix ['i', 'f', 'i', 'e', 'd'] w).filter (fun p => p.all Char.isUpper) with
    | some p =>
      have hp := (hif p).1 h2
      simp only
      constructor
      · intro h
        cases h with
        | acronym h =>
          rcases h with h | h
          · exact absurd h (n1 _)
          · exact List.append_cancel_right (h.1.symm.trans hp.1)
        | plural h _ => exact absurd ⟨p, Or.inr hp⟩ h
        | self h _ => exact absurd ⟨p, Or.inr hp⟩ h
      · intro h; subst h; exact .acronym (Or.inr hp)
    | none =>
      simp only
      have n2 : ¬ ∃ t, FromAcronym w t := by
        rintro ⟨t, ht | ht⟩
        · exact n1 t ht
        · have := (hif t).2 ht
          rw [h2] at this; cases this
      cases h3 : stripSuffix ['s'] w with
      | some p =>
        have hp := (strip_iff _ _ _).1 h3
        simp only [Option.getD_some]
        constructor
        · intro h
          cases h with
          | acronym h => exact absurd ⟨s, h⟩ n2
          | plural _ h => exact List.append_cancel_right (h.symm.trans hp)
          | self _ h => exact absurd ⟨p, hp⟩ h
        · intro h; subst h; exact .plural n2 hp
      | none =>
        have n3 : ¬ ∃ t, w = t ++ ['s'] := by
          rintro ⟨t, ht⟩
          rw [(strip_iff _ _ _).2 ht] at h3; cases h3
        simp only [Option.getD_none]
        constructor
        · intro h
          cases h with
          | acronym h => exact absurd ⟨s, h⟩ n2
          | plural _ h => exact absurd ⟨s, h⟩ n3
          | self _ _ => rfl
        · intro h; subst h; exact .self n2 n3

theorem startsLow_iff (w : Word) : startsLow w = false ↔ ∀ c r, w = c :: r → c.isDigit = false ∧ c.isLower = false := by
  cases w with
  | nil => simp [startsLow]
  | cons c r =>
    simp only [startsLow, Bool.or_eq_false_iff]
    exact ⟨fun h c' r' e => by cases e; exact h, fun h => h c r rfl⟩

theorem camel_iff (k : Cls) (w : Word) : isCamel k w = true ↔ Camel k w := by
  unfold isCamel Camel
  rw [← startsLow_iff]
  cases hl : startsLow w with
  | true => simp
  | false =>
    simp only [Bool.false_eq_true, if_false, true_and, Bool.and_eq_true, decide_eq_true_eq, List.all_eq_true]
    have h2 : ∀ l : Word, (1 < (l.take 2).length) ↔ 2 ≤ l.length := by intro l; rw [List.length_take]; omega
    have h1 : ∀ (l : Word) (p : Char → Bool), (0 < ((l.filter p).take 1).length) ↔ ∃ c ∈ l, p c = true := by
      intro l p
      rw [List.length_take]
      constructor
      · intro h
        have : 0 < (l.filter p).length := by omega
        obtain ⟨c, hc⟩ := List.exists_mem_of_length_pos this
        rw [List.mem_filter] at hc
        exact ⟨c, hc⟩
      · rintro ⟨c, h1, h2⟩
        have := List.length_pos_of_mem (List.mem_filter.2 ⟨h1, h2⟩)
        omega
    rw [h2, h1]
    constructor
    · rintro ⟨⟨e1, e2⟩, e3⟩
      exact ⟨stem w, (stem_iff w _).2 rfl, e1, e2, e3⟩
    · rintro ⟨s, hs, e1, e2, e3⟩
      have := (stem_iff w s).1 hs
      subst this
      exact ⟨⟨e1, e2⟩, e3⟩

/-- C137: exactly the words that look like code, outside of code and quotes, are put in backticks; addresses are reported as such. -/
theorem word_iff (k : Cls) (g : Cfg) (w : Word) :
    (checkWord k g w = some .url ↔ g.url w = true) ∧
    (checkWord k g w = some .ticks ↔ g.url w = false ∧ g.code = false ∧ g.quote = false ∧ Codelike k w) := by
  have hc : (hasUnderscore w || has [':', ':'] w || isCamel k w || ['(', ')'].isSuffixOf w) = true ↔
      (Underscored w ∨ [':', ':'] <:+: w ∨ Camel k w ∨ ['(', ')'] <:+ w) := by
    rw [Bool.or_eq_true, Bool.or_eq_true, Bool.or_eq_true, underscore_iff, has_iff, camel_iff, List.isSuffixOf_iff_suffix]
    simp only [or_assoc]
  have hu : (hasUnderscore w && hasHyphen w) = true ↔ Underscored w ∧ Hyphenated w := by
    rw [Bool.and_eq_true, underscore_iff, hyphen_iff]
  unfold checkWord Codelike
  rw [← hc, ← hu]
  cases g.url w <;> cases g.code <;> cases g.quote <;> cases (hasUnderscore w && hasHyphen w) <;>
    cases (hasUnderscore w || has [':', ':'] w || isCamel k w || ['(', ')'].isSuffixOf w) <;> simp

example : Codelike ascii "foo_bar".toList := by
  refine ((word_iff ascii plain "foo_bar".toList).2.1 ?_).2.2.2
  decide +kernel

/-- C137: plurals of words of capital letters are not put in backticks for their letters. -/
theorem acronyms {k : Cls} (hk : Sane k) (p : Word) (hp : ∀ c ∈ p, c.isUpper = true) :
    ¬ Camel k (p ++ ['s']) ∧ ¬ Camel k (p ++ ['i', 'f', 'i', 'e', 'd']) ∧ ¬ Camel k (p ++ ['S', 'e', 's']) ∧ ¬ Camel k p := by
  have key : ∀ w s, Stem w s → (∀ c ∈ s, c.isUpper = true) → ¬ Camel k w := by
    rintro w s hs hu ⟨_, t, ht, _, _, c, hc, hl⟩
    have := ((stem_iff w t).1 ht).trans ((stem_iff w s).1 hs).symm
    subst this
    rw [hk.upperLower c (hu c hc)] at hl
    cases hl
  have notAcr : ∀ w : Word, (∀ c ∈ w.dropLast, c.isUpper = true) → ¬ ∃ t, FromAcronym w t := by
    rintro w hw ⟨t, ht | ht⟩
    · have e : w.dropLast = t ++ ['e'] := by
        rw [ht.1, show t ++ ['e', 's'] = (t ++ ['e']) ++ ['s'] by simp, List.dropLast_concat]
      have := hw 'e' (by rw [e]; simp)
      exact absurd this (by decide)
    · have e : w.dropLast = t ++ ['i', 'f', 'i', 'e'] := by
        rw [ht.1, show t ++ ['i', 'f', 'i', 'e', 'd'] = (t ++ ['i', 'f', 'i', 'e']) ++ ['d'] by simp, List.dropLast_concat]
      have := hw 'e' (by rw [e]; simp)
      exact absurd this (by decide)
  refine ⟨key _ p (.plural (notAcr _ (by simpa using hp)) rfl) hp, key _ p (.acronym (Or.inr ⟨rfl, hp⟩)) hp, ?_, ?_⟩
  · have hS : ∀ c ∈ p ++ ['S'], c.isUpper = true := by
      intro c hc
      rcases List.mem_append.1 hc with hc | hc
      · exact hp c hc
      · have : c = 'S' := by simpa using hc
        rw [this]; decide
    exact key _ (p ++ ['S']) (.acronym (Or.inl ⟨by simp, hS, p, Or.inl rfl⟩)) hS
  · refine key p p (.self (notAcr p (fun c hc => hp c (List.dropLast_subset p hc))) ?_) hp
    rintro ⟨s, rfl⟩
    have := hp 's' (by simp)
    exact absurd this (by decide)

example : isCamel ascii "IDs".toList = false ∧ isCamel ascii "IDes".toList = true ∧ isCamel ascii "OSes".toList = false := by decide +kernel

/-- C137: every word of the text that looks like code when its punctuation is taken off, and is not a known identifier, is reported. -/
theorem all_reported (k : Cls) (g : Cfg) (text : Word) (o s : Slice) (ho : o ∈ split k [] [] text) (hp : process k g o = some s)
    (hu : g.url s.w = false) (hc : g.code = false) (hq : g.quote = false) (hw : Codelike k s.w) : (s, Kind.ticks) ∈ check k g text := by
  refine List.mem_filterMap.2 ⟨o, ho, ?_⟩
  unfold report
  rw [hp]
  simp only [(word_iff k g s.w).2.2 ⟨hu, hc, hq, hw⟩]

example : (check ascii plain "a foo_bar".toList).length = 1 := by decide +kernel

/-- C137: known identifiers and words of colons are not looked at, all others are. -/
theorem skipped_iff (k : Cls) (g : Cfg) (o : Slice) : process k g o = none ↔ (core k o).w ∈ g.valid ∨ ∀ c ∈ (core k o).w, c = ':' := by
  unfold process
  by_cases hc : (g.valid.contains (core k o).w || (core k o).w.all (· == ':')) = true
  · simp only [if_pos hc, true_iff]
    simpa [List.all_eq_true] using hc
  · simp only [if_neg hc]
    refine ⟨(fun h => by cases h), fun h => absurd ?_ hc⟩
    simpa [List.all_eq_true] using h

example : process ascii ⟨["GitHub".toList], fun _ => false, false, false⟩ ⟨[], "GitHub.".toList, []⟩ = none := by decide +kernel

theorem pat_alnum {k : Cls} {c : Char} (h : k.alnum c = true) : pattern k c = false := by simp [pattern, h]

theorem dropWhile_of {p : Char → Bool} : ∀ (x m : Word), (∀ c ∈ x, p c = true) → (∀ a q, m = a :: q → p a = false) →
    (x ++ m).dropWhile p = m ∧ (x ++ m).takeWhile p = x
  | [], m, _, hm => by
    cases m with
    | nil => exact ⟨rfl, rfl⟩
    | cons a q => simp [hm a q rfl]
  | c :: x, m, hx, hm => by
    obtain ⟨h1, h2⟩ := dropWhile_of x m (fun d hd => hx d (List.mem_cons_of_mem _ hd)) hm
    simp [hx c (by simp), h1, h2]

theorem trimStart_of {p : Char → Bool} (l x m r : Word) (hx : ∀ c ∈ x, p c = true) (hm : ∀ a q, m = a :: q → p a = false) :
    trimStart p ⟨l, x ++ m, r⟩ = ⟨l ++ x, m, r⟩ := by
  obtain ⟨h1, h2⟩ := dropWhile_of x m hx hm
  simp [trimStart, h1, h2]

theorem trimEnd_of {p : Char → Bool} (l m y r : Word) (hy : ∀ c ∈ y, p c = true) (hm : ∀ q a, m = q ++ [a] → p a = false) :
    trimEnd p ⟨l, m ++ y, r⟩ = ⟨l, m, y ++ r⟩ := by
  obtain ⟨h1, h2⟩ := dropWhile_of (p := p) y.reverse m.reverse (by simpa using hy) (fun a q h => hm q.reverse a (by
    have := congrArg List.reverse h
    simpa using this))
  simp [trimEnd, h1, h2]

/-- Parentheses right after the word are taken back, nothing else. -/
theorem claw_of (l m y r : Word) (q : Word) (b : Char) (hm : m = q ++ [b]) (hb : b ≠ '(') :
    (∀ z, y = '(' :: ')' :: z → claw ⟨l, m ++ y, r⟩ ⟨l, m, y ++ r⟩ = ⟨l, m ++ ['(', ')'], z ++ r⟩) ∧
    ((∀ z, y ≠ '(' :: ')' :: z) → claw ⟨l, m ++ y, r⟩ ⟨l, m, y ++ r⟩ = ⟨l, m, y ++ r⟩) := by
  constructor
  · rintro z rfl
    have e : get ⟨l, m ++ '(' :: ')' :: z, r⟩ 0 (bytes m + 2) = some ⟨l, m ++ ['(', ')'], z ++ r⟩ := by
      have h1 : splitBytes 0 (m ++ '(' :: ')' :: z) = some ([], m ++ '(' :: ')' :: z) := by
        have := splitBytes_bytes [] (m ++ '(' :: ')' :: z)
        simpa [bytes] using this
      have h2 : splitBytes (bytes m + 2) (m ++ '(' :: ')' :: z) = some (m ++ ['(', ')'], z) := by
        have := splitBytes_bytes (m ++ ['(', ')']) z
        rw [bytes_append] at this
        have e2 : bytes ['(', ')'] = 2 := by decide
        rw [e2] at this
        simpa using this
      simp [get, h1, h2]
    have hs : ['(', ')'].isSuffixOf (m ++ ['(', ')']) = true := (suffix_form _ _).2 ⟨m, rfl⟩
    unfold claw
    simp only [e, hs, if_true]
  · intro hy
    unfold claw
    cases hg : get ⟨l, m ++ y, r⟩ 0 (bytes m + 2) with
    | none => rfl
    | some t =>
      simp only
      by_cases hs : ['(', ')'].isSuffixOf t.w = true
      · exfalso
        obtain ⟨x, y', h1, h2, h3⟩ := get_part hg
        obtain ⟨p, hp⟩ := (suffix_form _ _).1 hs
        have hx : x = [] := by
          cases x with
          | nil => rfl
          | cons c x => simp only [bytes] at h2; have := size_pos c; omega
        have e := h1.1
        rw [hx, hp] at e
        simp only [List.nil_append, List.append_assoc] at e
        have hl : bytes m = bytes p := by
          rw [hp, bytes_append] at h3
          have e2 : bytes ['(', ')'] = 2 := by decide
          omega
        exact hy _ (prefix_unique e hl).2
      · rw [if_neg hs]

theorem uncolon_id (w : Slice) (a : Char) (q : Word) (q' : Word) (b : Char) (h1 : w.w = a :: q) (h2 : w.w = q' ++ [b]) (ha : a ≠ ':') (hb : b ≠ ':') :
    uncolonEnd (uncolonStart w) = w := by
  have e1 : uncolonStart w = w := by
    unfold uncolonStart
    rw [if_neg]
    intro h
    rw [h1] at h
    simp [ha.symm] at h
  rw [e1]
  unfold uncolonEnd
  rw [if_neg]
  intro h
  simp only [Bool.and_eq_true] at h
  obtain ⟨p, hp⟩ := (suffix_form _ _).1 h.1
  have := (List.append_inj' (h2.symm.trans hp) rfl).2
  simp at this
  exact hb this

/-- C137: of a word with other characters around it exactly these characters are taken off, except for `()` right after it. -/
theorem punctuation_off {k : Cls} (hk : Sane k) (l x m y r q q' : Word) (a b : Char) (h1 : m = a :: q) (h2 : m = q' ++ [b])
    (ha : k.alnum a = true) (hb : k.alnum b = true) (hx : ∀ c ∈ x, k.alnum c = false ∧ c ≠ ':') (hy : ∀ c ∈ y, k.alnum c = false ∧ c ≠ ':') :
    (∀ z, y = '(' :: ')' :: z → core k ⟨l, x ++ m ++ y, r⟩ = ⟨l ++ x, m ++ ['(', ')'], z ++ r⟩) ∧
    ((∀ z, y ≠ '(' :: ')' :: z) → core k ⟨l, x ++ m ++ y, r⟩ = ⟨l ++ x, m, y ++ r⟩) := by
  have hpat : ∀ z : Word, (∀ c ∈ z, k.alnum c = false ∧ c ≠ ':') → ∀ c ∈ z, pattern k c = true := by
    intro z hz c hc
    simp [pattern, hz c hc]
  have hac : a ≠ ':' := fun h => by rw [h, hk.colon] at ha; cases ha
  have hbc : b ≠ ':' := fun h => by rw [h, hk.colon] at hb; cases hb
  have hbo : b ≠ '(' := fun h => by rw [h, hk.opened] at hb; cases hb
  have ht : trimEnd (pattern k) ⟨l, x ++ m ++ y, r⟩ = ⟨l, x ++ m, y ++ r⟩ := by
    apply trimEnd_of _ _ _ _ (hpat y hy)
    intro q2 c hc
    rw [h2, ← List.append_assoc] at hc
    have := (List.append_inj' hc rfl).2
    simp at this
    rw [← this]
    exact pat_alnum hb
  have hmx : ∀ s : Word, ∀ c u, m ++ s = c :: u → pattern k c = false := by
    intro s c u hc
    rw [h1] at hc
    simp only [List.cons_append, List.cons.injEq] at hc
    rw [← hc.1]
    exact pat_alnum ha
  obtain ⟨c1, c2⟩ := claw_of l (x ++ m) y r (x ++ q') b (by rw [h2]; simp) hbo
  refine ⟨fun z hz => ?_, fun hz => ?_⟩
  · unfold core trimmed
    rw [ht, c1 z hz, List.append_assoc, trimStart_of l x (m ++ ['(', ')']) _ (hpat x hx) (hmx _)]
    exact uncolon_id _ a (q ++ ['(', ')']) (m ++ ['(']) ')' (by simp [h1]) (by simp) hac (by decide)
  · unfold core trimmed
    rw [ht, c2 hz, trimStart_of l x m _ (hpat x hx) (fun c u hc => hmx [] c u (by simpa using hc))]
    exact uncolon_id _ a q q' b h1 h2 hac hbc

example : (core ascii ⟨[], "[foo]".toList, []⟩).w = "foo".toList ∧ (core ascii ⟨[], "[foo()]".toList, []⟩).w = "foo()".toList := by decide +kernel

theorem extend_takes {o : Slice} : ∀ (n : Nat) (w : Slice) (x y : Word), Part o w x (List.replicate n ')' ++ y) →
    extend o (bytes x) n w = ⟨w.l, w.w ++ List.replicate n ')', y ++ o.r⟩
  | 0, w, x, y, h => by
    have := h.2.2
    cases w
    simp only [extend, List.replicate_zero, List.append_nil, List.nil_append] at this ⊢
    rw [this]
  | n + 1, w, x, y, h => by
    have e : get o (bytes x) (bytes w.w + bytes x + 1) = some ⟨w.l, w.w ++ [')'], List.replicate n ')' ++ y ++ o.r⟩ := by
      have ho : o.w = x ++ ((w.w ++ [')']) ++ (List.replicate n ')' ++ y)) := by rw [h.1]; simp [List.replicate_succ]
      have h1 := splitBytes_bytes x ((w.w ++ [')']) ++ (List.replicate n ')' ++ y))
      have h2 := splitBytes_bytes (w.w ++ [')']) (List.replicate n ')' ++ y)
      have e2 : bytes (w.w ++ [')']) = bytes w.w + bytes x + 1 - bytes x := by
        rw [bytes_append]
        have : bytes [')'] = 1 := by decide
        omega
      rw [e2] at h2
      unfold get
      rw [ho, h1]
      simp only [h2]
      rw [h.2.1]
    have hs : [')'].isSuffixOf (w.w ++ [')']) = true := (suffix_form _ _).2 ⟨w.w, rfl⟩
    unfold extend
    simp only [e, hs, if_true]
    have hp : Part o ⟨w.l, w.w ++ [')'], List.replicate n ')' ++ y ++ o.r⟩ x (List.replicate n ')' ++ y) :=
      ⟨by rw [h.1]; simp [List.replicate_succ], h.2.1, rfl⟩
    rw [extend_takes n _ x y hp]
    simp [List.replicate_succ]

/-- C137: the closing parentheses that a word lacks are taken in. -/
theorem parentheses {k : Cls} (hk : Sane k) (g : Cfg) (o s : Slice) (x z : Word) (n : Nat) (h : process k g o = some s) (hc : ¬ EndsColon k o)
    (hn : (core k o).w.count '(' = (core k o).w.count ')' + n)
    (hp : o.w = x ++ (core k o).w ++ (List.replicate n ')' ++ z)) (hl : (core k o).l = o.l ++ x) :
    s.w = (core k o).w ++ List.replicate n ')' := by
  have hm : missing (core k o).w = n := by
    have : missing (core k o).w = (core k o).w.count '(' - (core k o).w.count ')' := rfl
    omega
  obtain ⟨e, _⟩ := process_some h
  obtain ⟨x', y', h1, _, _, hd⟩ := core_part hk o
  have hx : x' = x := List.append_cancel_left (h1.2.1.symm.trans hl)
  subst hx
  have hy := List.append_cancel_left (h1.1.symm.trans hp)
  rw [hy] at h1
  rw [hd hc, hm, extend_takes _ _ _ _ h1] at e
  rw [e]

/-- C137: nothing is taken in after a word that lacks none. -/
theorem no_parentheses (k : Cls) (g : Cfg) (o s : Slice) (h : process k g o = some s) (hn : (core k o).w.count '(' ≤ (core k o).w.count ')') :
    s = core k o := by
  have hm : missing (core k o).w = 0 := by
    have : missing (core k o).w = (core k o).w.count '(' - (core k o).w.count ')' := rfl
    omega
  obtain ⟨e, _⟩ := process_some h
  rw [hm] at e
  exact e

example : (process ascii plain ⟨[], "(foo()).".toList, []⟩).map (·.w) = some "foo()".toList := by decide +kernel

/-- C137: a single colon in front of or after a word is taken off, a path separator is not. -/
theorem colons {k : Cls} (hk : Sane k) (l m r q q' : Word) (a b : Char) (h1 : m = a :: q) (h2 : m = q' ++ [b])
    (ha : k.alnum a = true) (hb : k.alnum b = true) :
    core k ⟨l, ':' :: m, r⟩ = ⟨l ++ [':'], m, r⟩ ∧ core k ⟨l, ':' :: ':' :: m, r⟩ = ⟨l, ':' :: ':' :: m, r⟩ ∧
    core k ⟨l, m ++ [':'], r⟩ = ⟨l, m, ':' :: r⟩ ∧ core k ⟨l, m ++ [':', ':'], r⟩ = ⟨l, m ++ [':', ':'], r⟩ := by
  have hac : a ≠ ':' := fun h => by rw [h, hk.colon] at ha; cases ha
  have hbc : b ≠ ':' := fun h => by rw [h, hk.colon] at hb; cases hb
  have hbo : b ≠ '(' := fun h => by rw [h, hk.opened] at hb; cases hb
  -- nothing is punctuation at the ends
  have first : ∀ (w : Word) (c : Char) (u v : Word) (d : Char), w = c :: u → w = v ++ [d] → pattern k c = false → pattern k d = false → d ≠ '(' →
      trimStart (pattern k) (trimmed k ⟨l, w, r⟩) = ⟨l, w, r⟩ := by
    intro w c u v d e1 e2 hc hd hdo
    unfold trimmed
    have t1 := trimEnd_of (p := pattern k) l w [] r (fun _ h => by cases h) (fun x y hxy => by
      rw [e2] at hxy
      have := (List.append_inj' hxy rfl).2
      simp at this
      rw [← this]; exact hd)
    have t2 := (claw_of l w [] r v d e2 hdo).2 (fun _ h => by cases h)
    have t3 := trimStart_of (p := pattern k) l [] w r (fun _ h => by cases h) (fun x y hxy => by
      rw [e1] at hxy
      cases hxy
      exact hc)
    simp only [List.append_nil, List.nil_append] at t1 t2 t3
    rw [t1, t2, t3]
  have pc : pattern k ':' = false := by simp [pattern]
  have idEnd : ∀ (l w r v : Word) (d : Char), w = v ++ [d] → d ≠ ':' → uncolonEnd ⟨l, w, r⟩ = ⟨l, w, r⟩ := by
    intro l w r v d e hd
    unfold uncolonEnd
    rw [if_neg]
    intro h
    simp only [Bool.and_eq_true] at h
    obtain ⟨p, hp⟩ := (suffix_form _ _).1 h.1
    have := (List.append_inj' (e.symm.trans hp) rfl).2
    simp at this
    exact hd this
  have idStart : ∀ (l w r u : Word) (c : Char), w = c :: u → c ≠ ':' → uncolonStart ⟨l, w, r⟩ = ⟨l, w, r⟩ := by
    intro l w r u c e hc
    unfold uncolonStart
    rw [if_neg]
    intro h
    rw [e] at h
    simp [hc.symm] at h
  refine ⟨?_, ?_, ?_, ?_⟩
  · unfold core
    rw [first (':' :: m) ':' m (':' :: q') b rfl (by rw [h2]; rfl) pc (pat_alnum hb) hbo]
    have : uncolonStart ⟨l, ':' :: m, r⟩ = ⟨l ++ [':'], m, r⟩ := by
      unfold uncolonStart
      rw [if_pos (by rw [h1]; simp [List.isPrefixOf, hac.symm])]
      exact trimStart_of (p := (· == ':')) l [':'] m r (by simp) (fun c u hc => by
        rw [h1] at hc
        cases hc
        simpa using hac)
    rw [this, idEnd _ m _ q' b h2 hbc]
  · unfold core
    rw [first (':' :: ':' :: m) ':' (':' :: m) (':' :: ':' :: q') b rfl (by rw [h2]; rfl) pc (pat_alnum hb) hbo]
    have : uncolonStart ⟨l, ':' :: ':' :: m, r⟩ = ⟨l, ':' :: ':' :: m, r⟩ := by
      unfold uncolonStart
      rw [if_neg (by simp)]
    rw [this, idEnd _ (':' :: ':' :: m) _ (':' :: ':' :: q') b (by rw [h2]; rfl) hbc]
  · unfold core
    rw [first (m ++ [':']) a (q ++ [':']) m ':' (by rw [h1]; rfl) rfl (pat_alnum ha) pc (by decide)]
    rw [idStart l (m ++ [':']) r (q ++ [':']) a (by rw [h1]; rfl) hac]
    unfold uncolonEnd
    rw [if_pos]
    · exact trimEnd_of (p := (· == ':')) l m [':'] r (by simp) (fun u c hc => by
        rw [h2] at hc
        have := (List.append_inj' hc rfl).2
        simp at this
        rw [← this]
        simpa using hbc)
    · simp only [Bool.and_eq_true, Bool.not_eq_true']
      refine ⟨(suffix_form _ _).2 ⟨m, rfl⟩, Bool.eq_false_iff.2 (fun h => ?_)⟩
      obtain ⟨p, hp⟩ := (suffix_form _ _).1 h
      rw [h2, show p ++ [':', ':'] = (p ++ [':']) ++ [':'] by simp] at hp
      have := List.append_cancel_right hp
      have := (List.append_inj' this rfl).2
      simp at this
      exact hbc this
  · unfold core
    rw [first (m ++ [':', ':']) a (q ++ [':', ':']) (m ++ [':']) ':' (by rw [h1]; rfl) (by simp) (pat_alnum ha) pc (by decide)]
    rw [idStart l (m ++ [':', ':']) r (q ++ [':', ':']) a (by rw [h1]; rfl) hac]
    unfold uncolonEnd
    rw [if_neg]
    intro h
    simp only [Bool.and_eq_true, Bool.not_eq_true'] at h
    have := (suffix_form [':', ':'] (m ++ [':', ':'])).2 ⟨m, rfl⟩
    rw [h.2] at this
    cases this

example : (core ascii ⟨[], ":foo".toList, []⟩).w = "foo".toList ∧ (core ascii ⟨[], "::foo".toList, []⟩).w = "::foo".toList := by decide +kernel

example : missing (core ascii ⟨[], "f(g(x)).".toList, []⟩).w = 2 ∧ (process ascii plain ⟨[], "f(g(x)).".toList, []⟩).map (·.w) = some "f(g(x))".toList := by
  decide +kernel

/-! ## Findings -/

/-- `Foo::bar(a:)`: a colon is cut off at the end but counted as cut off in front, and the backticks come after the first letter: F`oo::bar(a:)`. -/
theorem shifted : ∃ s, check ascii plain "Foo::bar(a:)".toList = [(s, .ticks)] ∧ s.ticked = "F`oo::bar(a:)`".toList :=
  ⟨⟨['F'], "oo::bar(a:)".toList, []⟩, by decide +kernel, by decide +kernel⟩

/-- So a letter is left outside. -/
theorem shifted_not_whole : ∃ o s x y, process ascii plain o = some s ∧ o.w = x ++ s.w ++ y ∧ ¬ Bare ascii x :=
  ⟨⟨[], "Foo::bar(a:)".toList, []⟩, ⟨['F'], "oo::bar(a:)".toList, []⟩, ['F'], [], by decide +kernel, by decide +kernel,
    fun h => absurd (h 'F' (by simp)) (by decide +kernel)⟩

end Verif.DocWords
