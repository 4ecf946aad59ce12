import Verif.DocLink.Model

/-!
# Properties: links of documentation that are broken across lines
-/

namespace Verif.DocLink

theorem splitOnce_iff (c : Char) (l : List Char) : ∀ a b, splitOnce c l = some (a, b) ↔ l = a ++ c :: b ∧ c ∉ a := by
  induction l with
  | nil => intro a b; simp [splitOnce]
  | cons d l ih =>
    intro a b
    rw [splitOnce]
    by_cases h : (d == c) = true
    · rw [if_pos h]
      rw [beq_iff_eq] at h
      cases a with
      | nil => simp [h]
      | cons x a =>
        simp only [Option.some.injEq, Prod.mk.injEq, List.cons_append, List.cons.injEq]
        constructor
        · rintro ⟨e, _⟩; cases e
        · rintro ⟨⟨e, _⟩, hn⟩
          exact absurd (by rw [← h, e]; exact List.mem_cons_self) hn
    · rw [if_neg h]
      rw [beq_iff_eq] at h
      cases a with
      | nil => simp [h]
      | cons x a =>
        rw [Option.map_eq_some_iff]
        constructor
        · rintro ⟨⟨p, q⟩, h1, h2⟩
          injection h2 with h2 h3
          injection h2 with h2 h4
          have h3' : q = b := h3
          have h4' : p = a := h4
          rw [h3', h4'] at h1
          obtain ⟨e, hn⟩ := (ih a b).1 h1
          have h2' : d = x := h2
          refine ⟨by rw [e, h2']; rfl, ?_⟩
          intro hm
          rcases List.mem_cons.1 hm with hm | hm
          · exact h (by rw [h2', hm])
          · exact hn hm
        · rintro ⟨e, hn⟩
          rw [List.cons_append] at e
          injection e with e1 e2
          exact ⟨(a, b), (ih a b).2 ⟨e2, fun hm => hn (List.mem_cons_of_mem _ hm)⟩, by rw [e1]⟩

theorem scan_iff (l : List Char) : ∀ n m, scan true n l = some m ↔ ∃ dest rest, l = dest ++ '\n' :: rest ∧ ')' ∉ dest ∧ '\n' ∉ dest ∧ m = n + dest.length := by
  induction l with
  | nil => intro n m; simp [scan]
  | cons c l ih =>
    intro n m
    rw [scan]
    by_cases h : (c == ')') = true
    · rw [if_pos h]
      rw [beq_iff_eq] at h
      constructor
      · intro k; cases k
      · rintro ⟨d, r, e, h1, _⟩
        rw [h] at e
        cases d with
        | nil => injection e with e _; exact absurd e (by decide)
        | cons x d =>
          injection e with e _
          exact absurd (by rw [e]; exact List.mem_cons_self) h1
    · rw [if_neg h]
      rw [beq_iff_eq] at h
      by_cases h2 : (c == '\n' && true) = true
      · rw [if_pos h2]
        rw [Bool.and_true, beq_iff_eq] at h2
        constructor
        · intro k
          injection k with k
          exact ⟨[], l, by rw [h2]; rfl, by simp, by simp, by simp [k]⟩
        · rintro ⟨d, r, e, _, h3, h4⟩
          cases d with
          | nil => rw [h4]; rfl
          | cons x d =>
            injection e with e _
            exact absurd (by rw [← h2, e]; exact List.mem_cons_self) h3
      · rw [if_neg h2, ih]
        rw [Bool.and_true, beq_iff_eq] at h2
        constructor
        · rintro ⟨d, r, e, h3, h4, h5⟩
          refine ⟨c :: d, r, by rw [e]; rfl, ?_, ?_, by rw [h5, List.length_cons]; omega⟩
          · intro hm
            rcases List.mem_cons.1 hm with hm | hm
            · exact h hm.symm
            · exact h3 hm
          · intro hm
            rcases List.mem_cons.1 hm with hm | hm
            · exact h2 hm.symm
            · exact h4 hm
        · rintro ⟨d, r, e, h3, h4, h5⟩
          cases d with
          | nil => injection e with e _; exact absurd e h2
          | cons x d =>
            injection e with _ e
            exact ⟨d, r, e, fun hm => h3 (List.mem_cons_of_mem _ hm), fun hm => h4 (List.mem_cons_of_mem _ hm), by rw [h5, List.length_cons]; omega⟩

theorem len_bytes (t : List Char) : len t = bytes t := by
  induction t with
  | nil => rfl
  | cons c t ih => rw [len, ih]; simp [bytes]

theorem prefix_dest (dest rest u : List Char) (h : '\n' ∉ u) : u <+: dest ++ '\n' :: rest ↔ u <+: dest := by
  constructor
  · intro hp
    rcases List.prefix_or_prefix_of_prefix hp (List.prefix_append dest ('\n' :: rest)) with k | k
    · exact k
    · obtain ⟨v, hv⟩ := k
      cases v with
      | nil => rw [List.append_nil] at hv; rw [hv]; exact List.prefix_refl _
      | cons x v =>
        rw [← hv, List.prefix_append_right_inj] at hp
        obtain ⟨w, hw⟩ := hp
        rw [List.cons_append] at hw
        injection hw with e _
        exact absurd (by rw [← hv, e]; simp) h
  · intro hp
    exact hp.trans (List.prefix_append _ _)

/-- When a range of some length is reported. -/
theorem warn_iff (raw : List Char) (n : Nat) : warn true raw = some n ↔
    ∃ label dest rest, Broken raw label dest rest ∧ ¬['(', 'h', 't', 't', 'p'] <+: dest ∧ n = bytes label + 2 + dest.length := by
  unfold warn
  constructor
  · intro h
    cases h1 : splitOnce ']' raw with
    | none => rw [h1] at h; cases h
    | some x =>
      obtain ⟨label, suf⟩ := x
      rw [h1] at h
      obtain ⟨e1, hn1⟩ := (splitOnce_iff ']' raw label suf).1 h1
      have h' : afterLabel true (len label + 1) suf = some n := h
      unfold afterLabel at h'
      cases h2 : splitOnce '(' suf with
      | none => rw [h2] at h'; cases h'
      | some y =>
        obtain ⟨pre, d⟩ := y
        rw [h2] at h'
        obtain ⟨e2, _⟩ := (splitOnce_iff '(' suf pre d).1 h2
        simp only at h'
        by_cases h3 : (!pre.isEmpty) = true
        · rw [if_pos h3] at h'; cases h'
        · rw [if_neg h3] at h'
          have hp : pre = [] := by simpa using h3
          by_cases h4 : (['(', 'h', 't', 't', 'p'].isPrefixOf d) = true
          · rw [if_pos h4] at h'; cases h'
          · rw [if_neg h4] at h'
            obtain ⟨dest, rest, e3, h5, h6, h7⟩ := (scan_iff d _ _).1 h'
            refine ⟨label, dest, rest, ⟨by rw [e1, e2, hp, e3]; rfl, hn1, h5, h6⟩, ?_, ?_⟩
            · intro k
              apply h4
              rw [List.isPrefixOf_iff_prefix, e3]
              exact k.trans (List.prefix_append _ _)
            · rw [h7, hp, len_bytes]
              show bytes label + 1 + (0 + 1) + _ = _
              omega
  · rintro ⟨label, dest, rest, ⟨e, hn1, h5, h6⟩, h4, h7⟩
    have h1 := (splitOnce_iff ']' raw label _).2 ⟨e, hn1⟩
    have h2 := (splitOnce_iff '(' ('(' :: (dest ++ '\n' :: rest)) [] (dest ++ '\n' :: rest)).2 ⟨rfl, by simp⟩
    rw [h1]
    show afterLabel true (len label + 1) _ = _
    unfold afterLabel
    rw [h2]
    show (if (!([] : List Char).isEmpty) = true then none else _) = _
    rw [if_neg (by simp)]
    rw [if_neg (by rw [List.isPrefixOf_iff_prefix, prefix_dest _ _ _ (by decide)]; exact h4)]
    refine (scan_iff _ _ _).2 ⟨dest, rest, rfl, h5, h6, ?_⟩
    rw [h7, len_bytes]
    show _ = bytes label + 1 + (0 + 1) + _
    omega

/-- A web link that is broken across lines is reported. -/
theorem urls_reported (raw label dest rest : List Char) (h : Broken raw label dest rest) (hu : Url dest) : (warn true raw).isSome = true := by
  have : warn true raw = some (bytes label + 2 + dest.length) := by
    refine (warn_iff raw _).2 ⟨label, dest, rest, h, ?_, rfl⟩
    intro k
    obtain ⟨a, ha⟩ := k
    obtain ⟨b, hb⟩ := hu
    rw [← ha] at hb
    simp at hb
  rw [this]; rfl

/-- Only links that are broken across lines are reported. Partial: that they are web links is missing; see `not_only_urls`. -/
theorem only_broken_partial (raw : List Char) (h : (warn true raw).isSome = true) : ∃ label dest rest, Broken raw label dest rest := by
  obtain ⟨n, hn⟩ := Option.isSome_iff_exists.1 h
  obtain ⟨label, dest, rest, hb, _⟩ := (warn_iff raw n).1 hn
  exact ⟨label, dest, rest, hb⟩

theorem first_eq (c : Char) (a a' b b' : List Char) (h : a ++ c :: b = a' ++ c :: b') (ha : c ∉ a) (ha' : c ∉ a') : a = a' ∧ b = b' := by
  have h1 := (splitOnce_iff c _ a b).2 ⟨rfl, ha⟩
  have h2 := (splitOnce_iff c _ a' b').2 ⟨h, ha'⟩
  rw [h1] at h2
  injection h2 with h2
  injection h2 with h2 h3
  exact ⟨h2, h3⟩

/-- A link that is closed on its line is never reported. -/
theorem whole_silent (raw : List Char) (h : Whole raw) (mapped : Bool) : warn mapped raw = none := by
  have scan_close : ∀ (dest rest : List Char) (n : Nat), '\n' ∉ dest → scan mapped n (dest ++ ')' :: rest) = none := by
    intro dest
    induction dest with
    | nil => intro rest n _; simp [scan]
    | cons c dest ih =>
      intro rest n hd
      rw [List.cons_append, scan]
      by_cases h1 : (c == ')') = true
      · rw [if_pos h1]
      · rw [if_neg h1, if_neg, ih rest (n + 1) (fun hm => hd (List.mem_cons_of_mem _ hm))]
        intro k
        rw [Bool.and_eq_true, beq_iff_eq] at k
        exact hd (by rw [k.1]; exact List.mem_cons_self)
  obtain ⟨label, dest, rest, e, hl, hd⟩ := h
  unfold warn
  rw [(splitOnce_iff ']' raw label _).2 ⟨e, hl⟩]
  show afterLabel mapped (len label + 1) _ = _
  unfold afterLabel
  rw [(splitOnce_iff '(' ('(' :: (dest ++ ')' :: rest)) [] (dest ++ ')' :: rest)).2 ⟨rfl, by simp⟩]
  show (if (!([] : List Char).isEmpty) = true then none else _) = _
  rw [if_neg (by simp)]
  split
  · rfl
  · exact scan_close _ _ _ hd

/-- The reported range ends with the line. Partial: the destination has only characters of one byte; see `range_short`. -/
theorem range_partial (raw label dest rest : List Char) (h : Broken raw label dest rest) (ha : ∀ c ∈ dest, c.utf8Size = 1) (n : Nat) (hn : warn true raw = some n) :
    n = bytes (label ++ ']' :: '(' :: dest) := by
  obtain ⟨label', dest', rest', hb, _, e⟩ := (warn_iff raw n).1 hn
  obtain ⟨e1, e2⟩ := first_eq ']' label label' _ _ (by rw [← h.1, hb.1]) h.2.1 hb.2.1
  injection e2 with _ e2
  obtain ⟨e3, _⟩ := first_eq '\n' dest dest' _ _ e2 h.2.2.2 hb.2.2.2
  rw [e, ← e1, ← e3]
  have hs : bytes dest = dest.length := by
    clear hn e3 e2 e1 hb h
    induction dest with
    | nil => rfl
    | cons c d ih =>
      have h1 := ha c List.mem_cons_self
      have h2 := ih (fun x hx => ha x (List.mem_cons_of_mem _ hx))
      have : bytes (c :: d) = c.utf8Size + bytes d := by simp [bytes]
      rw [this, h1, h2, List.length_cons]
      omega
  have h1 : bytes (label ++ ']' :: '(' :: dest) = bytes label + (1 + (1 + bytes dest)) := by
    have e1 : (']' : Char).utf8Size = 1 := by decide
    have e2 : ('(' : Char).utf8Size = 1 := by decide
    simp only [bytes, List.map_append, List.sum_append, List.map_cons, List.sum_cons, e1, e2]
  rw [h1, hs]
  omega

/-- Without a place in the source nothing is reported. -/
theorem unmapped_silent (raw : List Char) : warn false raw = none := by
  have hs : ∀ l n, scan false n l = none := by
    intro l
    induction l with
    | nil => intro n; rfl
    | cons c l ih =>
      intro n
      rw [scan, Bool.and_false, ih]
      simp
  unfold warn
  split
  · rfl
  · unfold afterLabel
    split
    · rfl
    · rw [hs]; simp

example : warn true ['[', 'a', ']', '(', 'h', 't', 't', 'p', ':', '\n', 'b', ')'] = some 9 ∧ warn true ['[', 'a', ']', ' ', '(', 'h', '\n', ')'] = none ∧
    warn true ['[', 'a', ']', '(', 'h', 't', 't', 'p', ')', '\n'] = none := by decide +kernel

example : Broken ['[', 'a', ']', '(', 'h', 't', 't', 'p', '\n', 'b', ')'] ['[', 'a'] ['h', 't', 't', 'p'] ['b', ')'] ∧ Url ['h', 't', 't', 'p'] :=
  ⟨⟨rfl, by decide, by decide, by decide⟩, List.prefix_refl _⟩

example : Whole ['[', 'a', ']', '(', 'b', ')', '\n'] := ⟨['[', 'a'], ['b'], ['\n'], rfl, by decide, by decide⟩

/-- Other destinations are reported too. -/
theorem not_only_urls : ¬∀ raw label dest rest, Broken raw label dest rest → (warn true raw).isSome = true → Url dest := by
  intro h
  have := h ['[', 'a', ']', '(', 'b', '\n', ')'] ['[', 'a'] ['b'] [')'] ⟨rfl, by decide, by decide, by decide⟩ (by decide +kernel)
  obtain ⟨r, hr⟩ := this
  injection hr with e _
  exact absurd e (by decide)

/-- The test for `http` comes after the parenthesis it looks for: what it excludes is only a second one. -/
theorem second_paren : warn true ['[', 'a', ']', '(', '(', 'h', 't', 't', 'p', '\n', ')'] = none ∧
    (warn true ['[', 'a', ']', '(', 'h', 't', 't', 'p', '\n', ')']).isSome = true := by decide +kernel

/-- Characters of several bytes count as one: the range ends inside the destination, here in the middle of `é`. -/
theorem range_short : warn true ['[', 'a', ']', '(', 'é', '\n', ')'] = some 5 ∧ bytes ['[', 'a', ']', '('] = 4 ∧ bytes ['[', 'a', ']', '(', 'é'] = 6 := by
  decide +kernel

end Verif.DocLink
