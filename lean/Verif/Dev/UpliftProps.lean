import Verif.Dev.EditModel

/-!
# C45: uplifting a lint edits exactly the places which name it
-/

namespace Verif.Dev

/-! ## Specification -/

/-- All tokens are white space. -/
def Blank (w : List Tok) : Prop := ∀ t ∈ w, t.kind = .ws

/-- The token is this identifier. -/
def IsIdent (s : Str) (t : Tok) : Prop := t.kind = .ident ∧ t.text = s

/-- The tokens of `clippy::old`, with white space around the `::` but not inside. -/
def LintPath (old : Str) (p : List Tok) : Prop :=
  ∃ c w1 d1 d2 w2 o, p = c :: (w1 ++ d1 :: d2 :: (w2 ++ [o])) ∧ IsIdent (str!"clippy") c ∧ Blank w1 ∧ d1.kind = .colon ∧
    d2.kind = .colon ∧ Blank w2 ∧ IsIdent old o

/-- The tokens of `mod old;`. -/
def ModItem (old : Str) (p : List Tok) : Prop :=
  ∃ m w1 o w2 s, p = m :: (w1 ++ o :: (w2 ++ [s])) ∧ IsIdent (str!"mod") m ∧ Blank w1 ∧ IsIdent old o ∧ Blank w2 ∧ s.kind = .semi

/-- The tokens start with tokens of the given shape. -/
def Starts (P : List Tok → Prop) (l : List Tok) : Prop := ∃ p r, l = p ++ r ∧ P p

/-- The text after the edit: from left to right, each `clippy::old` becomes `new`, each `mod old;` with its line break becomes
`modText` if the module was removed, and every other token is kept. -/
inductive Uplifted (old new modText : Str) (removeMod : Bool) : List Tok → Str → Prop
  | nil : Uplifted old new modText removeMod [] []
  | path {p r out} : LintPath old p → Uplifted old new modText removeMod r out → Uplifted old new modText removeMod (p ++ r) (new ++ out)
  | item {p r out} : removeMod = true → ModItem old p → Uplifted old new modText removeMod (dropNl r) out →
      Uplifted old new modText removeMod (p ++ r) (modText ++ out)
  | keep {t r out} : ¬ Starts (LintPath old) (t :: r) → ¬ (removeMod = true ∧ Starts (ModItem old) (t :: r)) →
      Uplifted old new modText removeMod r out → Uplifted old new modText removeMod (t :: r) (t.text ++ out)

/-! ## Matching -/

theorem matchTok_split (p : Pat) (l : List Tok) : (matchTok p l).used ++ (matchTok p l).rest = l := by
  unfold matchTok
  repeat' split
  all_goals simp_all

theorem matchPat_split (p : Pat) : ∀ l : List Tok, (matchPat p l).used ++ (matchPat p l).rest = l
  | [] => matchTok_split p []
  | t :: r => by
    unfold matchPat
    split
    · simp [matchPat_split p r]
    · exact matchTok_split p (t :: r)

theorem matchAll_split : ∀ (ps : List Pat) (l : List Tok), (matchAll ps l).used ++ (matchAll ps l).rest = l
  | [], l => rfl
  | p :: ps, l => by
    unfold matchAll
    split
    · simp only [List.append_assoc, matchAll_split ps, matchPat_split]
    · exact matchPat_split p l

/-- White space is skipped before a match. -/
theorem matchPat_blank (p : Pat) : ∀ {w : List Tok} (l : List Tok), Blank w →
    matchPat p (w ++ l) = ⟨w ++ (matchPat p l).used, (matchPat p l).ok, (matchPat p l).rest⟩
  | [], l, _ => by simp
  | t :: w, l, h => by
    have ht := h t (by simp)
    have := matchPat_blank p l (fun x hx => h x (List.mem_cons_of_mem _ hx)) (w := w)
    simp [matchPat, ht, this]

/-- Every list is white space followed by nothing or by a token which isn't white space. -/
theorem blank_decomp : ∀ l : List Tok, ∃ w r, l = w ++ r ∧ Blank w ∧ (r = [] ∨ ∃ t r', r = t :: r' ∧ t.kind ≠ .ws)
  | [] => ⟨[], [], rfl, fun _ h => by simp at h, .inl rfl⟩
  | t :: l => by
    by_cases ht : t.kind = .ws
    · obtain ⟨w, r, e, hw, hr⟩ := blank_decomp l
      refine ⟨t :: w, r, by simp [e], ?_, hr⟩
      intro x hx
      rcases List.mem_cons.1 hx with h | h
      · rw [h]; exact ht
      · exact hw x h
    · exact ⟨[], t :: l, rfl, fun _ h => by simp at h, .inr ⟨t, l, rfl, ht⟩⟩

theorem matchPat_tok (p : Pat) {t : Tok} (r : List Tok) (h : t.kind ≠ .ws) : matchPat p (t :: r) = matchTok p (t :: r) := by
  simp [matchPat, h]

theorem matchIdent_iff (s : Str) (l : List Tok) :
    (matchPat (.ident s) l).ok = true ↔ ∃ w t r, l = w ++ t :: r ∧ Blank w ∧ IsIdent s t := by
  constructor
  · intro h
    obtain ⟨w, r, rfl, hw, hr⟩ := blank_decomp l
    rw [matchPat_blank _ _ hw] at h
    rcases hr with rfl | ⟨t, r', rfl, ht⟩
    · simp [matchPat, matchTok] at h
    · rw [matchPat_tok _ _ ht] at h
      by_cases hi : t.kind = .ident ∧ t.text = s
      · exact ⟨w, t, r', rfl, hw, hi⟩
      · simp [matchTok, hi] at h
  · rintro ⟨w, t, r, rfl, hw, hi⟩
    rw [matchPat_blank _ _ hw, matchPat_tok _ _ (by rw [hi.1]; decide)]
    simp [matchTok, hi.1, hi.2]

theorem matchIdent_eq {s : Str} {w : List Tok} {t : Tok} {r : List Tok} (hw : Blank w) (ht : IsIdent s t) :
    matchPat (.ident s) (w ++ t :: r) = ⟨w ++ [t], true, r⟩ := by
  rw [matchPat_blank _ _ hw, matchPat_tok _ _ (by rw [ht.1]; decide)]
  simp [matchTok, ht.1, ht.2]

theorem matchCapture_iff (l : List Tok) :
    (matchPat .captureIdent l).ok = true ↔ ∃ w t r, l = w ++ t :: r ∧ Blank w ∧ t.kind = .ident := by
  constructor
  · intro h
    obtain ⟨w, r, rfl, hw, hr⟩ := blank_decomp l
    rw [matchPat_blank _ _ hw] at h
    rcases hr with rfl | ⟨t, r', rfl, ht⟩
    · simp [matchPat, matchTok] at h
    · rw [matchPat_tok _ _ ht] at h
      by_cases hi : t.kind = .ident
      · exact ⟨w, t, r', rfl, hw, hi⟩
      · simp [matchTok, hi] at h
  · rintro ⟨w, t, r, rfl, hw, hi⟩
    rw [matchPat_blank _ _ hw, matchPat_tok _ _ (by rw [hi]; decide)]
    simp [matchTok, hi]

theorem matchCapture_eq {w : List Tok} {t : Tok} {r : List Tok} (hw : Blank w) (ht : t.kind = .ident) :
    matchPat .captureIdent (w ++ t :: r) = ⟨w ++ [t], true, r⟩ := by
  rw [matchPat_blank _ _ hw, matchPat_tok _ _ (by rw [ht]; decide)]
  simp [matchTok, ht]

theorem matchSemi_iff (l : List Tok) :
    (matchPat .semi l).ok = true ↔ ∃ w t r, l = w ++ t :: r ∧ Blank w ∧ t.kind = .semi := by
  constructor
  · intro h
    obtain ⟨w, r, rfl, hw, hr⟩ := blank_decomp l
    rw [matchPat_blank _ _ hw] at h
    rcases hr with rfl | ⟨t, r', rfl, ht⟩
    · simp [matchPat, matchTok] at h
    · rw [matchPat_tok _ _ ht] at h
      by_cases hi : t.kind = .semi
      · exact ⟨w, t, r', rfl, hw, hi⟩
      · simp [matchTok, hi] at h
  · rintro ⟨w, t, r, rfl, hw, hi⟩
    rw [matchPat_blank _ _ hw, matchPat_tok _ _ (by rw [hi]; decide)]
    simp [matchTok, hi]

theorem matchSemi_eq {w : List Tok} {t : Tok} {r : List Tok} (hw : Blank w) (ht : t.kind = .semi) :
    matchPat .semi (w ++ t :: r) = ⟨w ++ [t], true, r⟩ := by
  rw [matchPat_blank _ _ hw, matchPat_tok _ _ (by rw [ht]; decide)]
  simp [matchTok, ht]

theorem matchColons_iff (l : List Tok) :
    (matchPat .doubleColon l).ok = true ↔
      ∃ w d1 d2 r, l = w ++ d1 :: d2 :: r ∧ Blank w ∧ d1.kind = .colon ∧ d2.kind = .colon := by
  constructor
  · intro h
    obtain ⟨w, r, rfl, hw, hr⟩ := blank_decomp l
    rw [matchPat_blank _ _ hw] at h
    rcases hr with rfl | ⟨t, r', rfl, ht⟩
    · simp [matchPat, matchTok] at h
    · rw [matchPat_tok _ _ ht] at h
      by_cases hi : t.kind = .colon
      · cases r' with
        | nil => simp [matchTok, hi] at h
        | cons t' r' =>
          by_cases hi' : t'.kind = .colon
          · exact ⟨w, t, t', r', rfl, hw, hi, hi'⟩
          · simp [matchTok, hi, hi'] at h
      · simp [matchTok, hi] at h
  · rintro ⟨w, d1, d2, r, rfl, hw, h1, h2⟩
    rw [matchPat_blank _ _ hw, matchPat_tok _ _ (by rw [h1]; decide)]
    simp [matchTok, h1, h2]

theorem matchColons_eq {w : List Tok} {d1 d2 : Tok} {r : List Tok} (hw : Blank w) (h1 : d1.kind = .colon)
    (h2 : d2.kind = .colon) : matchPat .doubleColon (w ++ d1 :: d2 :: r) = ⟨w ++ [d1, d2], true, r⟩ := by
  rw [matchPat_blank _ _ hw, matchPat_tok _ _ (by rw [h1]; decide)]
  simp [matchTok, h1, h2]

theorem matchPath_ok {old : Str} {l : List Tok} (h : (matchAll [.doubleColon, .ident old] l).ok = true) :
    ∃ w1 d1 d2 w2 o, l = (w1 ++ d1 :: d2 :: (w2 ++ [o])) ++ (matchAll [.doubleColon, .ident old] l).rest ∧ Blank w1 ∧ d1.kind = .colon ∧
      d2.kind = .colon ∧ Blank w2 ∧ IsIdent old o := by
  by_cases h1 : (matchPat .doubleColon l).ok = true
  · obtain ⟨w, d1, d2, r, rfl, hw, hd1, hd2⟩ := (matchColons_iff l).1 h1
    rw [matchAll, if_pos h1, matchColons_eq hw hd1 hd2] at h
    simp only [matchAll] at h
    by_cases h2 : (matchPat (.ident old) r).ok = true
    · obtain ⟨w', o, r', rfl, hw', ho⟩ := (matchIdent_iff old r).1 h2
      refine ⟨w, d1, d2, w', o, ?_, hw, hd1, hd2, hw', ho⟩
      rw [matchAll, if_pos h1, matchColons_eq hw hd1 hd2]
      simp [matchAll, matchIdent_eq hw' ho]
    · rw [if_neg h2] at h; exact absurd h h2
  · rw [matchAll, if_neg h1] at h; exact absurd h h1

theorem matchPath_of {old : Str} {w1 : List Tok} {d1 d2 : Tok} {w2 : List Tok} {o : Tok} (r : List Tok) (hw1 : Blank w1)
    (h1 : d1.kind = .colon) (h2 : d2.kind = .colon) (hw2 : Blank w2) (ho : IsIdent old o) :
    (matchAll [.doubleColon, .ident old] (w1 ++ d1 :: d2 :: (w2 ++ o :: r))).ok = true := by
  rw [matchAll, if_pos ((matchColons_iff _).2 ⟨w1, d1, d2, _, rfl, hw1, h1, h2⟩), matchColons_eq hw1 h1 h2]
  simp [matchAll, matchIdent_eq hw2 ho]

theorem matchMod_ok {old : Str} {l : List Tok} (h : (matchAll [.ident old, .semi] l).ok = true) :
    ∃ w1 o w2 s, l = (w1 ++ o :: (w2 ++ [s])) ++ (matchAll [.ident old, .semi] l).rest ∧ Blank w1 ∧ IsIdent old o ∧ Blank w2 ∧
      s.kind = .semi := by
  by_cases h1 : (matchPat (.ident old) l).ok = true
  · obtain ⟨w, o, r, rfl, hw, ho⟩ := (matchIdent_iff old l).1 h1
    rw [matchAll, if_pos h1, matchIdent_eq hw ho] at h
    simp only [matchAll] at h
    by_cases h2 : (matchPat .semi r).ok = true
    · obtain ⟨w', s, r', rfl, hw', hs⟩ := (matchSemi_iff r).1 h2
      refine ⟨w, o, w', s, ?_, hw, ho, hw', hs⟩
      rw [matchAll, if_pos h1, matchIdent_eq hw ho]
      simp [matchAll, matchSemi_eq hw' hs]
    · rw [if_neg h2] at h; exact absurd h h2
  · rw [matchAll, if_neg h1] at h; exact absurd h h1

theorem matchMod_of {old : Str} {w1 : List Tok} {o : Tok} {w2 : List Tok} {s : Tok} (r : List Tok) (hw1 : Blank w1)
    (ho : IsIdent old o) (hw2 : Blank w2) (hs : s.kind = .semi) :
    (matchAll [.ident old, .semi] (w1 ++ o :: (w2 ++ s :: r))).ok = true := by
  rw [matchAll, if_pos ((matchIdent_iff _ _).2 ⟨w1, o, _, rfl, hw1, ho⟩), matchIdent_eq hw1 ho]
  simp [matchAll, matchSemi_eq hw2 hs]

theorem not_starts_path {old : Str} {t : Tok} {r : List Tok} (h : ¬ IsIdent (str!"clippy") t) :
    ¬ Starts (LintPath old) (t :: r) := by
  rintro ⟨p, q, e, c, w1, d1, d2, w2, o, rfl, hc, _⟩
  simp only [List.cons_append, List.cons.injEq] at e
  exact h (e.1 ▸ hc)

theorem not_starts_mod {old : Str} {t : Tok} {r : List Tok} (h : ¬ IsIdent (str!"mod") t) :
    ¬ Starts (ModItem old) (t :: r) := by
  rintro ⟨p, q, e, m, w1, o, w2, s, rfl, hc, _⟩
  simp only [List.cons_append, List.cons.injEq] at e
  exact h (e.1 ▸ hc)

theorem starts_path_match {old : Str} {t : Tok} {r : List Tok} (h : Starts (LintPath old) (t :: r)) :
    (matchAll [.doubleColon, .ident old] r).ok = true := by
  obtain ⟨p, q, e, c, w1, d1, d2, w2, o, rfl, hc, hw1, h1, h2, hw2, ho⟩ := h
  simp only [List.cons_append, List.cons.injEq] at e
  rw [e.2]
  simpa using matchPath_of q hw1 h1 h2 hw2 ho

theorem starts_mod_match {old : Str} {t : Tok} {r : List Tok} (h : Starts (ModItem old) (t :: r)) :
    (matchAll [.ident old, .semi] r).ok = true := by
  obtain ⟨p, q, e, m, w1, o, w2, s, rfl, hc, hw1, ho, hw2, hs⟩ := h
  simp only [List.cons_append, List.cons.injEq] at e
  rw [e.2]
  simpa using matchMod_of q hw1 ho hw2 hs

/-- The tokens consumed by a match are white space, `:`, `;` or an identifier of the pattern. -/
theorem matchPat_used (p : Pat) (l : List Tok) : ∀ t ∈ (matchPat p l).used,
    t.kind = .ws ∨ t.kind = .colon ∨ t.kind = .semi ∨ (p = .captureIdent ∧ t.kind = .ident) ∨ ∃ s, p = .ident s ∧ IsIdent s t := by
  obtain ⟨w, r, rfl, hw, hr⟩ := blank_decomp l
  rw [matchPat_blank _ _ hw]
  intro t ht
  simp only [List.mem_append] at ht
  rcases ht with ht | ht
  · exact .inl (hw t ht)
  rcases hr with rfl | ⟨x, r', rfl, hx⟩
  · simp [matchPat, matchTok] at ht
  · rw [matchPat_tok _ _ hx] at ht
    cases p <;> simp only [matchTok] at ht
    · split at ht
      · next h => simp only [List.mem_cons, List.not_mem_nil, or_false] at ht
                  rw [ht]; exact .inr (.inr (.inr (.inr ⟨_, rfl, h⟩)))
      · simp at ht
    · split at ht
      · next h => simp only [List.mem_cons, List.not_mem_nil, or_false] at ht
                  rw [ht]; exact .inr (.inr (.inl h))
      · simp at ht
    · split at ht
      · next h =>
        split at ht
        · simp only [List.mem_cons, List.not_mem_nil, or_false] at ht
          rw [ht]; exact .inr (.inl h)
        · split at ht
          · next h' =>
            simp only [List.mem_cons, List.not_mem_nil, or_false] at ht
            rcases ht with ht | ht <;> rw [ht]
            · exact .inr (.inl h)
            · exact .inr (.inl h')
          · simp only [List.mem_cons, List.not_mem_nil, or_false] at ht
            rw [ht]; exact .inr (.inl h)
      · simp at ht
    · split at ht
      · next h => simp only [List.mem_cons, List.not_mem_nil, or_false] at ht
                  rw [ht]; exact .inr (.inr (.inr (.inl ⟨rfl, h⟩)))
      · simp at ht

theorem matchAll_used (s : Str) : ∀ (ps : List Pat) (l : List Tok), (∀ p ∈ ps, p = .semi ∨ p = .doubleColon ∨ p = .ident s) →
    ∀ t ∈ (matchAll ps l).used, t.kind ≠ .ident ∨ IsIdent s t
  | [], l, _, t, ht => by simp [matchAll] at ht
  | p :: ps, l, hp, t, ht => by
    have key : ∀ t ∈ (matchPat p l).used, t.kind ≠ .ident ∨ IsIdent s t := by
      intro t ht
      rcases matchPat_used p l t ht with h | h | h | ⟨h, _⟩ | ⟨s', h, h'⟩
      · left; rw [h]; decide
      · left; rw [h]; decide
      · left; rw [h]; decide
      · rcases hp p (by simp) with e | e | e <;> rw [e] at h <;> simp at h
      · rcases hp p (by simp) with e | e | e <;> rw [e] at h <;> simp at h
        right; rw [h]; exact h'
    rw [matchAll] at ht
    split at ht
    · simp only [List.mem_append] at ht
      rcases ht with ht | ht
      · exact key t ht
      · exact matchAll_used s ps _ (fun q hq => hp q (List.mem_cons_of_mem _ hq)) t ht
    · exact key t ht

theorem Uplifted.keeps {old new modText : Str} {removeMod : Bool} : ∀ {u r : List Tok} {out : Str},
    (∀ t ∈ u, ¬ IsIdent (str!"clippy") t ∧ ¬ IsIdent (str!"mod") t) → Uplifted old new modText removeMod r out →
    Uplifted old new modText removeMod (u ++ r) (srcText u ++ out)
  | [], r, out, _, h => h
  | t :: u, r, out, hu, h => by
    have ht := hu t (by simp)
    have := Uplifted.keeps (fun x hx => hu x (List.mem_cons_of_mem _ hx)) h (u := u)
    have e : srcText (t :: u) ++ out = t.text ++ (srcText u ++ out) := by simp [srcText, texts]
    rw [e]
    exact .keep (not_starts_path ht.1) (fun h => not_starts_mod ht.2 h.2) this

/-! ## The theorem -/

theorem uplift_spec {old new : Str} (removeMod : Bool) (hc : old ≠ str!"clippy") (hm : old ≠ str!"mod") :
    ∀ (n : Nat) (l : List Tok), l.length ≤ n → Uplifted old new new removeMod l (uplift old new removeMod n l)
  | 0, l, h => by
    have : l = [] := List.length_eq_zero_iff.1 (by omega)
    subst this; exact .nil
  | n + 1, [], _ => .nil
  | n + 1, t :: r, h => by
    have ih := uplift_spec removeMod hc hm n (new := new)
    simp only [List.length_cons] at h
    have lenAll : ∀ ps, (matchAll ps r).rest.length ≤ r.length := fun ps => by
      have := congrArg List.length (matchAll_split ps r)
      simp only [List.length_append] at this; omega
    have usedOk : ∀ ps, (∀ p ∈ ps, p = .semi ∨ p = .doubleColon ∨ p = .ident old) →
        ∀ x ∈ (matchAll ps r).used, ¬ IsIdent (str!"clippy") x ∧ ¬ IsIdent (str!"mod") x := fun ps hp x hx => by
      rcases matchAll_used old ps r hp x hx with h | h
      · exact ⟨fun h' => h h'.1, fun h' => h h'.1⟩
      · exact ⟨fun h' => hc (h.2.symm.trans h'.2), fun h' => hm (h.2.symm.trans h'.2)⟩
    unfold uplift
    by_cases h1 : t.kind ≠ .ident
    · rw [if_pos h1]
      exact .keep (not_starts_path fun h => h1 h.1) (fun h => not_starts_mod (fun h => h1 h.1) h.2) (ih r (by omega))
    rw [if_neg h1]
    have hi : t.kind = .ident := Decidable.not_not.1 h1
    by_cases h2 : t.text = str!"mod" ∧ removeMod = true
    · rw [if_pos h2]
      have hnc : ¬ IsIdent (str!"clippy") t := fun h => by
        have := h.2; rw [h2.1] at this; exact absurd this (by decide)
      by_cases h3 : (matchAll [.ident old, .semi] r).ok = true
      · simp only [h3, if_true]
        obtain ⟨w1, o, w2, s, e, hw1, ho, hw2, hs⟩ := matchMod_ok h3
        generalize (matchAll [.ident old, .semi] r).rest = q at e
        subst e
        have hp : ModItem old (t :: (w1 ++ o :: (w2 ++ [s]))) := ⟨t, w1, o, w2, s, rfl, ⟨hi, h2.1⟩, hw1, ho, hw2, hs⟩
        exact .item h2.2 hp (ih (dropNl q) (by rw [dropNl_length]; simp at h; omega))
      · have h3' : (matchAll [.ident old, .semi] r).ok = false := Bool.eq_false_iff.2 h3
        simp only [h3']
        rw [if_neg (by decide), List.append_assoc]
        refine .keep (not_starts_path hnc) (fun h => h3 (starts_mod_match h.2)) ?_
        have := Uplifted.keeps (usedOk [.ident old, .semi] (by simp)) (ih (matchAll [.ident old, .semi] r).rest (Nat.le_trans (lenAll _) (by omega)))
        rwa [matchAll_split] at this
    rw [if_neg h2]
    have hnm : ¬ (removeMod = true ∧ Starts (ModItem old) (t :: r)) := fun h =>
      not_starts_mod (fun h' => h2 ⟨h'.2, h.1⟩) h.2
    by_cases h4 : t.text = str!"clippy"
    · rw [if_pos h4]
      by_cases h3 : (matchAll [.doubleColon, .ident old] r).ok = true
      · simp only [h3, if_true]
        obtain ⟨w1, d1, d2, w2, o, e, hw1, hd1, hd2, hw2, ho⟩ := matchPath_ok h3
        generalize (matchAll [.doubleColon, .ident old] r).rest = q at e
        subst e
        have hp : LintPath old (t :: (w1 ++ d1 :: d2 :: (w2 ++ [o]))) := ⟨t, w1, d1, d2, w2, o, rfl, ⟨hi, h4⟩, hw1, hd1, hd2, hw2, ho⟩
        exact .path hp (ih q (by simp at h; omega))
      · have h3' : (matchAll [.doubleColon, .ident old] r).ok = false := Bool.eq_false_iff.2 h3
        simp only [h3']
        rw [if_neg (by decide), List.append_assoc]
        refine .keep (fun h => h3 (starts_path_match h)) hnm ?_
        have := Uplifted.keeps (usedOk [.doubleColon, .ident old] (by simp))
          (ih (matchAll [.doubleColon, .ident old] r).rest (Nat.le_trans (lenAll _) (by omega)))
        rwa [matchAll_split] at this
    · rw [if_neg h4]
      exact .keep (not_starts_path fun h => h4 h.2) hnm (ih r (by omega))

/-- **C45**, partial. The edit replaces every `clippy::old` by the new name and keeps every other token. Missing: when the module was
removed, `mod old;` is replaced by the new name and not removed (`upliftFile_mod_violation`), so that case is excluded. -/
theorem upliftFile_partial {old new : Str} {removeMod : Bool} {l : List Tok} (hc : old ≠ str!"clippy") (hm : old ≠ str!"mod")
    (hmod : removeMod = false) : Uplifted old new [] removeMod l (upliftFile old new removeMod l) := by
  have key : ∀ {l : List Tok} {out : Str}, Uplifted old new new removeMod l out → Uplifted old new [] removeMod l out := by
    intro l out h
    induction h with
    | nil => exact .nil
    | path hp _ ih => exact .path hp ih
    | item h => rw [hmod] at h; simp at h
    | keep h1 h2 _ ih => exact .keep h1 h2 ih
  exact key (uplift_spec removeMod hc hm l.length l (Nat.le_refl _))

/-- The same with the removal of the module, for files without `mod old;`. -/
theorem upliftFile_no_item_partial {old new : Str} {removeMod : Bool} {l : List Tok} (hc : old ≠ str!"clippy") (hm : old ≠ str!"mod")
    (hitem : ∀ p q r, l = p ++ q ++ r → ¬ ModItem old q) : Uplifted old new [] removeMod l (upliftFile old new removeMod l) := by
  have key : ∀ {l : List Tok} {out : Str}, Uplifted old new new removeMod l out → (∀ p q r, l = p ++ q ++ r → ¬ ModItem old q) →
      Uplifted old new [] removeMod l out := by
    intro l out h
    induction h with
    | nil => exact fun _ => .nil
    | @path p r out hp _ ih =>
      exact fun hh => .path hp (ih fun a b c e => hh (p ++ a) b c (by rw [e]; simp only [List.append_assoc]))
    | item h hp _ _ => exact fun hh => absurd hp (hh [] _ _ rfl)
    | keep h1 h2 _ ih =>
      exact fun hh => .keep h1 h2 (ih fun a b c e => hh (_ :: a) b c (by rw [e]; rfl))
  exact key (uplift_spec removeMod hc hm l.length l (Nat.le_refl _)) hitem

/-- The text of the edit is determined by the specification. -/
theorem Uplifted.unique {old new modText : Str} {removeMod : Bool} {l : List Tok} {out out' : Str}
    (h : Uplifted old new modText removeMod l out) (h' : Uplifted old new modText removeMod l out') : out = out' := by
  have noIdentPath : ∀ {t t' : Tok} {w w' x x' : List Tok}, w ++ t :: x = w' ++ t' :: x' → Blank w → Blank w' → t.kind ≠ .ws → t'.kind ≠ .ws →
      w = w' ∧ t = t' ∧ x = x' := by
    intro t t' w
    induction w with
    | nil =>
      intro w' x x' e hw hw' ht ht'
      cases w' with
      | nil => simp at e; exact ⟨rfl, e⟩
      | cons a w' =>
        simp only [List.nil_append, List.cons_append, List.cons.injEq] at e
        exact absurd (e.1 ▸ hw' a (by simp)) ht
    | cons b w ih =>
      intro w' x x' e hw hw' ht ht'
      cases w' with
      | nil =>
        simp only [List.nil_append, List.cons_append, List.cons.injEq] at e
        exact absurd (e.1 ▸ hw b (by simp)) ht'
      | cons a w' =>
        simp only [List.cons_append, List.cons.injEq] at e
        obtain ⟨r1, r2, r3⟩ := ih e.2 (fun y hy => hw y (List.mem_cons_of_mem _ hy)) (fun y hy => hw' y (List.mem_cons_of_mem _ hy)) ht ht'
        exact ⟨by rw [e.1, r1], r2, r3⟩
  induction h generalizing out' with
  | nil =>
    generalize hl : ([] : List Tok) = l at h'
    cases h' with
    | nil => rfl
    | path hp _ => obtain ⟨c, w1, d1, d2, w2, o, rfl, _⟩ := hp; simp at hl
    | item _ hp _ => obtain ⟨c, w1, o, w2, s, rfl, _⟩ := hp; simp at hl
    | keep => simp at hl
  | @path p r out hp _ ih =>
    generalize hl : p ++ r = l at h'
    cases h' with
    | nil => obtain ⟨c, w1, d1, d2, w2, o, rfl, _⟩ := hp; simp at hl
    | path hp' hr' =>
      obtain ⟨c, w1, d1, d2, w2, o, rfl, hc, hw1, h1, h2, hw2, ho⟩ := hp
      obtain ⟨c', w1', d1', d2', w2', o', rfl, hc', hw1', h1', h2', hw2', ho'⟩ := hp'
      simp only [List.cons_append, List.append_assoc, List.cons.injEq] at hl
      obtain ⟨-, -, e⟩ := noIdentPath hl.2 hw1 hw1' (by rw [h1]; decide) (by rw [h1']; decide)
      simp only [List.cons.injEq] at e
      obtain ⟨-, -, e⟩ := noIdentPath e.2 hw2 hw2' (by rw [ho.1]; decide) (by rw [ho'.1]; decide)
      simp only [List.nil_append] at e
      subst e
      rw [ih hr']
    | item _ hp' _ =>
      obtain ⟨c, w1, d1, d2, w2, o, rfl, hc, _⟩ := hp
      obtain ⟨c', w1', o', w2', s', rfl, hc', _⟩ := hp'
      simp only [List.cons_append, List.cons.injEq] at hl
      exact absurd ((hl.1 ▸ hc.2).symm.trans hc'.2) (by decide)
    | keep hn _ _ => exact absurd ⟨p, r, hl.symm, hp⟩ hn
  | @item p r out hrm hp _ ih =>
    generalize hl : p ++ r = l at h'
    cases h' with
    | nil => obtain ⟨c, w1, o, w2, s, rfl, _⟩ := hp; simp at hl
    | path hp' _ =>
      obtain ⟨c, w1, d1, d2, w2, o, rfl, hc, _⟩ := hp'
      obtain ⟨c', w1', o', w2', s', rfl, hc', _⟩ := hp
      simp only [List.cons_append, List.cons.injEq] at hl
      exact absurd ((hl.1 ▸ hc'.2).symm.trans hc.2) (by decide)
    | item _ hp' hr' =>
      obtain ⟨c, w1, o, w2, s, rfl, hc, hw1, ho, hw2, hs⟩ := hp
      obtain ⟨c', w1', o', w2', s', rfl, hc', hw1', ho', hw2', hs'⟩ := hp'
      simp only [List.cons_append, List.append_assoc, List.cons.injEq] at hl
      obtain ⟨-, -, e⟩ := noIdentPath hl.2 hw1 hw1' (by rw [ho.1]; decide) (by rw [ho'.1]; decide)
      obtain ⟨-, -, e⟩ := noIdentPath e hw2 hw2' (by rw [hs]; decide) (by rw [hs']; decide)
      simp only [List.nil_append] at e
      subst e
      rw [ih hr']
    | keep _ hn _ => exact absurd ⟨hrm, p, r, hl.symm, hp⟩ hn
  | @keep t r out hn hn2 _ ih =>
    generalize hl : t :: r = l at h'
    cases h' with
    | nil => simp at hl
    | path hp' _ => exact absurd ⟨_, _, hl, hp'⟩ hn
    | item hrm hp' _ => exact absurd ⟨hrm, _, _, hl, hp'⟩ hn2
    | keep _ _ hr' =>
      simp only [List.cons.injEq] at hl
      obtain ⟨e1, e2⟩ := hl
      subst e2
      rw [e1, ih hr']

/-- A test file: `#![allow(clippy::old)]`. -/
def exToks : List Tok :=
  [⟨.other, str!"#"⟩, ⟨.other, str!"!"⟩, ⟨.other, str!"["⟩, ⟨.ident, str!"allow"⟩, ⟨.other, str!"("⟩, ⟨.ident, str!"clippy"⟩,
    ⟨.colon, str!":"⟩, ⟨.colon, str!":"⟩, ⟨.ident, str!"old"⟩, ⟨.other, str!")"⟩, ⟨.other, str!"]"⟩]

/-- The attribute is edited. -/
example : upliftFile (str!"old") (str!"new") false exToks = str!"#![allow(new)]" := by decide +kernel

/-- A path of another lint isn't. -/
example : upliftFile (str!"other") (str!"new") false exToks = srcText exToks := by decide +kernel

/-- **C45**, violation: when the module of the lint is deleted, its `mod old;` item is replaced by the new name, which isn't an item,
instead of being removed. -/
theorem upliftFile_mod_violation : ∃ (l : List Tok) (out : Str), srcText l = str!"mod old;\nmod x;" ∧
    Uplifted (str!"old") (str!"new") [] true l out ∧ out = str!"mod x;" ∧ upliftFile (str!"old") (str!"new") true l = str!"newmod x;" := by
  have hk : ∀ {t : Tok} {r : List Tok} {out : Str}, ¬ IsIdent (str!"clippy") t → ¬ Starts (ModItem (str!"old")) (t :: r) →
      Uplifted (str!"old") (str!"new") [] true r out → Uplifted (str!"old") (str!"new") [] true (t :: r) (t.text ++ out) :=
    fun h1 h2 h => .keep (not_starts_path h1) (fun h => h2 h.2) h
  refine ⟨[⟨.ident, str!"mod"⟩, ⟨.ws, str!" "⟩, ⟨.ident, str!"old"⟩, ⟨.semi, str!";"⟩, ⟨.ws, str!"\n"⟩, ⟨.ident, str!"mod"⟩, ⟨.ws, str!" "⟩,
    ⟨.ident, str!"x"⟩, ⟨.semi, str!";"⟩], _, rfl, ?_, rfl, by decide +kernel⟩
  refine .item (p := [⟨.ident, str!"mod"⟩, ⟨.ws, str!" "⟩, ⟨.ident, str!"old"⟩, ⟨.semi, str!";"⟩])
    (r := [⟨.ws, str!"\n"⟩, ⟨.ident, str!"mod"⟩, ⟨.ws, str!" "⟩, ⟨.ident, str!"x"⟩, ⟨.semi, str!";"⟩]) rfl
    ⟨_, [⟨.ws, str!" "⟩], _, [], _, rfl, ⟨rfl, rfl⟩, by simp [Blank], ⟨rfl, rfl⟩, by simp [Blank], rfl⟩ ?_
  refine hk (t := ⟨.ws, []⟩) (by simp [IsIdent]) (not_starts_mod (by simp [IsIdent])) ?_
  refine hk (t := ⟨.ident, str!"mod"⟩) (by simp [IsIdent]) (fun h => ?_) ?_
  · exact absurd (starts_mod_match h) (by decide +kernel)
  refine hk (t := ⟨.ws, str!" "⟩) (by simp [IsIdent]) (not_starts_mod (by simp [IsIdent])) ?_
  refine hk (t := ⟨.ident, str!"x"⟩) (by simp [IsIdent]) (not_starts_mod (by simp [IsIdent])) ?_
  exact hk (t := ⟨.semi, str!";"⟩) (by simp [IsIdent]) (not_starts_mod (by simp [IsIdent])) .nil

end Verif.Dev
