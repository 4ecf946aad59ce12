import Verif.Dev.UpliftProps

/-!
# C44: renaming a lint edits exactly the places which name it
-/

namespace Verif.Dev

/-! ## Specification -/

/-- The new text of a token is its old text, or the token is one of the forms of the old name and the new text is the same form of the
new name. -/
inductive Renamed (N : Names) (t : Tok) : Str → Prop
  | same : Renamed N t t.text
  | name : IsIdent N.old t → Renamed N t N.new
  | upper : IsIdent N.oldUpper t → Renamed N t N.newUpper
  | pascal : IsIdent N.oldPascal t → Renamed N t N.newPascal
  | comment {pre : Str} : t.kind = .comment → (str!"//~") <+: t.text → t.text = pre ++ N.old → Renamed N t (pre ++ N.new)

/-- Token by token. -/
inductive Each (R : Tok → Str → Prop) : List Tok → List Str → Prop
  | nil : Each R [] []
  | cons {t o ts os} : R t o → Each R ts os → Each R (t :: ts) (o :: os)

/-- The last token which isn't white space is a colon. -/
def PrevColon (a : List Tok) : Prop := ∃ a' d w, a = a' ++ d :: w ∧ d.kind = .colon ∧ Blank w

/-- The last token is an identifier. -/
def AfterIdent (a : List Tok) : Prop := ∃ a' d, a = a' ++ [d] ∧ d.kind = .ident

/-- The last token which isn't white space is `mod`. -/
def AfterMod (a : List Tok) : Prop := ∃ a' m w, a = a' ++ m :: w ∧ IsIdent (str!"mod") m ∧ Blank w

/-! ## Only these places -/

theorem Each.length {R : Tok → Str → Prop} {l : List Tok} {o : List Str} (h : Each R l o) : o.length = l.length := by
  induction h with
  | nil => rfl
  | cons _ _ ih => simp [ih]

theorem Each.append {R : Tok → Str → Prop} {l l' : List Tok} {o o' : List Str} (h : Each R l o) (h' : Each R l' o') :
    Each R (l ++ l') (o ++ o') := by
  induction h with
  | nil => exact h'
  | cons h1 _ ih => exact .cons h1 ih

theorem Each.same {N : Names} : ∀ l : List Tok, Each (Renamed N) l (texts l)
  | [] => .nil
  | t :: l => .cons .same (Each.same l)

theorem stripSuffix?_some {suf s pre : Str} (h : stripSuffix? suf s = some pre) : s = pre ++ suf := by
  unfold stripSuffix? at h
  cases hr : Text.stripPrefix? suf.reverse s.reverse with
  | none => simp [hr] at h
  | some x =>
    simp only [hr, Option.map_some, Option.some.injEq] at h
    have key : ∀ (p q r : Str), Text.stripPrefix? p q = some r → q = p ++ r := by
      intro p
      induction p with
      | nil => intro q r h; simp only [Text.stripPrefix?, Option.some.injEq] at h; simp [h]
      | cons c p ih =>
        intro q r h
        cases q with
        | nil => simp [Text.stripPrefix?] at h
        | cons d q =>
          simp only [Text.stripPrefix?] at h
          split at h
          · next e => rw [e, ih q r h]; rfl
          · simp at h
    have := congrArg List.reverse (key _ _ _ hr)
    simp only [List.reverse_reverse, List.reverse_append] at this
    rw [this, h]

theorem renameComment_spec (N : Names) {t : Tok} (ht : t.kind = .comment) : Renamed N t (renameComment N.old N.new t.text) := by
  unfold renameComment
  split
  · next pre h =>
    split at h
    · next hp =>
      split
      · exact .comment ht (List.isPrefixOf_iff_prefix.1 hp) (stripSuffix?_some h)
      · exact .same
    · simp at h
  · exact .same

/-- The two outcomes of matching `::ident`. -/
theorem matchPath2_cases (l : List Tok) :
    ((matchAll [.doubleColon, .captureIdent] l).ok = true ∧ ∃ w1 d1 d2 w2 o,
        (matchAll [.doubleColon, .captureIdent] l).used = w1 ++ d1 :: d2 :: (w2 ++ [o]) ∧ Blank w1 ∧ d1.kind = .colon ∧ d2.kind = .colon ∧
        Blank w2 ∧ o.kind = .ident) ∨
    ((matchAll [.doubleColon, .captureIdent] l).ok = false ∧
      (∀ x ∈ (matchAll [.doubleColon, .captureIdent] l).used, x.kind = .ws ∨ x.kind = .colon) ∧
      (∀ t r, l = t :: r → t.kind = .colon → PrevColon (matchAll [.doubleColon, .captureIdent] l).used)) := by
  by_cases h1 : (matchPat .doubleColon l).ok = true
  · obtain ⟨w, d1, d2, r, rfl, hw, hd1, hd2⟩ := (matchColons_iff l).1 h1
    rw [matchAll, if_pos h1, matchColons_eq hw hd1 hd2]
    simp only [matchAll]
    by_cases h2 : (matchPat .captureIdent r).ok = true
    · obtain ⟨w', o, r', rfl, hw', ho⟩ := (matchCapture_iff r).1 h2
      left
      rw [matchCapture_eq hw' ho]
      exact ⟨rfl, w, d1, d2, w', o, by simp, hw, hd1, hd2, hw', ho⟩
    · right
      rw [if_neg h2]
      have hb : Blank (matchPat .captureIdent r).used := by
        obtain ⟨w', q, e, hw', hr⟩ := blank_decomp r
        rw [e, matchPat_blank _ _ hw'] at h2 ⊢
        rcases hr with rfl | ⟨x, q', rfl, hx⟩
        · simpa [matchPat, matchTok] using hw'
        · rw [matchPat_tok _ _ hx] at h2 ⊢
          by_cases hk : x.kind = .ident
          · simp [matchTok, hk] at h2
          · simpa [matchTok, hk] using hw'
      refine ⟨Bool.eq_false_iff.2 h2, ?_, ?_⟩
      · intro x hx
        simp only [List.mem_append, List.mem_cons, List.not_mem_nil, or_false] at hx
        rcases hx with (hx | hx | hx) | hx
        · exact .inl (hw x hx)
        · rw [hx]; exact .inr hd1
        · rw [hx]; exact .inr hd2
        · exact .inl (hb x hx)
      · exact fun _ _ _ _ => ⟨w ++ [d1], d2, (matchPat .captureIdent r).used, by simp, hd2, hb⟩
  · right
    rw [matchAll, if_neg h1]
    refine ⟨Bool.eq_false_iff.2 h1, ?_, ?_⟩
    · intro x hx
      obtain ⟨w, q, e, hw, hr⟩ := blank_decomp l
      rw [e, matchPat_blank _ _ hw] at hx
      simp only [List.mem_append] at hx
      rcases hx with hx | hx
      · exact .inl (hw x hx)
      · rcases matchPat_used .doubleColon q x hx with h | h | h | ⟨h, _⟩ | ⟨_, h, _⟩
        · exact .inl h
        · exact .inr h
        · rcases hr with rfl | ⟨y, q', rfl, hy⟩
          · simp [matchPat, matchTok] at hx
          · rw [matchPat_tok _ _ hy] at hx
            simp only [matchTok] at hx
            repeat' split at hx
            all_goals simp at hx
            all_goals first
              | (rw [hx]; right; assumption)
              | (rcases hx with hx | hx <;> rw [hx] <;> right <;> assumption)
        · simp at h
        · simp at h
    · rintro t r rfl ht
      rw [matchPat_tok _ _ (by rw [ht]; decide)] at h1 ⊢
      cases r with
      | nil => simp only [matchTok, ht, if_true]; exact ⟨[], t, [], rfl, ht, fun _ h => by simp at h⟩
      | cons t' r' =>
        by_cases h' : t'.kind = .colon
        · simp [matchTok, ht, h'] at h1
        · simp only [matchTok, ht, if_true, if_neg h']; exact ⟨[], t, [], rfl, ht, fun _ h => by simp at h⟩

theorem replaceLast_spec {N : Names} {m : Match} (h : ∀ o ∈ m.used.getLast?, m.ok = true → o.kind = .ident) :
    Each (Renamed N) m.used (replaceLast N m) := by
  unfold replaceLast
  split
  · next hc =>
    obtain ⟨hok, hl⟩ := hc
    cases hu : m.used.getLast? with
    | none => simp [hu] at hl
    | some o =>
      simp only [hu, Option.map_some, Option.some.injEq] at hl
      have hk := h o (by simp [hu]) hok
      have e : m.used = m.used.dropLast ++ [o] := by
        have hne : m.used ≠ [] := by intro h0; simp [h0] at hu
        rw [List.getLast?_eq_some_getLast hne, Option.some.injEq] at hu
        rw [← hu, List.dropLast_concat_getLast]
      have : Each (Renamed N) (m.used.dropLast ++ [o]) (texts m.used.dropLast ++ [N.new]) :=
        (Each.same _).append (.cons (.name ⟨hk, hl⟩) .nil)
      rwa [← e] at this
  · exact Each.same _

theorem matchIdent_last {s : Str} {l : List Tok} (o : Tok) (ho : o ∈ (matchPat (.ident s) l).used.getLast?)
    (hok : (matchPat (.ident s) l).ok = true) : o.kind = .ident := by
  obtain ⟨w, t, r, rfl, hw, ht⟩ := (matchIdent_iff s l).1 hok
  rw [matchIdent_eq hw ht] at ho
  simp at ho
  rw [← ho]; exact ht.1

theorem matchPath2_last {l : List Tok} (o : Tok) (ho : o ∈ (matchAll [.doubleColon, .captureIdent] l).used.getLast?)
    (hok : (matchAll [.doubleColon, .captureIdent] l).ok = true) : o.kind = .ident := by
  rcases matchPath2_cases l with ⟨_, w1, d1, d2, w2, x, e, _, _, _, _, hx⟩ | ⟨h, _⟩
  · rw [e] at ho
    have : o = x := by
      simp [List.getLast?_append, List.getLast?_cons] at ho
      exact ho.symm
    rw [this]; exact hx
  · rw [h] at hok; simp at hok

/-- What one turn of the loop consumes: at least one token; the new texts belong to these tokens; and an identifier or a comment which
isn't the first of them comes after a colon, directly after an identifier, or is the old name after `mod`. -/
theorem renameStep_spec (N : Names) (rm : Bool) (t : Tok) (r : List Tok) :
    ∃ u, t :: r = (t :: u) ++ (renameStep N rm t r).2 ∧ Each (Renamed N) (t :: u) (renameStep N rm t r).1 ∧
      ∀ a x b, u = a ++ x :: b → x.kind = .ident ∨ x.kind = .comment →
        PrevColon (t :: a) ∨ AfterIdent (t :: a) ∨ (x.text = N.old ∧ AfterMod (t :: a)) := by
  have single : ∀ (o : Str), Renamed N t o → renameStep N rm t r = ([o], r) →
      ∃ u, t :: r = (t :: u) ++ (renameStep N rm t r).2 ∧ Each (Renamed N) (t :: u) (renameStep N rm t r).1 ∧
      ∀ a x b, u = a ++ x :: b → x.kind = .ident ∨ x.kind = .comment →
        PrevColon (t :: a) ∨ AfterIdent (t :: a) ∨ (x.text = N.old ∧ AfterMod (t :: a)) := by
    intro o ho e
    exact ⟨[], by rw [e]; rfl, by rw [e]; exact .cons ho .nil, fun a x b h => by simp at h⟩
  cases hk : t.kind with
  | other => exact single _ .same (by simp [renameStep, hk])
  | ws => exact single _ .same (by simp [renameStep, hk])
  | semi => exact single _ .same (by simp [renameStep, hk])
  | comment => exact single _ (renameComment_spec N hk) (by simp [renameStep, hk])
  | colon =>
    have hc := matchPath2_cases (t :: r)
    have hs := matchAll_split [.doubleColon, .captureIdent] (t :: r)
    have hlast := matchPath2_last (l := t :: r)
    generalize hm : matchAll [.doubleColon, .captureIdent] (t :: r) = m at hc hs hlast
    obtain ⟨u, hu⟩ : ∃ u, m.used = t :: u := by
      rcases hc with ⟨_, w1, d1, d2, w2, o, e, hw1, _⟩ | ⟨_, _, h⟩
      · rw [e] at hs ⊢
        cases w1 with
        | nil => simp only [List.nil_append, List.cons_append, List.cons.injEq] at hs; exact ⟨_, by rw [List.nil_append, hs.1]⟩
        | cons y w1 =>
          simp only [List.cons_append, List.cons.injEq] at hs
          have := hw1 y (by simp)
          rw [hs.1, hk] at this; simp at this
      · obtain ⟨a', d, w, e, _⟩ := h t r rfl hk
        rw [e] at hs ⊢
        cases a' with
        | nil => simp only [List.nil_append, List.cons_append, List.cons.injEq] at hs; exact ⟨_, by rw [List.nil_append, hs.1]⟩
        | cons y a' =>
          simp only [List.cons_append, List.cons.injEq] at hs; exact ⟨_, by rw [List.cons_append, hs.1]⟩
    have inner : ∀ a x b, u = a ++ x :: b → x.kind = .ident ∨ x.kind = .comment → PrevColon (t :: a) := by
      intro a x b e hx
      rcases hc with ⟨_, w1, d1, d2, w2, o, e', hw1, hd1, hd2, hw2, ho⟩ | ⟨_, hn, _⟩
      · rw [hu, e] at e'
        -- the identifier is the last token
        have e2 : (t :: a) ++ x :: b = (w1 ++ d1 :: d2 :: w2) ++ o :: [] := by simpa using e'
        have hxn : x ∉ w1 ++ d1 :: d2 :: w2 := by
          intro hmem
          simp only [List.mem_append, List.mem_cons] at hmem
          rcases hmem with h | h | h | h
          · have := hw1 x h; rcases hx with hx | hx <;> rw [hx] at this <;> simp at this
          · rw [h, hd1] at hx; simp at hx
          · rw [h, hd2] at hx; simp at hx
          · have := hw2 x h; rcases hx with hx | hx <;> rw [hx] at this <;> simp at this
        rcases List.append_eq_append_iff.1 e2 with ⟨c, h1, h2⟩ | ⟨c, h1, h2⟩
        · cases c with
          | nil =>
            simp only [List.append_nil] at h1
            exact ⟨w1 ++ [d1], d2, w2, by rw [← h1]; simp, hd2, hw2⟩
          | cons y c =>
            simp only [List.cons_append, List.cons.injEq] at h2
            rw [h1, ← h2.1] at hxn
            simp at hxn
        · cases c with
          | nil =>
            simp only [List.append_nil] at h1
            exact ⟨w1 ++ [d1], d2, w2, by rw [h1]; simp, hd2, hw2⟩
          | cons y c => simp at h2
      · have := hn x (by rw [hu, e]; simp)
        rcases this with h | h <;> rw [h] at hx <;> simp at hx
    by_cases hyes : m.ok = true ∧ (m.used.getLast?.map Tok.text) = some N.old
    · have e : renameStep N rm t r = (replaceLast N m, m.rest) := by
        simp only [renameStep, hk, hm]; rw [if_pos hyes]
      refine ⟨u, by rw [e, ← hu]; exact hs.symm, ?_, fun a x b h hx => .inl (inner a x b h hx)⟩
      rw [e, ← hu]
      exact replaceLast_spec hlast
    · have e : renameStep N rm t r = (texts m.used ++ texts (m.rest.take 1), m.rest.drop 1) := by
        simp only [renameStep, hk, hm]; rw [if_neg hyes]
      have e1 : t :: (u ++ m.rest.take 1) = m.used ++ m.rest.take 1 := by rw [hu]; rfl
      refine ⟨u ++ m.rest.take 1, ?_, ?_, ?_⟩
      · rw [e, e1, List.append_assoc, List.take_append_drop, hs]
      · rw [e, e1]
        exact (Each.same _).append (Each.same _)
      · intro a x b h hx
        have hend : PrevColon m.used ∨ AfterIdent m.used := by
          rcases hc with ⟨_, w1, d1, d2, w2, o, e', hw1, hd1, hd2, hw2, ho⟩ | ⟨_, _, h⟩
          · exact .inr ⟨w1 ++ d1 :: d2 :: w2, o, by rw [e']; simp, ho⟩
          · exact .inl (h t r rfl hk)
        rcases List.append_eq_append_iff.1 h with ⟨c, h1, h2⟩ | ⟨c, h1, h2⟩
        · -- in the extra token
          have hc' : c = [] := by
            cases hrest : m.rest with
            | nil => simp [hrest] at h2
            | cons y ys =>
              simp only [hrest, List.take_succ_cons, List.take_zero] at h2
              cases c with
              | nil => rfl
              | cons z c => simp at h2
          rw [hc', List.append_nil] at h1
          rw [h1, ← hu]
          rcases hend with h | h
          · exact .inl h
          · exact .inr (.inl h)
        · cases c with
          | nil =>
            simp only [List.append_nil] at h1
            rw [← h1, ← hu]
            rcases hend with h | h
            · exact .inl h
            · exact .inr (.inl h)
          | cons y c =>
            simp only [List.cons_append, List.cons.injEq] at h2
            obtain ⟨rfl, _⟩ := h2
            exact .inl (inner a x c h1 hx)
  | ident =>
    by_cases h1 : t.text = str!"clippy"
    · have hc := matchPath2_cases r
      have hs := matchAll_split [.doubleColon, .captureIdent] r
      have hlast := matchPath2_last (l := r)
      generalize hm : matchAll [.doubleColon, .captureIdent] r = m at hc hs hlast
      have e : renameStep N rm t r = (t.text :: replaceLast N m, m.rest) := by
        simp only [renameStep, hk, hm]; rw [if_pos h1]
      refine ⟨m.used, by rw [e, List.cons_append, hs], by rw [e]; exact .cons .same (replaceLast_spec hlast), ?_⟩
      intro a x b h hx
      rcases hc with ⟨_, w1, d1, d2, w2, o, e', hw1, hd1, hd2, hw2, ho⟩ | ⟨_, hn, _⟩
      · rw [h] at e'
        have e2 : a ++ x :: b = (w1 ++ d1 :: d2 :: w2) ++ o :: [] := by simpa using e'
        have hxn : x ∉ w1 ++ d1 :: d2 :: w2 := by
          intro hmem
          simp only [List.mem_append, List.mem_cons] at hmem
          rcases hmem with h | h | h | h
          · have := hw1 x h; rcases hx with hx | hx <;> rw [hx] at this <;> simp at this
          · rw [h, hd1] at hx; simp at hx
          · rw [h, hd2] at hx; simp at hx
          · have := hw2 x h; rcases hx with hx | hx <;> rw [hx] at this <;> simp at this
        rcases List.append_eq_append_iff.1 e2 with ⟨c, h1, h2⟩ | ⟨c, h1, h2⟩
        · cases c with
          | nil =>
            simp only [List.append_nil] at h1
            exact .inl ⟨t :: (w1 ++ [d1]), d2, w2, by rw [← h1]; simp, hd2, hw2⟩
          | cons y c =>
            simp only [List.cons_append, List.cons.injEq] at h2
            rw [h1, ← h2.1] at hxn
            simp at hxn
        · cases c with
          | nil =>
            simp only [List.append_nil] at h1
            exact .inl ⟨t :: (w1 ++ [d1]), d2, w2, by rw [h1]; simp, hd2, hw2⟩
          | cons y c => simp at h2
      · have := hn x (by rw [h]; simp)
        rcases this with h | h <;> rw [h] at hx <;> simp at hx
    by_cases h2 : t.text = str!"mod"
    · cases rm with
      | false => exact single _ .same (by simp only [renameStep, hk]; rw [if_neg h1, if_pos h2]; rfl)
      | true =>
        have hs := matchPat_split (.ident N.old) r
        have hlast := matchIdent_last (s := N.old) (l := r)
        have hused := matchPat_used (.ident N.old) r
        have hok := matchIdent_iff N.old r
        by_cases hy : (matchPat (.ident N.old) r).ok = true
        · obtain ⟨w, o, r', rfl, hw, ho⟩ := hok.1 hy
          have e : renameStep N true t (w ++ o :: r') = (t.text :: replaceLast N ⟨w ++ [o], true, r'⟩, r') := by
            simp only [renameStep, hk, matchIdent_eq hw ho]; rw [if_neg h1, if_pos h2]; rfl
          rw [matchIdent_eq hw ho] at hlast
          refine ⟨w ++ [o], by rw [e]; simp, by rw [e]; exact .cons .same (replaceLast_spec (m := ⟨w ++ [o], true, r'⟩) hlast), ?_⟩
          intro a x b h hx
          have e2 : w ++ o :: [] = a ++ x :: b := h
          have hxn : x ∉ w := fun hmem => by
            have := hw x hmem; rcases hx with hx | hx <;> rw [hx] at this <;> simp at this
          rcases List.append_eq_append_iff.1 e2 with ⟨c, h1, h3⟩ | ⟨c, h1, h3⟩
          · cases c with
            | nil =>
              simp only [List.append_nil] at h1
              simp only [List.nil_append, List.cons.injEq] at h3
              exact .inr (.inr ⟨by rw [← h3.1]; exact ho.2, [], t, w, by rw [h1]; rfl, ⟨hk, h2⟩, hw⟩)
            | cons y c => simp at h3
          · cases c with
            | nil =>
              simp only [List.append_nil] at h1
              simp only [List.nil_append, List.cons.injEq] at h3
              exact .inr (.inr ⟨by rw [h3.1]; exact ho.2, [], t, w, by rw [h1]; rfl, ⟨hk, h2⟩, hw⟩)
            | cons y c =>
              simp only [List.cons_append, List.cons.injEq] at h3
              rw [h1, h3.1] at hxn
              simp at hxn
        · have hy' : (matchPat (.ident N.old) r).ok = false := Bool.eq_false_iff.2 hy
          have hb : Blank (matchPat (.ident N.old) r).used := by
            obtain ⟨w', q, e, hw', hr⟩ := blank_decomp r
            rw [e, matchPat_blank _ _ hw'] at hy ⊢
            rcases hr with rfl | ⟨x, q', rfl, hx⟩
            · simpa [matchPat, matchTok] using hw'
            · rw [matchPat_tok _ _ hx] at hy ⊢
              by_cases hk : x.kind = .ident ∧ x.text = N.old
              · simp [matchTok, hk] at hy
              · simpa [matchTok, hk] using hw'
          have e : renameStep N true t r = (t.text :: replaceLast N (matchPat (.ident N.old) r), (matchPat (.ident N.old) r).rest) := by
            simp only [renameStep, hk]; rw [if_neg h1, if_pos h2]; rfl
          refine ⟨(matchPat (.ident N.old) r).used, by rw [e, List.cons_append, hs],
            by rw [e]; exact .cons .same (replaceLast_spec hlast), ?_⟩
          intro a x b h hx
          have := hb x (by rw [h]; simp)
          rw [this] at hx; simp at hx
    by_cases h3 : rm = true ∧ t.text = N.old
    · have hs := matchPat_split .doubleColon r
      have hused := matchPat_used .doubleColon r
      have e : renameStep N rm t r = ((if (matchPat .doubleColon r).ok then N.new else t.text) :: texts (matchPat .doubleColon r).used,
          (matchPat .doubleColon r).rest) := by
        simp only [renameStep, hk]; rw [if_neg h1, if_neg h2, if_pos h3]
      refine ⟨(matchPat .doubleColon r).used, by rw [e, List.cons_append, hs], ?_, ?_⟩
      · rw [e]
        refine .cons ?_ (Each.same _)
        split
        · exact .name ⟨hk, h3.2⟩
        · exact .same
      · intro a x b h hx
        rcases hused x (by rw [h]; simp) with h | h | h | ⟨h, _⟩ | ⟨_, h, _⟩
        · rw [h] at hx; simp at hx
        · rw [h] at hx; simp at hx
        · rw [h] at hx; simp at hx
        · simp at h
        · simp at h
    by_cases h4 : t.text = N.oldUpper
    · exact single _ (.upper ⟨hk, h4⟩) (by simp only [renameStep, hk]; rw [if_neg h1, if_neg h2, if_neg h3, if_pos h4])
    by_cases h5 : t.text = N.oldPascal
    · exact single _ (.pascal ⟨hk, h5⟩) (by simp only [renameStep, hk]; rw [if_neg h1, if_neg h2, if_neg h3, if_neg h4, if_pos h5])
    exact single _ .same (by simp only [renameStep, hk]; rw [if_neg h1, if_neg h2, if_neg h3, if_neg h4, if_neg h5])

theorem renameGo_each (N : Names) (rm : Bool) : ∀ (n : Nat) (l : List Tok), Each (Renamed N) l (renameGo N rm n l)
  | 0, l => Each.same l
  | n + 1, [] => .nil
  | n + 1, t :: r => by
    obtain ⟨u, e, h, _⟩ := renameStep_spec N rm t r
    have : Each (Renamed N) ((t :: u) ++ (renameStep N rm t r).2) ((renameStep N rm t r).1 ++ renameGo N rm n (renameStep N rm t r).2) :=
      h.append (renameGo_each N rm n _)
    rw [← e] at this
    exact this

/-- **C44**, partial, first half: the edit changes nothing but tokens which are a form of the old name, and these only to the same form
of the new name. Missing: every path `x::old` is changed, even if it has nothing to do with the lint (`renameFile_path_violation`). -/
theorem renameFile_only_partial (old new : Str) (renameMod : Bool) (l : List Tok) :
    ∃ os : List Str, Each (Renamed (Names.of old new)) l os ∧ renameFile old new renameMod l = os.flatten :=
  ⟨_, renameGo_each _ _ _ _, rfl⟩

/-! ## All these places -/

theorem PrevColon.suffix {a b : List Tok} (h : PrevColon b) : PrevColon (a ++ b) := by
  obtain ⟨a', d, w, rfl, h1, h2⟩ := h
  exact ⟨a ++ a', d, w, by simp, h1, h2⟩

theorem AfterIdent.suffix {a b : List Tok} (h : AfterIdent b) : AfterIdent (a ++ b) := by
  obtain ⟨a', d, rfl, h1⟩ := h
  exact ⟨a ++ a', d, by simp, h1⟩

theorem AfterMod.suffix {a b : List Tok} (h : AfterMod b) : AfterMod (a ++ b) := by
  obtain ⟨a', m, w, rfl, h1, h2⟩ := h
  exact ⟨a ++ a', m, w, by simp, h1, h2⟩

/-- The loop reaches every identifier and every comment which doesn't come after a colon or directly after an identifier. -/
theorem renameGo_reach (N : Names) (rm : Bool) {t : Tok} {b : List Tok} (ht : t.kind = .ident ∨ t.kind = .comment) :
    ∀ (n : Nat) (a : List Tok), (a ++ t :: b).length ≤ n → ¬ PrevColon a → ¬ AfterIdent a → (t.text ≠ N.old ∨ ¬ AfterMod a) →
    ∃ (os : List Str) (n' : Nat), renameGo N rm n (a ++ t :: b) = os ++ renameGo N rm n' (t :: b) ∧ os.length = a.length ∧ (t :: b).length ≤ n'
  | 0, a, hn, _, _, _ => by simp at hn
  | n + 1, [], hn, _, _, _ => ⟨[], n + 1, rfl, rfl, by simpa using hn⟩
  | n + 1, x :: a, hn, h1, h2, h3 => by
    obtain ⟨u, e, he, hin⟩ := renameStep_spec N rm x (a ++ t :: b)
    have e' : a ++ t :: b = u ++ (renameStep N rm x (a ++ t :: b)).2 := by simpa using e
    have go : renameGo N rm (n + 1) (x :: a ++ t :: b) =
        (renameStep N rm x (a ++ t :: b)).1 ++ renameGo N rm n (renameStep N rm x (a ++ t :: b)).2 := rfl
    have hlen := he.length
    generalize (renameStep N rm x (a ++ t :: b)).1 = o at *
    generalize (renameStep N rm x (a ++ t :: b)).2 = q at *
    have inside : ∀ c, u ≠ a ++ t :: c := by
      intro c hc
      rcases hin a t c hc ht with h | h | ⟨h, h'⟩
      · exact h1 h
      · exact h2 h
      · rcases h3 with h3 | h3
        · exact h3 h
        · exact h3 h'
    rcases List.append_eq_append_iff.1 e' with ⟨c, hc1, hc2⟩ | ⟨c, hc1, hc2⟩
    · -- `u = a ++ c`
      cases c with
      | nil =>
        simp only [List.nil_append] at hc2
        rw [go, ← hc2]
        refine ⟨o, n, rfl, by simp [hlen, hc1], ?_⟩
        simp at hn ⊢; omega
      | cons y c =>
        simp only [List.cons_append, List.cons.injEq] at hc2
        exact absurd (by rw [hc1, hc2.1]) (inside c)
    · -- `a = u ++ c`
      subst hc1
      have hsuf : ∀ {P : List Tok → Prop}, (∀ {a b}, P b → P (a ++ b)) → ¬ P (x :: (u ++ c)) → ¬ P c := fun hs hp hc => by
        have := hs (a := x :: u) hc
        exact hp this
      obtain ⟨os, n', r1, r2, r3⟩ := renameGo_reach N rm ht n c (b := b) (by simp at hn ⊢; omega) (hsuf PrevColon.suffix h1)
        (hsuf AfterIdent.suffix h2) (h3.imp id fun h => hsuf AfterMod.suffix h)
      refine ⟨o ++ os, n', ?_, ?_, r3⟩
      · rw [go, hc2, r1, List.append_assoc]
      · simp [hlen, r2]; omega

theorem Char.toUpper_not_lower {c : Char} (h : c.isLower = true) : c.toUpper.isLower = false := by
  have hb : 97 ≤ c.toNat ∧ c.toNat ≤ 122 := by
    simp only [Char.isLower, Bool.and_eq_true, decide_eq_true_eq] at h
    exact ⟨h.1, h.2⟩
  have hall : ∀ k : Fin 123, 97 ≤ k.val → (Char.ofNat k.val).toUpper.isLower = false := by decide
  have := hall ⟨c.toNat, by omega⟩ hb.1
  simpa [Char.ofNat_toNat] using this

/-- The name of a lint starts with a lower case letter. -/
def LintName (s : Str) : Prop := ∃ c r, s = c :: r ∧ c.isLower = true

theorem asciiUpper_ne {s k : Str} (h : LintName s) (hk : LintName k) : asciiUpper s ≠ k := by
  obtain ⟨c, r, rfl, hc⟩ := h
  obtain ⟨d, r', rfl, hd⟩ := hk
  intro e
  simp only [asciiUpper, List.map_cons, List.cons.injEq] at e
  rw [← e.1, Char.toUpper_not_lower hc] at hd
  simp at hd

theorem snakeToPascal_ne {s k : Str} (h : LintName s) (hk : LintName k) : snakeToPascal s ≠ k := by
  obtain ⟨c, r, rfl, hc⟩ := h
  obtain ⟨d, r', rfl, hd⟩ := hk
  intro e
  simp only [snakeToPascal, List.cons.injEq] at e
  rw [← e.1, Char.toUpper_not_lower hc] at hd
  simp at hd

/-- A word of a name: nonempty and without underscore. -/
def IsWord (w : Str) : Prop := w ≠ [] ∧ '_' ∉ w

/-- The word with a capital first letter. -/
def capital : Str → Str
  | [] => []
  | c :: cs => c.toUpper :: cs

theorem pascalGo_word (w rest : Str) (h : '_' ∉ w) : pascalGo (w ++ rest) = w ++ pascalGo rest := by
  induction w with
  | nil => rfl
  | cons c cs ih =>
    have hc : c ≠ '_' := fun e => h (by simp [e])
    have := ih (fun e => h (by simp [e]))
    rw [List.cons_append, List.cons_append, ← this]
    cases hcs : cs ++ rest with
    | nil => rw [pascalGo.eq_def]; simp [hc]
    | cons d r => rw [pascalGo.eq_def]; simp [hc]

/-- **C44.** The name of the struct of a lint consists of the words of its name, with capital first letters. -/
theorem snakeToPascal_words {w : Str} {ws : List Str} (hw : IsWord w) (hws : ∀ v ∈ ws, IsWord v) :
    snakeToPascal (List.intercalate ['_'] (w :: ws)) = ((w :: ws).map capital).flatten := by
  have go : ∀ ws : List Str, (∀ v ∈ ws, IsWord v) → pascalGo (ws.map ('_' :: ·)).flatten = (ws.map capital).flatten := by
    intro ws
    induction ws with
    | nil => intro _; rfl
    | cons v vs ih =>
      intro h
      have hv := h v (by simp)
      obtain ⟨h1, h2⟩ := hv
      cases v with
      | nil => exact absurd rfl h1
      | cons d ds =>
        have := ih (fun u hu => h u (by simp [hu]))
        simp only [List.map_cons, List.flatten_cons, List.cons_append, List.nil_append, pascalGo, capital]
        rw [pascalGo_word ds _ (fun e => h2 (by simp [e])), this]
  have e : List.intercalate ['_'] (w :: ws) = w ++ (ws.map ('_' :: ·)).flatten := by
    clear hw hws go
    induction ws generalizing w with
    | nil => simp [List.intercalate, List.intersperse]
    | cons v vs ih =>
      rw [List.intercalate_cons_cons, ih]
      simp
  rw [e]
  cases w with
  | nil => exact absurd rfl hw.1
  | cons c cs =>
    simp only [List.cons_append, snakeToPascal, List.map_cons, List.flatten_cons, capital]
    rw [pascalGo_word cs _ (fun e => hw.2 (by simp [e])), go ws hws]

example : IsWord (str!"needless") ∧ snakeToPascal (str!"needless_range_loop") = str!"NeedlessRangeLoop" := by
  refine ⟨⟨by decide, by decide⟩, by decide +kernel⟩

theorem lintName_clippy : LintName (str!"clippy") := ⟨_, _, rfl, by decide⟩
theorem lintName_mod : LintName (str!"mod") := ⟨_, _, rfl, by decide⟩

/-- **C44**, partial, second half: the lint static is renamed wherever it doesn't come after a colon. Missing: after `::` or directly after
`:` it isn't (`renameFile_static_violation`). -/
theorem renameFile_static_partial {old new : Str} {renameMod : Bool} {a b : List Tok} {t : Tok} (hold : LintName old)
    (ht : IsIdent (asciiUpper old) t) (h1 : ¬ PrevColon a) (h2 : ¬ AfterIdent a) :
    (renameToks old new renameMod (a ++ t :: b))[a.length]? = some (asciiUpper new) := by
  have hto : t.text ≠ (Names.of old new).old := by rw [ht.2]; exact asciiUpper_ne hold hold
  obtain ⟨os, n', e, hl, hn⟩ := renameGo_reach (Names.of old new) renameMod (.inl ht.1) _ a (Nat.le_refl (a ++ t :: b).length) h1 h2 (.inl hto)
  cases n' with
  | zero => simp at hn
  | succ n' =>
    have hc : t.text ≠ str!"clippy" := by rw [ht.2]; exact asciiUpper_ne hold lintName_clippy
    have hm : t.text ≠ str!"mod" := by rw [ht.2]; exact asciiUpper_ne hold lintName_mod
    have hstep : renameStep (Names.of old new) renameMod t b = ([asciiUpper new], b) := by
      simp only [renameStep, ht.1]
      rw [if_neg hc, if_neg hm, if_neg (fun h => hto h.2), if_pos (show t.text = (Names.of old new).oldUpper from ht.2)]; rfl
    rw [renameToks, e, renameGo, hstep]
    simp [hl]

/-- The same for the lint struct. -/
theorem renameFile_struct_partial {old new : Str} {renameMod : Bool} {a b : List Tok} {t : Tok} (hold : LintName old)
    (ht : IsIdent (snakeToPascal old) t) (hne : snakeToPascal old ≠ asciiUpper old) (h1 : ¬ PrevColon a) (h2 : ¬ AfterIdent a) :
    (renameToks old new renameMod (a ++ t :: b))[a.length]? = some (snakeToPascal new) := by
  have hto : t.text ≠ (Names.of old new).old := by rw [ht.2]; exact snakeToPascal_ne hold hold
  obtain ⟨os, n', e, hl, hn⟩ := renameGo_reach (Names.of old new) renameMod (.inl ht.1) _ a (Nat.le_refl (a ++ t :: b).length) h1 h2 (.inl hto)
  cases n' with
  | zero => simp at hn
  | succ n' =>
    have hc : t.text ≠ str!"clippy" := by rw [ht.2]; exact snakeToPascal_ne hold lintName_clippy
    have hm : t.text ≠ str!"mod" := by rw [ht.2]; exact snakeToPascal_ne hold lintName_mod
    have hstep : renameStep (Names.of old new) renameMod t b = ([snakeToPascal new], b) := by
      simp only [renameStep, ht.1]
      rw [if_neg hc, if_neg hm, if_neg (fun h => hto h.2), if_neg (by rw [ht.2]; exact hne),
        if_pos (show t.text = (Names.of old new).oldPascal from ht.2)]; rfl
    rw [renameToks, e, renameGo, hstep]
    simp [hl]

/-- A path `clippy::old` which doesn't come after a colon is renamed. -/
theorem renameFile_lint_path_partial {old new : Str} {renameMod : Bool} {a p b : List Tok} (hold : old ≠ str!"clippy")
    (hp : LintPath old (p)) (h1 : ¬ PrevColon a) (h2 : ¬ AfterIdent a) :
    (renameToks old new renameMod (a ++ p ++ b))[a.length + (p.length - 1)]? = some new := by
  obtain ⟨c, w1, d1, d2, w2, o, rfl, hc, hw1, hd1, hd2, hw2, ho⟩ := hp
  have e0 : a ++ c :: (w1 ++ d1 :: d2 :: (w2 ++ [o])) ++ b = a ++ c :: (w1 ++ d1 :: d2 :: (w2 ++ o :: b)) := by simp
  obtain ⟨os, n', e, hl, hn⟩ := renameGo_reach (Names.of old new) renameMod (.inl hc.1) _ a
    (Nat.le_refl (a ++ c :: (w1 ++ d1 :: d2 :: (w2 ++ o :: b))).length) h1 h2 (.inl (by rw [hc.2]; exact fun h => hold h.symm))
  rw [e0]
  cases n' with
  | zero => simp at hn
  | succ n' =>
    have hm : matchAll [.doubleColon, .captureIdent] (w1 ++ d1 :: d2 :: (w2 ++ o :: b)) = ⟨w1 ++ d1 :: d2 :: (w2 ++ [o]), true, b⟩ := by
      rw [matchAll, if_pos ((matchColons_iff _).2 ⟨w1, d1, d2, _, rfl, hw1, hd1, hd2⟩), matchColons_eq hw1 hd1 hd2]
      simp [matchAll, matchCapture_eq hw2 ho.1]
    have hl2 : (w1 ++ d1 :: d2 :: (w2 ++ [o])).getLast? = some o := by
      simp [List.getLast?_append, List.getLast?_cons]
    have hstep : renameStep (Names.of old new) renameMod c (w1 ++ d1 :: d2 :: (w2 ++ o :: b)) =
        (c.text :: (texts (w1 ++ d1 :: d2 :: (w2 ++ [o])).dropLast ++ [new]), b) := by
      simp only [renameStep, hc.1, hm]
      rw [if_pos hc.2, replaceLast, if_pos ⟨rfl, by rw [hl2, Option.map_some, ho.2]; rfl⟩]; rfl
    rw [renameToks, e, renameGo, hstep]
    have hlen : (texts (w1 ++ d1 :: d2 :: (w2 ++ [o])).dropLast).length = w1.length + w2.length + 2 := by
      simp [texts]; omega
    rw [List.getElem?_append_right (by omega)]
    simp only [List.cons_append, List.append_assoc]
    rw [show a.length + ((c :: (w1 ++ d1 :: d2 :: (w2 ++ [o]))).length - 1) - os.length = w1.length + w2.length + 2 + 1 by simp [hl]; omega]
    rw [List.getElem?_cons_succ, List.getElem?_append_right (by omega), hlen]
    simp

/-- With the module renamed, its declaration is renamed too. -/
theorem renameFile_mod_partial {old new : Str} {a w b : List Tok} {m o : Tok} (hold : old ≠ str!"mod") (hm : IsIdent (str!"mod") m)
    (hw : Blank w) (ho : IsIdent old o) (h1 : ¬ PrevColon a) (h2 : ¬ AfterIdent a) :
    (renameToks old new true (a ++ m :: (w ++ o :: b)))[a.length + w.length + 1]? = some new := by
  obtain ⟨os, n', e, hl, hn⟩ := renameGo_reach (Names.of old new) true (.inl hm.1) _ a
    (Nat.le_refl (a ++ m :: (w ++ o :: b)).length) h1 h2 (.inl (by rw [hm.2]; exact fun h => hold h.symm))
  cases n' with
  | zero => simp at hn
  | succ n' =>
    have hstep : renameStep (Names.of old new) true m (w ++ o :: b) = (m.text :: (texts w ++ [new]), b) := by
      have hmm : matchPat (.ident (Names.of old new).old) (w ++ o :: b) = ⟨w ++ [o], true, b⟩ := matchIdent_eq hw ho
      simp only [renameStep, hm.1, hmm]
      rw [if_neg (by rw [hm.2]; decide), if_pos hm.2, if_pos trivial, replaceLast,
        if_pos ⟨rfl, by simp [ho.2, Names.of]⟩]
      simp [texts, Names.of]
    rw [renameToks, e, renameGo, hstep]
    rw [List.getElem?_append_right (by omega)]
    simp only [List.cons_append, List.append_assoc]
    rw [show a.length + w.length + 1 - os.length = w.length + 1 by omega, List.getElem?_cons_succ,
      List.getElem?_append_right (by simp [texts])]
    simp [texts]

/-- With the module renamed, a path which starts with it is renamed too. -/
theorem renameFile_mod_path_partial {old new : Str} {a w b : List Tok} {o d1 d2 : Tok} (hc : old ≠ str!"clippy") (hmod : old ≠ str!"mod")
    (ho : IsIdent old o) (hw : Blank w) (hd1 : d1.kind = .colon) (hd2 : d2.kind = .colon) (h1 : ¬ PrevColon a) (h2 : ¬ AfterIdent a)
    (h3 : ¬ AfterMod a) : (renameToks old new true (a ++ o :: (w ++ d1 :: d2 :: b)))[a.length]? = some new := by
  obtain ⟨os, n', e, hl, hn⟩ := renameGo_reach (Names.of old new) true (.inl ho.1) _ a
    (Nat.le_refl (a ++ o :: (w ++ d1 :: d2 :: b)).length) h1 h2 (.inr h3)
  cases n' with
  | zero => simp at hn
  | succ n' =>
    have hstep : renameStep (Names.of old new) true o (w ++ d1 :: d2 :: b) = (new :: texts (w ++ [d1, d2]), b) := by
      simp only [renameStep, ho.1, matchColons_eq hw hd1 hd2]
      rw [if_neg (by rw [ho.2]; exact hc), if_neg (by rw [ho.2]; exact hmod), if_pos ⟨trivial, ho.2⟩]; rfl
    rw [renameToks, e, renameGo, hstep]
    simp [hl]

/-- An expectation comment `//~ old` is renamed, if the old name in it isn't the end of a longer word. -/
theorem renameFile_comment_partial {old new : Str} {renameMod : Bool} {a b : List Tok} {t : Tok} {s : Str} (ht : t.kind = .comment)
    (htext : t.text = str!"//~" ++ s ++ old) (hs : ∀ c, s.getLast? = some c → isIdChar c = false) (hold : t.text ≠ old)
    (h1 : ¬ PrevColon a) (h2 : ¬ AfterIdent a) :
    (renameToks old new renameMod (a ++ t :: b))[a.length]? = some (str!"//~" ++ s ++ new) := by
  obtain ⟨os, n', e, hl, hn⟩ := renameGo_reach (Names.of old new) renameMod (.inr ht) _ a (Nat.le_refl (a ++ t :: b).length) h1 h2 (.inl hold)
  cases n' with
  | zero => simp at hn
  | succ n' =>
    have hstrip : stripSuffix? old t.text = some (str!"//~" ++ s) := by
      have key : ∀ (p q : Str), Text.stripPrefix? p (p ++ q) = some q := by
        intro p
        induction p with
        | nil => intro q; rfl
        | cons c p ih => intro q; simp only [List.cons_append, Text.stripPrefix?, if_true]; exact ih q
      rw [stripSuffix?, htext, List.reverse_append, key]
      simp
    have hpre : (str!"//~").isPrefixOf t.text = true := by
      rw [List.isPrefixOf_iff_prefix, htext]
      exact ⟨s ++ old, by simp⟩
    have hfree : endsFree (str!"//~" ++ s) = true := by
      unfold endsFree
      cases hr : s.getLast? with
      | none =>
        have : s = [] := List.getLast?_eq_none_iff.1 hr
        subst this; rfl
      | some c =>
        have hne : s ≠ [] := by intro h0; simp [h0] at hr
        rw [List.getLast?_eq_some_getLast hne, Option.some.injEq] at hr
        have es : s = s.dropLast ++ [c] := by rw [← hr, List.dropLast_concat_getLast]
        have : (str!"//~" ++ s).reverse = c :: (str!"//~" ++ s.dropLast).reverse := by
          rw [es]; simp
        rw [this]
        simp [hs c (by rw [List.getLast?_eq_some_getLast hne, hr])]
    have hcm : renameComment old new t.text = str!"//~" ++ s ++ new := by
      simp only [renameComment, hpre, hstrip, if_true, hfree]
    have hstep : renameStep (Names.of old new) renameMod t b = ([str!"//~" ++ s ++ new], b) := by
      simp only [renameStep, ht]
      exact congrArg (fun x => ([x], b)) hcm
    rw [renameToks, e, renameGo, hstep]
    simp [hl]

/-- A file: `use foo::bar; static OLD_LINT; impl OldLint {} //~ old_lint`. -/
def exRename : List Tok :=
  [⟨.ident, str!"use"⟩, ⟨.ws, str!" "⟩, ⟨.ident, str!"foo"⟩, ⟨.colon, str!":"⟩, ⟨.colon, str!":"⟩, ⟨.ident, str!"bar"⟩, ⟨.semi, str!";"⟩,
    ⟨.ident, str!"static"⟩, ⟨.ws, str!" "⟩, ⟨.ident, str!"OLD_LINT"⟩, ⟨.semi, str!";"⟩, ⟨.ident, str!"impl"⟩, ⟨.ws, str!" "⟩,
    ⟨.ident, str!"OldLint"⟩, ⟨.ws, str!" "⟩, ⟨.other, str!"{"⟩, ⟨.other, str!"}"⟩, ⟨.comment, str!"//~ old_lint"⟩]

/-- All three are renamed. -/
example : renameFile (str!"old_lint") (str!"b_c") false exRename = str!"use foo::bar;static B_C;impl BC {}//~ b_c" := by decide +kernel

/-- The hypotheses hold of the static. -/
example : LintName (str!"old_lint") ∧ IsIdent (asciiUpper (str!"old_lint")) ⟨.ident, str!"OLD_LINT"⟩ ∧
    ¬ PrevColon (exRename.take 9) ∧ ¬ AfterIdent (exRename.take 9) := by
  refine ⟨⟨_, _, rfl, by decide⟩, ⟨rfl, by decide⟩, ?_, ?_⟩
  · rintro ⟨a, d, w, e, hd, hw⟩
    have hrev : (exRename.take 9).reverse = (d :: w).reverse ++ a.reverse := by rw [e]; simp
    have e2 : w.reverse ++ d :: a.reverse = ⟨.ws, str!" "⟩ :: ⟨.ident, str!"static"⟩ :: (exRename.take 7).reverse := by
      have : (exRename.take 9).reverse = ⟨.ws, str!" "⟩ :: ⟨.ident, str!"static"⟩ :: (exRename.take 7).reverse := by decide +kernel
      rw [← this, hrev]; simp
    match hw' : w.reverse, e2 with
    | [], e2 => simp only [List.nil_append, List.cons.injEq] at e2; rw [e2.1] at hd; simp at hd
    | [x], e2 =>
      simp only [List.cons_append, List.nil_append, List.cons.injEq] at e2; rw [e2.2.1] at hd; simp at hd
    | x :: y :: z, e2 =>
      simp only [List.cons_append, List.cons.injEq] at e2
      have := hw y (by rw [← List.mem_reverse, hw']; simp)
      rw [e2.2.1] at this; simp at this
  · rintro ⟨a, d, e, hd⟩
    have := congrArg List.getLast? e
    rw [List.getLast?_concat] at this
    have h2 : (exRename.take 9).getLast? = some ⟨.ws, str!" "⟩ := by decide +kernel
    rw [h2, Option.some.injEq] at this
    rw [← this] at hd; simp at hd

/-- The other forms are renamed: `mod old;old::f(clippy :: old)`. -/
example : renameFile (str!"old") (str!"b_c") true
    [⟨.ident, str!"mod"⟩, ⟨.ws, str!" "⟩, ⟨.ident, str!"old"⟩, ⟨.semi, str!";"⟩, ⟨.ident, str!"old"⟩, ⟨.colon, str!":"⟩, ⟨.colon, str!":"⟩,
      ⟨.ident, str!"f"⟩, ⟨.other, str!"("⟩, ⟨.ident, str!"clippy"⟩, ⟨.ws, str!" "⟩, ⟨.colon, str!":"⟩, ⟨.colon, str!":"⟩, ⟨.ws, str!" "⟩,
      ⟨.ident, str!"old"⟩, ⟨.other, str!")"⟩] = str!"mod b_c;b_c::f(clippy :: b_c)" := by decide +kernel

/-- **C44**, violation: the lint static isn't renamed in a path, nor after a second `::`. -/
theorem renameFile_static_violation :
    ∃ l l' : List Tok, srcText l = str!"lint(cx, m::OLD_LINT)" ∧ renameFile (str!"old_lint") (str!"b_c") false l = srcText l ∧
      srcText l' = str!"x:OLD_LINT" ∧ renameFile (str!"old_lint") (str!"b_c") false l' = srcText l' :=
  ⟨[⟨.ident, str!"lint"⟩, ⟨.other, str!"("⟩, ⟨.ident, str!"cx"⟩, ⟨.other, str!","⟩, ⟨.ws, str!" "⟩, ⟨.ident, str!"m"⟩, ⟨.colon, str!":"⟩,
      ⟨.colon, str!":"⟩, ⟨.ident, str!"OLD_LINT"⟩, ⟨.other, str!")"⟩],
    [⟨.ident, str!"x"⟩, ⟨.colon, str!":"⟩, ⟨.ident, str!"OLD_LINT"⟩], by decide +kernel, by decide +kernel, by decide +kernel, by decide +kernel⟩

/-- **C44**, violation: a call `m::old()` of a function which has nothing but its name in common with the lint is renamed, its definition
isn't. -/
theorem renameFile_path_violation :
    ∃ l : List Tok, srcText l = str!"fn old(){} m::old()" ∧ renameFile (str!"old") (str!"b_c") false l = str!"fn old(){} m::b_c()" :=
  ⟨[⟨.ident, str!"fn"⟩, ⟨.ws, str!" "⟩, ⟨.ident, str!"old"⟩, ⟨.other, str!"("⟩, ⟨.other, str!")"⟩, ⟨.other, str!"{"⟩, ⟨.other, str!"}"⟩,
    ⟨.ws, str!" "⟩, ⟨.ident, str!"m"⟩, ⟨.colon, str!":"⟩, ⟨.colon, str!":"⟩, ⟨.ident, str!"old"⟩, ⟨.other, str!"("⟩, ⟨.other, str!")"⟩],
    by decide +kernel, by decide +kernel⟩

end Verif.Dev
