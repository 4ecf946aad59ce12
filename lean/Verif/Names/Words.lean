import Verif.Names.Model

/-!
# Properties of two names
-/

namespace Verif.Names

theorem eqNum_iff (num : Char → Bool) (a b : Char) : eqNum num a b = true ↔ Alike num a b := by
  simp [eqNum, Alike]

theorem alike_symm {num : Char → Bool} {a b : Char} (h : Alike num a b) : Alike num b a := by
  rcases h with h | h
  · exact Or.inl h.symm
  · exact Or.inr ⟨h.2, h.1⟩

theorem diffs_symm (num : Char → Bool) : ∀ a b, diffs num a b = diffs num b a
  | [], [] => rfl
  | [], _ :: _ => rfl
  | _ :: _, [] => rfl
  | c :: r, d :: s => by
    simp only [diffs]
    rw [diffs_symm num r s]
    by_cases h : Alike num c d
    · rw [if_pos h, if_pos (alike_symm h)]
    · rw [if_neg h, if_neg (fun h' => h (alike_symm h'))]

theorem diffs_append (num : Char → Bool) : ∀ a b c d : Name, a.length = b.length →
    diffs num (a ++ c) (b ++ d) = diffs num a b + diffs num c d
  | [], [], c, d, _ => by simp [diffs]
  | x :: a, y :: b, c, d, h => by
    simp only [List.cons_append, diffs]
    rw [diffs_append num a b c d (by simpa using h)]
    omega
  | [], _ :: _, _, _, h => by simp at h
  | _ :: _, [], _, _, h => by simp at h

theorem zip_count (num : Char → Bool) : ∀ a b : Name, ((a.zip b).filter fun p => !eqNum num p.1 p.2).length = diffs num a b
  | [], _ => by simp [diffs]
  | _ :: _, [] => by simp [diffs]
  | c :: a, d :: b => by
    have ih := zip_count num a b
    simp only [List.zip_cons_cons, List.filter_cons, diffs]
    by_cases h : Alike num c d
    · rw [if_pos h, if_neg (by simp [(eqNum_iff num c d).2 h])]
      omega
    · have : eqNum num c d = false := by
        cases hh : eqNum num c d with
        | false => rfl
        | true => exact absurd ((eqNum_iff num c d).1 hh) h
      rw [if_neg h, if_pos (by simp [this])]
      simp only [List.length_cons]
      omega

theorem zip_all (num : Char → Bool) (a b : Name) : ((a.zip b).all fun p => eqNum num p.1 p.2) = true ↔ diffs num a b = 0 := by
  rw [← zip_count num a b, List.length_eq_zero_iff, List.filter_eq_nil_iff, List.all_eq_true]
  simp

theorem concat_of_length {n : Nat} (l : Name) (h : l.length = n + 1) : ∃ m x, l = m ++ [x] ∧ m.length = n := by
  have hne : l ≠ [] := by intro h'; rw [h'] at h; cases h
  refine ⟨l.dropLast, l.getLast hne, (List.dropLast_concat_getLast hne).symm, ?_⟩
  rw [List.length_dropLast]
  omega

theorem last_of {m r : Name} {l c : Char} (h : m ++ [l] = r ++ [c]) : l = c := by
  have := (List.append_inj' h rfl).2
  simpa using this

/-- C136: for names of the same length with at least three characters there is no panic, and they are taken for similar exactly if they
differ at one place that is not set apart. -/
theorem equal_iff (num : Char → Bool) (hu : num '_' = false) (a b : Name) (hl : a.length = b.length) (h3 : 3 ≤ a.length) :
    ∃ v, equalNot num a b = some v ∧ (v = false ↔ OneOff num a b) := by
  obtain ⟨n, hn⟩ : ∃ n, a.length = n + 3 := ⟨a.length - 3, by omega⟩
  have hnb : b.length = n + 3 := by omega
  match a, b, hn, hnb with
  | fi :: i, fe :: e, hn, hnb =>
    simp only [List.length_cons] at hn hnb
    obtain ⟨mi, li, rfl, hmi⟩ := concat_of_length (n := n + 1) i (by omega)
    obtain ⟨me, le, rfl, hme⟩ := concat_of_length (n := n + 1) e (by omega)
    have hm : mi.length = me.length := by omega
    have hd : diffs num (fi :: (mi ++ [li])) (fe :: (me ++ [le])) =
        (if Alike num fi fe then 0 else 1) + (diffs num mi me + (if Alike num li le then 0 else 1)) := by
      simp only [diffs]
      rw [diffs_append num mi me _ _ hm]
      simp [diffs]
    by_cases hf : Alike num fi fe
    · simp only [equalNot]
      rw [if_pos ((eqNum_iff num fi fe).2 hf)]
      simp only [firstSame, List.getLast?_append, List.getLast?_singleton, Option.some_or, List.dropLast_concat]
      by_cases hla : Alike num li le
      · rw [if_pos ((eqNum_iff num li le).2 hla), zip_count]
        refine ⟨_, rfl, ?_⟩
        rw [if_pos hf, if_pos hla] at hd
        constructor
        · intro h
          have h1 : diffs num mi me = 1 := by simpa using h
          refine ⟨hl, by omega, ?_, ?_⟩
          · intro c d r s h1 h2
            injection h1 with e1 _; injection h2 with e2 _; rw [← e1, ← e2]; exact hf
          · intro c d r s h1 h2
            have e1 : li = c := last_of (m := fi :: mi) (r := r ++ ['_']) (by simpa using h1)
            have e2 : le = d := last_of (m := fe :: me) (r := s) (by simpa using h2)
            rw [← e1, ← e2]; exact hla
        · intro h
          have := h.one
          have h1 : diffs num mi me = 1 := by omega
          simp [h1]
      · have hq : eqNum num li le = false := by
          cases hh : eqNum num li le with
          | false => rfl
          | true => exact absurd ((eqNum_iff num li le).1 hh) hla
        rw [if_neg (by simp [hq])]
        rw [if_pos hf, if_neg hla] at hd
        obtain ⟨ni, si, rfl, hni⟩ := concat_of_length mi hmi
        obtain ⟨ne, se, rfl, hne⟩ := concat_of_length me hme
        have hnn : ni.length = ne.length := by omega
        have hd2 : diffs num (ni ++ [si]) (ne ++ [se]) = diffs num ni ne + (if Alike num si se then 0 else 1) := by
          rw [diffs_append num ni ne _ _ hnn]
          simp [diffs]
        simp only [lastDiffers, List.getLast?_append, List.getLast?_singleton, Option.some_or, List.dropLast_concat]
        refine ⟨_, rfl, ?_⟩
        constructor
        · intro h
          have h' : (eqNum num si se = true ∧ si ≠ '_') ∧ ((ni.zip ne).all fun p => eqNum num p.1 p.2) = true := by
            cases h1 : eqNum num si se <;> cases h2 : ((ni.zip ne).all fun p => eqNum num p.1 p.2) <;> by_cases h3 : si = '_' <;> simp_all
          have h0 := (zip_all num ni ne).1 h'.2
          have hs := (eqNum_iff num si se).1 h'.1.1
          rw [if_pos hs] at hd2
          refine ⟨hl, by omega, ?_, ?_⟩
          · intro c d r s h1 h2
            injection h1 with e1 _; injection h2 with e2 _; rw [← e1, ← e2]; exact hf
          · intro c d r s h1 h2
            exfalso
            apply h'.1.2
            have : (fi :: (ni ++ [si] ++ [li])) = (fi :: ni) ++ [si, li] := by simp
            rw [this] at h1
            have := List.append_inj' h1 rfl
            have := this.2
            simp only [List.cons.injEq, and_true] at this
            exact this.1
        · intro h
          have h1 := h.one
          have hz : diffs num ni ne = 0 := by omega
          have hs : Alike num si se := by
            by_cases hs : Alike num si se
            · exact hs
            · rw [if_neg hs] at hd2; omega
          have hus : si ≠ '_' := by
            intro hus
            apply hla
            refine h.back li le (fi :: ni) (fe :: (ne ++ [se])) (by simp [hus]) (by simp)
          have e1 := (eqNum_iff num si se).2 hs
          have e2 := (zip_all num ni ne).2 hz
          simp [e1, e2, hus]
    · have hq : eqNum num fi fe = false := by
        cases hh : eqNum num fi fe with
        | false => rfl
        | true => exact absurd ((eqNum_iff num fi fe).1 hh) hf
      simp only [equalNot]
      rw [if_neg (by simp [hq])]
      rw [if_neg hf] at hd
      match mi, me, hmi, hme with
      | si :: i, se :: e, hmi, hme =>
        simp only [List.cons_append, firstDiffers] at hd ⊢
        refine ⟨_, rfl, ?_⟩
        have hie : i.length = e.length := by simp only [List.length_cons] at hmi hme; omega
        have hd2 : diffs num (i ++ [li]) (e ++ [le]) = diffs num i e + (if Alike num li le then 0 else 1) := by
          rw [diffs_append num i e _ _ hie]
          simp [diffs]
        have hd3 : diffs num (si :: i) (se :: e) = (if Alike num si se then 0 else 1) + diffs num i e := rfl
        constructor
        · intro h
          have h' : (eqNum num si se = true ∧ si ≠ '_') ∧ (((i ++ [li]).zip (e ++ [le])).all fun p => eqNum num p.1 p.2) = true := by
            cases h1 : eqNum num si se <;> cases h2 : (((i ++ [li]).zip (e ++ [le])).all fun p => eqNum num p.1 p.2) <;>
              by_cases h3 : si = '_' <;> simp_all
          have h0 := (zip_all num _ _).1 h'.2
          have hs := (eqNum_iff num si se).1 h'.1.1
          rw [if_pos hs] at hd3
          refine ⟨hl, by rw [hd]; omega, ?_, ?_⟩
          · intro c d r s h1 h2
            exfalso
            apply h'.1.2
            simp only [List.cons_append, List.cons.injEq] at h1
            exact h1.2.1
          · intro c d r s h1 h2
            have hla : Alike num li le := by
              by_cases hla : Alike num li le
              · exact hla
              · rw [if_neg hla] at hd2; omega
            have e1 : li = c := last_of (m := fi :: si :: i) (r := r ++ ['_']) (by simpa using h1)
            have e2 : le = d := last_of (m := fe :: se :: e) (r := s) (by simpa using h2)
            rw [← e1, ← e2]; exact hla
        · intro h
          have h1 := h.one
          rw [hd] at h1
          have hs : Alike num si se := by
            by_cases hs : Alike num si se
            · exact hs
            · rw [if_neg hs] at hd3; omega
          rw [if_pos hs] at hd3
          have hz : diffs num (i ++ [li]) (e ++ [le]) = 0 := by omega
          have hus : si ≠ '_' := by
            intro hus
            apply hf
            exact h.front fi fe (i ++ [li]) (se :: (e ++ [le])) (by simp [hus]) (by simp)
          have e1 := (eqNum_iff num si se).2 hs
          have e2 := (zip_all num _ _).2 hz
          simp [e1, e2, hus]

example : equalNot Char.isDigit "binding".toList "bending".toList = some false ∧ equalNot Char.isDigit "foo_x".toList "foo_y".toList = some true := by
  decide +kernel

/-- C136: a name is taken for another one with a character more exactly if it is, unless it is the beginning of the other one. -/
theorem lev_iff : ∀ a b : Name, a.length + 1 = b.length → (levNot a b = false ↔ Inserted a b)
  | [], b, _ => by
    refine ⟨(fun h => by cases h), fun h => absurd (List.nil_prefix) h.2⟩
  | x :: a, [], h => by simp at h
  | x :: a, y :: b, h => by
    simp only [List.length_cons] at h
    simp only [levNot]
    by_cases hxy : x = y
    · subst hxy
      rw [if_pos (by simp), lev_iff a b (by omega)]
      constructor
      · rintro ⟨⟨p, c, q, rfl, rfl⟩, hp⟩
        exact ⟨⟨x :: p, c, q, rfl, rfl⟩, fun h => hp ((List.cons_prefix_cons.1 h).2)⟩
      · rintro ⟨⟨p, c, q, h1, h2⟩, hp⟩
        refine ⟨?_, fun h => hp (List.cons_prefix_cons.2 ⟨rfl, h⟩)⟩
        cases p with
        | nil =>
          simp only [List.nil_append] at h1 h2
          rw [← h1] at h2
          injection h2 with h3 h4
          exact ⟨[], x, a, rfl, h4⟩
        | cons z p =>
          simp only [List.cons_append, List.cons.injEq] at h1 h2
          exact ⟨p, c, q, h1.2, h2.2⟩
    · rw [if_neg (by simpa using hxy)]
      match b, h with
      | [], h => simp at h
      | b2 :: b', h =>
        constructor
        · intro h'
          have : x = b2 ∧ a = b' := by simpa using h'
          obtain ⟨rfl, rfl⟩ := this
          exact ⟨⟨[], y, x :: a, rfl, rfl⟩, fun hp => hxy (List.cons_prefix_cons.1 hp).1⟩
        · rintro ⟨⟨p, c, q, h1, h2⟩, hp⟩
          cases p with
          | nil =>
            simp only [List.nil_append] at h1 h2
            rw [← h1] at h2
            injection h2 with h3 h4
            injection h4 with h5 h6
            simp [h5, h6]
          | cons z p =>
            simp only [List.cons_append, List.cons.injEq] at h1 h2
            exact absurd (h1.1.trans h2.1.symm) hxy

example : levNot "color".toList "colour".toList = false ∧ levNot "item".toList "items".toList = true := by decide +kernel

theorem inserted_length {a b : Name} (h : Inserted a b) : a.length + 1 = b.length := by
  obtain ⟨⟨p, c, q, rfl, rfl⟩, _⟩ := h
  simp
  omega

/-- Lengths decide which of the comparisons is made. -/
theorem byLength_iff (num : Char → Bool) (hu : num '_' = false) (a b : Name) (h3 : 3 ≤ a.length) (_h3' : 3 ≤ b.length) :
    ∃ v, byLength num a b = some v ∧ (v = false ↔ OneOff num a b ∨ Inserted a b ∨ Inserted b a) := by
  unfold byLength
  by_cases h1 : a.length < b.length
  · rw [if_pos h1]
    refine ⟨_, rfl, ?_⟩
    constructor
    · intro h
      have : b.length - a.length = 1 ∧ levNot a b = false := by simpa using h
      exact Or.inr (Or.inl ((lev_iff a b (by omega)).1 this.2))
    · rintro (h | h | h)
      · have := h.length; omega
      · have hl := inserted_length h
        have := (lev_iff a b hl).2 h
        simp [this]; omega
      · have := inserted_length h; omega
  · rw [if_neg h1]
    by_cases h2 : b.length < a.length
    · rw [if_pos h2]
      refine ⟨_, rfl, ?_⟩
      constructor
      · intro h
        have : a.length - b.length = 1 ∧ levNot b a = false := by simpa using h
        exact Or.inr (Or.inr ((lev_iff b a (by omega)).1 this.2))
      · rintro (h | h | h)
        · have := h.length; omega
        · have := inserted_length h; omega
        · have hl := inserted_length h
          have := (lev_iff b a hl).2 h
          simp [this]; omega
    · rw [if_neg h2]
      obtain ⟨v, hv, hi⟩ := equal_iff num hu a b (by omega) h3
      refine ⟨v, hv, hi.trans ⟨Or.inl, ?_⟩⟩
      rintro (h | h | h)
      · exact h
      · have := inserted_length h; omega
      · have := inserted_length h; omega

theorem allowed_iff (n : Name) (l : List Name) : allowed n l = true ↔ Belongs n l := by
  simp [allowed, Belongs, List.any_eq_true]

/-- The exemptions kept with a name are those of the first list it belongs to. -/
theorem exempt_iff (tbl : List (List Name)) (n e : Name) : allowed n (exemptions tbl e) = true ↔ Exempt tbl n e := by
  unfold exemptions
  cases h : tbl.find? (allowed e) with
  | none =>
    constructor
    · intro h'; simp [allowed] at h'
    · rintro ⟨pre, l, post, rfl, _, h2, _⟩
      have := List.find?_eq_none.1 h l (by simp)
      exact absurd ((allowed_iff e l).2 h2) this
  | some l =>
    obtain ⟨h1, pre, post, h2, h3⟩ := List.find?_eq_some_iff_append.1 h
    simp only
    constructor
    · intro hn
      exact ⟨pre, l, post, h2, fun k hk hb => by
        have := h3 k hk
        simp [(allowed_iff e k).2 hb] at this, (allowed_iff e l).1 h1, (allowed_iff n l).1 hn⟩
    · rintro ⟨pre', l', post', h4, h5, h6, h7⟩
      have hl : tbl.find? (allowed e) = some l' := by
        rw [List.find?_eq_some_iff_append]
        refine ⟨(allowed_iff e l').2 h6, pre', post', h4, fun k hk => ?_⟩
        cases hh : allowed e k with
        | false => rfl
        | true => exact absurd ((allowed_iff e k).1 hh) (h5 k hk)
      rw [h] at hl
      cases hl
      exact (allowed_iff n _).2 h7

/-- C136: a name goes past an existing one exactly if the two are not too similar or exempt, and nothing panics. -/
theorem goesOn_iff (num : Char → Bool) (tbl : List (List Name)) (hu : num '_' = false) (n e : Name) (hn : 3 ≤ n.length) (he : 3 ≤ e.length) :
    ∃ v, goesOn num n ⟨e, exemptions tbl e⟩ = some v ∧ (v = false ↔ Bad num tbl n e) := by
  unfold goesOn
  by_cases hx : allowed n (exemptions tbl e) = true
  · rw [if_pos hx]
    exact ⟨true, rfl, (fun h => by cases h), fun h => absurd ((exempt_iff tbl n e).1 hx) h.2⟩
  · rw [if_neg hx]
    have hne : ¬ Exempt tbl n e := fun h => hx ((exempt_iff tbl n e).2 h)
    match n, e, hn, he with
    | c :: r, d :: s, hn, he =>
      simp only [firstSimilar]
      have hcs : charsSimilar c d = true ↔ SameStart (c :: r) (d :: s) := by
        constructor
        · intro h
          refine ⟨c, d, r, s, rfl, rfl, ?_⟩
          have hsl : simChars = looks := rfl
          simpa [charsSimilar, hsl, or_assoc] using h
        · rintro ⟨c', d', r', s', h1, h2, h3⟩
          cases h1; cases h2
          have hsl : simChars = looks := rfl
          simpa [charsSimilar, hsl, or_assoc] using h3
      cases hc : charsSimilar c d with
      | false =>
        refine ⟨true, rfl, (fun h => by cases h), fun h => ?_⟩
        have := hcs.2 h.1.1
        rw [hc] at this; cases this
      | true =>
        simp only
        by_cases h3 : ((c :: r).length == 3 && (d :: s).length == 3) = true
        · rw [if_pos h3]
          refine ⟨true, rfl, (fun h => by cases h), fun h => ?_⟩
          simp only [Bool.and_eq_true, beq_iff_eq] at h3
          exact absurd h3 h.1.2.1
        · rw [if_neg h3]
          obtain ⟨v, hv, hi⟩ := byLength_iff num hu (c :: r) (d :: s) hn he
          refine ⟨v, hv, hi.trans ⟨fun h => ⟨⟨hcs.1 hc, ?_, h⟩, hne⟩, fun h => h.1.2.2⟩⟩
          intro hh
          apply h3
          simp only [Bool.and_eq_true, beq_iff_eq]
          exact hh

example : goesOn Char.isDigit "buffer".toList ⟨"baffer".toList, []⟩ = some false ∧ goesOn Char.isDigit "lhs".toList ⟨"rhs_1".toList, ["rhs".toList, "lhs".toList]⟩ = some true := by
  decide +kernel

/-- C136: similarity does not depend on which of the names comes first. -/
theorem similar_symm (num : Char → Bool) (hu : num '_' = false) (a b : Name) (ha : 3 ≤ a.length) (h : Similar num a b) : Similar num b a := by
  obtain ⟨⟨c, d, r, s, h1, h2, h3⟩, h4, h5⟩ := h
  refine ⟨⟨d, c, s, r, h2, h1, ?_⟩, fun h => h4 ⟨h.2, h.1⟩, ?_⟩
  · rcases h3 with h3 | h3 | h3
    · exact Or.inl h3.symm
    · exact Or.inr (Or.inr h3)
    · exact Or.inr (Or.inl h3)
  · rcases h5 with h5 | h5 | h5
    · refine Or.inl ⟨h5.length.symm, by rw [diffs_symm]; exact h5.one, ?_, ?_⟩
      · -- the second characters are the same
        intro x y r' s' e1 e2
        by_cases hxy : Alike num x y
        · exact hxy
        · exfalso
          have hone := h5.one
          have hl := h5.length
          subst e1; subst e2
          match s', hl, hone, ha with
          | z :: s'', hl, hone, _ =>
            have hz : Alike num z '_' := by
              by_cases hz : Alike num z '_'
              · exact hz
              · simp only [diffs] at hone
                rw [if_neg hz, if_neg (fun h => hxy (alike_symm h))] at hone
                omega
            have hz' : z = '_' := by
              rcases hz with hz | hz
              · exact hz
              · rw [hu] at hz; exact absurd hz.2 (by simp)
            subst hz'
            exact hxy (alike_symm (h5.front y x s'' _ rfl rfl))
      · intro x y r' s' e1 e2
        by_cases hxy : Alike num x y
        · exact hxy
        · exfalso
          have hone := h5.one
          have hl := h5.length
          subst e1; subst e2
          obtain ⟨n, hn⟩ : ∃ n, s'.length = n + 1 := ⟨s'.length - 1, by simp at ha; omega⟩
          obtain ⟨t, z, rfl, ht⟩ := concat_of_length s' hn
          have hlt : t.length = r'.length := by simp at hl; omega
          have hd : diffs num (t ++ [z] ++ [y]) (r' ++ ['_', x]) = diffs num t r' + diffs num [z, y] ['_', x] := by
            rw [List.append_assoc]
            exact diffs_append num t r' _ _ hlt
          rw [hd] at hone
          have hz : Alike num z '_' := by
            by_cases hz : Alike num z '_'
            · exact hz
            · simp only [diffs] at hone
              rw [if_neg hz, if_neg (fun h => hxy (alike_symm h))] at hone
              omega
          have hz' : z = '_' := by
            rcases hz with hz | hz
            · exact hz
            · rw [hu] at hz; exact absurd hz.2 (by simp)
          subst hz'
          exact hxy (alike_symm (h5.back y x t (r' ++ ['_']) (by simp) (by simp)))
    · exact Or.inr (Or.inr h5)
    · exact Or.inr (Or.inl h5)

example : 3 ≤ "buffer".toList.length ∧ Char.isDigit '_' = false := by decide +kernel

end Verif.Names
