import Verif.WhileIter.Uses

/-!
# The search for uses after the loop
-/

namespace Verif.WhileIter

theorem contains_eq : ∀ e : Expr, contains e = has e
  | .lit _ => rfl
  | .brk => rfl
  | .path _ => rfl
  | .field e _ => contains_eq e
  | .deref _ e => contains_eq e
  | .wrap e => contains_eq e
  | .addr e => contains_eq e
  | .auto e => contains_eq e
  | .one _ e => contains_eq e
  | .index a b => by simp [contains, has, contains_eq a, contains_eq b]
  | .two _ a b => by simp [contains, has, contains_eq a, contains_eq b]
  | .here .. => rfl

theorem later_nil : ∀ e : Expr, has e = false → later e = []
  | .lit _, _ => rfl
  | .brk, _ => rfl
  | .path _, _ => rfl
  | .field e _, h => later_nil e h
  | .deref _ e, h => later_nil e h
  | .wrap e, h => later_nil e h
  | .addr e, h => later_nil e h
  | .auto e, h => later_nil e h
  | .one .loop e, h => by
    have : has e = false := h
    simp [later, this]
  | .one (.closure false) e, h => by
    have : has e = false := h
    simp [later, this]
  | .one (.closure true) e, h => later_nil e h
  | .one .next e, h => later_nil e h
  | .one (.bind _) e, h => later_nil e h
  | .index a b, h => by
    simp only [has, Bool.or_eq_false_iff] at h
    simp [later, h.1, later_nil b h.2]
  | .two _ a b, h => by
    simp only [has, Bool.or_eq_false_iff] at h
    simp [later, h.1, later_nil b h.2]

theorem inner_decls : ∀ (e : Expr) (y : Var), y ∈ inner e → y ∈ decls e
  | .lit _, _, h => h
  | .brk, _, h => h
  | .path _, _, h => h
  | .field e _, y, h => inner_decls e y h
  | .deref _ e, y, h => inner_decls e y h
  | .wrap e, y, h => inner_decls e y h
  | .addr e, y, h => inner_decls e y h
  | .auto e, y, h => inner_decls e y h
  | .one .loop e, y, h => h
  | .one (.closure _) e, y, h => h
  | .one .next e, y, h => inner_decls e y h
  | .one (.bind _) e, y, h => List.mem_cons_of_mem _ (inner_decls e y h)
  | .index a b, y, h => by
    rcases List.mem_append.1 h with h | h
    · exact List.mem_append.2 (Or.inl (inner_decls a y h))
    · exact List.mem_append.2 (Or.inr (inner_decls b y h))
  | .two k a b, y, h => by
    have : y ∈ decls a ++ decls b := by
      rcases List.mem_append.1 h with h | h
      · exact List.mem_append.2 (Or.inl (inner_decls a y h))
      · exact List.mem_append.2 (Or.inr (inner_decls b y h))
    cases k with
    | letElse z => exact List.mem_cons_of_mem _ this
    | _ => exact this
  | .here .., _, h => h

theorem enclosing_none : ∀ e : Expr, repeated e = false → enclosing e = none
  | .lit _, _ => rfl
  | .brk, _ => rfl
  | .path _, _ => rfl
  | .field e _, h => enclosing_none e h
  | .deref _ e, h => enclosing_none e h
  | .wrap e, h => enclosing_none e h
  | .addr e, h => enclosing_none e h
  | .auto e, h => enclosing_none e h
  | .one .loop e, h => by
    have : contains e = false := (contains_eq e).trans h
    simp [enclosing, this]
  | .one (.closure false) e, h => by
    have : contains e = false := (contains_eq e).trans h
    simp [enclosing, this]
  | .one (.closure true) e, h => enclosing_none e h
  | .one .next e, h => enclosing_none e h
  | .one (.bind _) e, h => enclosing_none e h
  | .index a b, h => by
    simp only [repeated] at h
    simp only [enclosing, contains_eq]
    split at h
    · rw [if_pos ‹_›]; exact enclosing_none a h
    · rw [if_neg ‹_›]; exact enclosing_none b h
  | .two _ a b, h => by
    simp only [repeated] at h
    simp only [enclosing, contains_eq]
    split at h
    · rw [if_pos ‹_›]; exact enclosing_none a h
    · rw [if_neg ‹_›]; exact enclosing_none b h
  | .here .., _ => rfl

theorem closureBody_none : ∀ e : Expr, inClosure e = false → closureBody e = none
  | .lit _, _ => rfl
  | .brk, _ => rfl
  | .path _, _ => rfl
  | .field e _, h => closureBody_none e h
  | .deref _ e, h => closureBody_none e h
  | .wrap e, h => closureBody_none e h
  | .addr e, h => closureBody_none e h
  | .auto e, h => closureBody_none e h
  | .one .loop e, h => closureBody_none e h
  | .one (.closure _) e, h => by
    have : contains e = false := (contains_eq e).trans h
    simp [closureBody, this]
  | .one .next e, h => closureBody_none e h
  | .one (.bind _) e, h => closureBody_none e h
  | .index a b, h => by
    simp only [inClosure] at h
    simp only [closureBody, contains_eq]
    split at h
    · rw [if_pos ‹_›]; exact closureBody_none a h
    · rw [if_neg ‹_›]; exact closureBody_none b h
  | .two _ a b, h => by
    simp only [inClosure] at h
    simp only [closureBody, contains_eq]
    split at h
    · rw [if_pos ‹_›]; exact closureBody_none a h
    · rw [if_neg ‹_›]; exact closureBody_none b h
  | .here .., _ => rfl

theorem repeated_has : ∀ e : Expr, repeated e = true → has e = true
  | .field e _, h => repeated_has e h
  | .deref _ e, h => repeated_has e h
  | .wrap e, h => repeated_has e h
  | .addr e, h => repeated_has e h
  | .auto e, h => repeated_has e h
  | .one .loop e, h => h
  | .one (.closure false) e, h => h
  | .one (.closure true) e, h => repeated_has e h
  | .one .next e, h => repeated_has e h
  | .one (.bind _) e, h => repeated_has e h
  | .index a b, h => by
    simp only [repeated] at h
    split at h
    · simp [has, ‹has a = true›]
    · simp [has, repeated_has b h]
  | .two _ a b, h => by
    simp only [repeated] at h
    split at h
    · simp [has, ‹has a = true›]
    · simp [has, repeated_has b h]

/-! ### No loop around it -/

theorem after_true (x : Var) (fs : List Field) (e : Expr) : afterLoop x fs e true = (visit true x fs false e, true) := by
  cases e <;> rfl

theorem after_without (x : Var) (fs : List Field) : ∀ e : Expr, has e = false → afterLoop x fs e false = (false, false)
  | .lit _, _ => rfl
  | .brk, _ => rfl
  | .path _, _ => rfl
  | .field e _, h => after_without x fs e h
  | .deref _ e, h => after_without x fs e h
  | .wrap e, h => after_without x fs e h
  | .addr e, h => after_without x fs e h
  | .auto e, h => after_without x fs e h
  | .one _ e, h => after_without x fs e h
  | .index a b, h => by
    simp only [has, Bool.or_eq_false_iff] at h
    simp [afterLoop, after_without x fs a h.1, after_without x fs b h.2]
  | .two _ a b, h => by
    simp only [has, Bool.or_eq_false_iff] at h
    simp [afterLoop, after_without x fs a h.1, after_without x fs b h.2]

theorem after_clear (x : Var) : ∀ e : Expr, has e = true → repeated e = false →
    (afterLoop x [] e false).1 = false →
    (afterLoop x [] e false).2 = true ∧ ∀ a ∈ later e, Safe x [] a
  | .lit _, h, _, _ => nomatch h
  | .brk, h, _, _ => nomatch h
  | .path _, h, _, _ => nomatch h
  | .field e _, h, hr, ha => after_clear x e h hr ha
  | .deref _ e, h, hr, ha => after_clear x e h hr ha
  | .wrap e, h, hr, ha => after_clear x e h hr ha
  | .addr e, h, hr, ha => after_clear x e h hr ha
  | .auto e, h, hr, ha => after_clear x e h hr ha
  | .one .loop e, h, hr, ha => by
    have h1 : has e = true := h
    have h2 : has e = false := hr
    rw [h1] at h2; exact nomatch h2
  | .one (.closure false) e, h, hr, ha => by
    have h1 : has e = true := h
    have h2 : has e = false := hr
    rw [h1] at h2; exact nomatch h2
  | .one (.closure true) e, h, hr, ha => after_clear x e h hr ha
  | .one .next e, h, hr, ha => after_clear x e h hr ha
  | .one (.bind _) e, h, hr, ha => after_clear x e h hr ha
  | .index a b, h, hr, ha => by
    simp only [has, Bool.or_eq_true] at h
    simp only [repeated] at hr
    have hs : afterLoop x [] (.index a b) false =
        if (afterLoop x [] a false).1 then afterLoop x [] a false
        else afterLoop x [] b (afterLoop x [] a false).2 := by
      simp only [afterLoop, Bool.false_eq_true, if_false]
    simp only [later]
    rw [hs] at ha ⊢
    exact pair a b h hr (after_clear x a) (after_clear x b) ha
  | .two _ a b, h, hr, ha => by
    simp only [has, Bool.or_eq_true] at h
    simp only [repeated] at hr
    have hs : afterLoop x [] (.two ‹_› a b) false =
        if (afterLoop x [] a false).1 then afterLoop x [] a false
        else afterLoop x [] b (afterLoop x [] a false).2 := by
      simp only [afterLoop, Bool.false_eq_true, if_false]
    simp only [later]
    rw [hs] at ha ⊢
    exact pair a b h hr (after_clear x a) (after_clear x b) ha
  | .here .., _, _, _ => ⟨rfl, by simp [later]⟩
where
  pair (a b : Expr) (h : has a = true ∨ has b = true) (hr : (if has a then repeated a else repeated b) = false)
      (iha : has a = true → repeated a = false → (afterLoop x [] a false).1 = false →
        (afterLoop x [] a false).2 = true ∧ ∀ c ∈ later a, Safe x [] c)
      (ihb : has b = true → repeated b = false → (afterLoop x [] b false).1 = false →
        (afterLoop x [] b false).2 = true ∧ ∀ c ∈ later b, Safe x [] c)
      (ha : (if (afterLoop x [] a false).1 then afterLoop x [] a false
        else afterLoop x [] b (afterLoop x [] a false).2).1 = false) :
      (if (afterLoop x [] a false).1 then afterLoop x [] a false
        else afterLoop x [] b (afterLoop x [] a false).2).2 = true ∧
      ∀ c ∈ (if has a then later a ++ accs b else later b), Safe x [] c := by
    cases h1 : (afterLoop x [] a false).1 with
    | true => rw [h1, if_pos rfl, h1] at ha; exact nomatch ha
    | false =>
      simp only [h1, Bool.false_eq_true, if_false] at ha ⊢
      cases hh : has a with
      | true =>
        obtain ⟨i1, i2⟩ := iha hh (by simpa [hh] using hr) h1
        rw [i1, after_true] at ha ⊢
        refine ⟨rfl, ?_⟩
        intro c hc
        simp only [if_true] at hc
        rcases List.mem_append.1 hc with hc | hc
        · exact i2 c hc
        · exact (visit_clear x [] b false (Or.inr rfl) ha).accs c hc
      | false =>
        have hb : has b = true := by simpa [hh] using h
        rw [after_without x [] a hh] at ha ⊢
        simpa using ihb hb (by simpa [hh] using hr) ha

/-! ### In a loop -/

theorem nested_used (x : Var) (fs : List Field) (e : Expr) (s : Nest) (h : s.used = true) : nested x fs e s = s := by
  unfold nested; simp [h]

theorem nested_after (x : Var) (fs : List Field) (e : Expr) (s : Nest) (h : s.used = false) (ha : s.after = true) :
    nested x fs e s = { s with used := visit false x fs false e } := by
  unfold nested; simp [h, ha]

theorem see_after (x : Var) (s : Nest) (y : Var) : (s.see x y).after = s.after ∧ (s.see x y).used = s.used := by
  unfold Nest.see
  split <;> exact ⟨rfl, rfl⟩

theorem see_found (x : Var) (s : Nest) (y : Var) (h : (s.see x y).found = true) : s.found = true ∨ x = y := by
  unfold Nest.see at h
  split at h
  · rename_i hc
    simp only [Bool.and_eq_true, beq_iff_eq] at hc
    exact Or.inr hc.2.symm
  · exact Or.inl h

/-- What the visitor has learnt from an expression. -/
structure Learnt (x : Var) (e : Expr) (s t : Nest) : Prop where
  after : t.after = has e
  clear : ∀ a ∈ later e, Safe x [] a
  found : t.found = true → s.found = true ∨ x ∈ decls e

theorem nested_learnt (x : Var) : ∀ (e : Expr) (s : Nest), noElse e = true → repeated e = false →
    s.after = false → s.used = false → (nested x [] e s).used = false → Learnt x e s (nested x [] e s)
  | .lit _, s, _, _, ha, hu, h => by
    have : nested x [] (.lit ‹_›) s = s := by simp [nested, ha, hu]
    rw [this]; exact ⟨ha, by simp [later], Or.inl⟩
  | .brk, s, _, _, ha, hu, h => by
    have : nested x [] .brk s = s := by simp [nested, ha, hu]
    rw [this]; exact ⟨ha, by simp [later], Or.inl⟩
  | .path _, s, _, _, ha, hu, h => by
    have : nested x [] (.path ‹_›) s = s := by simp [nested, ha, hu]
    rw [this]; exact ⟨ha, by simp [later], Or.inl⟩
  | .field e f, s, hn, hr, ha, hu, h => by
    have hs : nested x [] (.field e f) s = nested x [] e s := by simp [nested, ha, hu]
    rw [hs] at h ⊢
    obtain ⟨i1, i2, i3⟩ := nested_learnt x e s hn hr ha hu h
    exact ⟨i1, i2, i3⟩
  | .deref r e, s, hn, hr, ha, hu, h => by
    have hs : nested x [] (.deref r e) s = nested x [] e s := by simp [nested, ha, hu]
    rw [hs] at h ⊢
    obtain ⟨i1, i2, i3⟩ := nested_learnt x e s hn hr ha hu h
    exact ⟨i1, i2, i3⟩
  | .wrap e, s, hn, hr, ha, hu, h => by
    have hs : nested x [] (.wrap e) s = nested x [] e s := by simp [nested, ha, hu]
    rw [hs] at h ⊢
    obtain ⟨i1, i2, i3⟩ := nested_learnt x e s hn hr ha hu h
    exact ⟨i1, i2, i3⟩
  | .addr e, s, hn, hr, ha, hu, h => by
    have hs : nested x [] (.addr e) s = nested x [] e s := by simp [nested, ha, hu]
    rw [hs] at h ⊢
    obtain ⟨i1, i2, i3⟩ := nested_learnt x e s hn hr ha hu h
    exact ⟨i1, i2, i3⟩
  | .auto e, s, hn, hr, ha, hu, h => by
    have hs : nested x [] (.auto e) s = nested x [] e s := by simp [nested, ha, hu]
    rw [hs] at h ⊢
    obtain ⟨i1, i2, i3⟩ := nested_learnt x e s hn hr ha hu h
    exact ⟨i1, i2, i3⟩
  | .one .loop e, s, hn, hr, ha, hu, h => by
    have hs : nested x [] (.one .loop e) s = nested x [] e s := by simp [nested, ha, hu]
    rw [hs] at h ⊢
    have hh : has e = false := hr
    have hr' : repeated e = false := by
      cases hx : repeated e with
      | false => rfl
      | true => rw [repeated_has e hx] at hh; exact nomatch hh
    obtain ⟨i1, i2, i3⟩ := nested_learnt x e s hn hr' ha hu h
    exact ⟨i1, by rw [later_nil _ (show has (.one .loop e) = false from hh)]; simp, i3⟩
  | .one (.closure o) e, s, hn, hr, ha, hu, h => by
    have hs : nested x [] (.one (.closure o) e) s = nested x [] e s := by simp [nested, ha, hu]
    rw [hs] at h ⊢
    cases o with
    | true =>
      obtain ⟨i1, i2, i3⟩ := nested_learnt x e s hn hr ha hu h
      exact ⟨i1, i2, i3⟩
    | false =>
      have hh : has e = false := hr
      have hr' : repeated e = false := by
        cases hx : repeated e with
        | false => rfl
        | true => rw [repeated_has e hx] at hh; exact nomatch hh
      obtain ⟨i1, i2, i3⟩ := nested_learnt x e s hn hr' ha hu h
      exact ⟨i1, by rw [later_nil _ (show has (.one (.closure false) e) = false from hh)]; simp, i3⟩
  | .one .next e, s, hn, hr, ha, hu, h => by
    have hs : nested x [] (.one .next e) s = nested x [] e s := by simp [nested, ha, hu]
    rw [hs] at h ⊢
    obtain ⟨i1, i2, i3⟩ := nested_learnt x e s hn hr ha hu h
    exact ⟨i1, i2, i3⟩
  | .one (.bind y) e, s, hn, hr, ha, hu, h => by
    have hs : nested x [] (.one (.bind y) e) s = nested x [] e (s.see x y) := by simp [nested, ha, hu]
    rw [hs] at h ⊢
    have hsee := see_after x s y
    obtain ⟨i1, i2, i3⟩ := nested_learnt x e (s.see x y) hn hr (hsee.1.trans ha) (hsee.2.trans hu) h
    refine ⟨i1, i2, fun hf => ?_⟩
    rcases i3 hf with hf | hf
    · rcases see_found x s y hf with hf | rfl
      · exact Or.inl hf
      · exact Or.inr List.mem_cons_self
    · exact Or.inr (List.mem_cons_of_mem _ hf)
  | .index a b, s, hn, hr, ha, hu, h => by
    have hs : nested x [] (.index a b) s = nested x [] b (nested x [] a s) := by simp [nested, ha, hu]
    simp only [noElse, Bool.and_eq_true] at hn
    simp only [repeated] at hr
    rw [hs] at h ⊢
    obtain ⟨i1, i2, i3⟩ := pair a b s hn hr (fun hr => nested_learnt x a s hn.1 hr ha hu)
      (fun t hr => nested_learnt x b t hn.2 hr) h
    exact ⟨by simpa [has] using i1, i2, i3⟩
  | .two .seq a b, s, hn, hr, ha, hu, h => by
    have hs : nested x [] (.two .seq a b) s = nested x [] b (nested x [] a s) := by simp [nested, ha, hu]
    simp only [noElse, Bool.and_eq_true] at hn
    simp only [repeated] at hr
    rw [hs] at h ⊢
    obtain ⟨i1, i2, i3⟩ := pair a b s hn hr (fun hr => nested_learnt x a s hn.1 hr ha hu)
      (fun t hr => nested_learnt x b t hn.2 hr) h
    exact ⟨by simpa [has] using i1, i2, i3⟩
  | .two .lazily a b, s, hn, hr, ha, hu, h => by
    have hs : nested x [] (.two .lazily a b) s = nested x [] b (nested x [] a s) := by simp [nested, ha, hu]
    simp only [noElse, Bool.and_eq_true] at hn
    simp only [repeated] at hr
    rw [hs] at h ⊢
    obtain ⟨i1, i2, i3⟩ := pair a b s hn hr (fun hr => nested_learnt x a s hn.1 hr ha hu)
      (fun t hr => nested_learnt x b t hn.2 hr) h
    exact ⟨by simpa [has] using i1, i2, i3⟩
  | .two .set a b, s, hn, hr, ha, hu, h => by
    have hs : nested x [] (.two .set a b) s = nested x [] b (nested x [] a s) := by simp [nested, ha, hu]
    simp only [noElse, Bool.and_eq_true] at hn
    simp only [repeated] at hr
    rw [hs] at h ⊢
    obtain ⟨i1, i2, i3⟩ := pair a b s hn hr (fun hr => nested_learnt x a s hn.1 hr ha hu)
      (fun t hr => nested_learnt x b t hn.2 hr) h
    exact ⟨by simpa [has] using i1, i2, i3⟩
  | .two (.letElse _) a b, s, hn, hr, ha, hu, h => nomatch hn
  | .here y p b, s, hn, hr, ha, hu, h => by
    have hs : nested x [] (.here y p b) s = { s with after := true } := by simp [nested, ha, hu]
    rw [hs]
    exact ⟨rfl, by simp [later], Or.inl⟩
where
  pair (a b : Expr) (s : Nest) (hn : noElse a = true ∧ noElse b = true)
      (hr : (if has a then repeated a else repeated b) = false)
      (iha : repeated a = false → (nested x [] a s).used = false → Learnt x a s (nested x [] a s))
      (ihb : ∀ t : Nest, repeated b = false → t.after = false → t.used = false → (nested x [] b t).used = false →
        Learnt x b t (nested x [] b t))
      (h : (nested x [] b (nested x [] a s)).used = false) :
      ((nested x [] b (nested x [] a s)).after = (has a || has b)) ∧
      (∀ c ∈ (if has a then later a ++ accs b else later b), Safe x [] c) ∧
      ((nested x [] b (nested x [] a s)).found = true → s.found = true ∨ x ∈ decls a ++ decls b) := by
    have hu : (nested x [] a s).used = false := by
      cases hx : (nested x [] a s).used with
      | false => rfl
      | true => rw [nested_used x [] b _ hx, hx] at h; exact nomatch h
    have hra : repeated a = false := by
      cases hx : repeated a with
      | false => rfl
      | true => rw [if_pos (repeated_has a hx), hx] at hr; exact nomatch hr
    obtain ⟨i1, i2, i3⟩ := iha hra hu
    cases hh : has a with
    | true =>
      rw [hh] at i1
      rw [nested_after x [] b _ hu i1] at h ⊢
      refine ⟨by simp [i1], ?_, ?_⟩
      · intro c hc
        simp only [if_true] at hc
        rcases List.mem_append.1 hc with hc | hc
        · exact i2 c hc
        · have hv : visit false x [] false b = false := h
          rw [visit_noElse x [] b false hn.2] at hv
          exact (visit_clear x [] b false (Or.inr rfl) hv).accs c hc
      · intro hf
        rcases i3 hf with hf | hf
        · exact Or.inl hf
        · exact Or.inr (List.mem_append.2 (Or.inl hf))
    | false =>
      rw [hh] at i1
      obtain ⟨j1, j2, j3⟩ := ihb _ (by simpa [hh] using hr) i1 hu h
      refine ⟨by simpa using j1, by simpa using j2, ?_⟩
      intro hf
      rcases j3 hf with hf | hf
      · rcases i3 hf with hf | hf
        · exact Or.inl hf
        · exact Or.inr (List.mem_append.2 (Or.inl hf))
      · exact Or.inr (List.mem_append.2 (Or.inr hf))

theorem repeated_enclosing : ∀ e : Expr, repeated e = true → (enclosing e).isSome = true
  | .field e _, h => repeated_enclosing e h
  | .deref _ e, h => repeated_enclosing e h
  | .wrap e, h => repeated_enclosing e h
  | .addr e, h => repeated_enclosing e h
  | .auto e, h => repeated_enclosing e h
  | .one .loop e, h => by
    have : contains e = true := (contains_eq e).trans h
    simp [enclosing, this]
  | .one (.closure false) e, h => by
    have : contains e = true := (contains_eq e).trans h
    simp [enclosing, this]
  | .one (.closure true) e, h => repeated_enclosing e h
  | .one .next e, h => repeated_enclosing e h
  | .one (.bind _) e, h => repeated_enclosing e h
  | .index a b, h => by
    simp only [repeated] at h
    simp only [enclosing, contains_eq]
    split at h
    · rw [if_pos ‹_›]; exact repeated_enclosing a h
    · rw [if_neg ‹_›]; exact repeated_enclosing b h
  | .two _ a b, h => by
    simp only [repeated] at h
    simp only [enclosing, contains_eq]
    split at h
    · rw [if_pos ‹_›]; exact repeated_enclosing a h
    · rw [if_neg ‹_›]; exact repeated_enclosing b h

/-- What is around the loop is seen from outside through the variables declared there only. -/
theorem lift (x : Var) : ∀ (e l : Expr), Scoped e → enclosing e = some l →
    (∃ k e', l = .one k e' ∧ (k = .loop ∨ k = .closure false) ∧ has e' = true ∧ repeated e' = false ∧
      (noElse e = true → noElse e' = true) ∧
      (x ∈ decls e' → (∀ a ∈ later e', Safe x [] a) → x ∈ inner e ∧ ∀ a ∈ later e, a.1 ≠ x))
  | .lit _, _, _, h => nomatch h
  | .brk, _, _, h => nomatch h
  | .path _, _, _, h => nomatch h
  | .here .., _, _, h => nomatch h
  | .field e _, l, hs, h => lift x e l hs h
  | .deref _ e, l, hs, h => lift x e l hs h
  | .wrap e, l, hs, h => lift x e l hs h
  | .addr e, l, hs, h => lift x e l hs h
  | .auto e, l, hs, h => lift x e l hs h
  | .one .next e, l, hs, h => lift x e l hs h
  | .one (.bind _) e, l, hs, h => lift x e l hs h
  | .one (.closure true) e, l, hs, h => by
    obtain ⟨k, e', h1, h2, h3, h4, h5, h6⟩ := lift x e l hs h
    exact ⟨k, e', h1, h2, h3, h4, h5, fun hd hl => ⟨inner_decls e x (h6 hd hl).1, (h6 hd hl).2⟩⟩
  | .one .loop e, l, hs, h => by
    simp only [enclosing, contains_eq] at h
    split at h
    · exact around .loop e l (Or.inl rfl) ‹_› h rfl (by simp [later, *]) (fun l => lift x e l hs)
    · exact nomatch h
  | .one (.closure false) e, l, hs, h => by
    simp only [enclosing, contains_eq] at h
    split at h
    · exact around (.closure false) e l (Or.inr rfl) ‹_› h rfl (by simp [later, *]) (fun l => lift x e l hs)
    · exact nomatch h
  | .index a b, l, hs, h => by
    simp only [enclosing, contains_eq] at h
    obtain ⟨k, e', h1, h2, h3, h4, h5, h6⟩ := pair a b l hs (lift x a l hs.2.1) (lift x b l hs.2.2) h
    exact ⟨k, e', h1, h2, h3, h4, h5, h6⟩
  | .two o a b, l, hs, h => by
    simp only [enclosing, contains_eq] at h
    obtain ⟨k, e', h1, h2, h3, h4, h5, h6⟩ := pair a b l hs (lift x a l hs.2.1) (lift x b l hs.2.2) h
    refine ⟨k, e', h1, h2, h3, h4, fun hn => h5 ?_, h6⟩
    cases o with
    | letElse y => exact nomatch hn
    | _ => exact hn
where
  around (k : One) (e l : Expr) (hk : k = .loop ∨ k = .closure false) (hh : has e = true)
      (h : some ((enclosing e).getD (.one k e)) = some l) (hi : inner (.one k e) = decls e)
      (hl : later (.one k e) = later e ++ (accs e).filter (fun a => !(decls e).contains a.1))
      (ih : ∀ l, enclosing e = some l →
        (∃ k e', l = .one k e' ∧ (k = .loop ∨ k = .closure false) ∧ has e' = true ∧ repeated e' = false ∧
          (noElse e = true → noElse e' = true) ∧
          (x ∈ decls e' → (∀ a ∈ later e', Safe x [] a) → x ∈ inner e ∧ ∀ a ∈ later e, a.1 ≠ x))) :
      (∃ k' e', l = .one k' e' ∧ (k' = .loop ∨ k' = .closure false) ∧ has e' = true ∧ repeated e' = false ∧
        (noElse (.one k e) = true → noElse e' = true) ∧
        (x ∈ decls e' → (∀ a ∈ later e', Safe x [] a) →
          x ∈ inner (.one k e) ∧ ∀ a ∈ later (.one k e), a.1 ≠ x)) := by
    have hf : x ∈ decls e → ∀ a ∈ (accs e).filter (fun a => !(decls e).contains a.1), a.1 ≠ x := by
      intro hd a ha hx
      have := (List.mem_filter.1 ha).2
      rw [hx] at this
      simp [hd] at this
    rw [hl, hi]
    cases he : enclosing e with
    | none =>
      rw [he] at h
      cases h
      have hr : repeated e = false := by
        cases hx : repeated e with
        | false => rfl
        | true => have := repeated_enclosing e hx; rw [he] at this; exact nomatch this
      refine ⟨k, e, rfl, hk, hh, hr, id, fun hd hl => ⟨hd, ?_⟩⟩
      intro a ha
      rcases List.mem_append.1 ha with ha | ha
      · exact fun hx => hl a ha hx (Or.inl List.nil_prefix)
      · exact hf hd a ha
    | some l' =>
      rw [he] at h
      cases h
      obtain ⟨k', e', h1, h2, h3, h4, h5, h6⟩ := ih _ he
      refine ⟨k', e', h1, h2, h3, h4, h5, fun hd hl => ?_⟩
      obtain ⟨h7, h8⟩ := h6 hd hl
      refine ⟨inner_decls e x h7, ?_⟩
      intro a ha
      rcases List.mem_append.1 ha with ha | ha
      · exact h8 a ha
      · exact hf (inner_decls e x h7) a ha
  pair (a b l : Expr) (hs : (∀ y ∈ inner a, ∀ q, (y, q) ∉ accs b) ∧ Scoped a ∧ Scoped b)
      (iha : enclosing a = some l →
        (∃ k e', l = .one k e' ∧ (k = .loop ∨ k = .closure false) ∧ has e' = true ∧ repeated e' = false ∧
          (noElse a = true → noElse e' = true) ∧
          (x ∈ decls e' → (∀ c ∈ later e', Safe x [] c) → x ∈ inner a ∧ ∀ c ∈ later a, c.1 ≠ x)))
      (ihb : enclosing b = some l →
        (∃ k e', l = .one k e' ∧ (k = .loop ∨ k = .closure false) ∧ has e' = true ∧ repeated e' = false ∧
          (noElse b = true → noElse e' = true) ∧
          (x ∈ decls e' → (∀ c ∈ later e', Safe x [] c) → x ∈ inner b ∧ ∀ c ∈ later b, c.1 ≠ x)))
      (h : (if has a then enclosing a else enclosing b) = some l) :
      (∃ k e', l = .one k e' ∧ (k = .loop ∨ k = .closure false) ∧ has e' = true ∧ repeated e' = false ∧
        ((noElse a && noElse b) = true → noElse e' = true) ∧
        (x ∈ decls e' → (∀ c ∈ later e', Safe x [] c) → x ∈ inner a ++ inner b ∧
          ∀ c ∈ (if has a then later a ++ accs b else later b), c.1 ≠ x)) := by
    cases hh : has a with
    | true =>
      obtain ⟨k, e', h1, h2, h3, h4, h5, h6⟩ := iha (by simpa [hh] using h)
      refine ⟨k, e', h1, h2, h3, h4, fun hn => h5 (by simp at hn; exact hn.1), fun hd hl => ?_⟩
      obtain ⟨h7, h8⟩ := h6 hd hl
      refine ⟨List.mem_append.2 (Or.inl h7), ?_⟩
      intro c hc
      simp only [if_true] at hc
      rcases List.mem_append.1 hc with hc | hc
      · exact h8 c hc
      · rintro rfl
        exact hs.1 _ h7 c.2 hc
    | false =>
      obtain ⟨k, e', h1, h2, h3, h4, h5, h6⟩ := ihb (by simpa [hh] using h)
      refine ⟨k, e', h1, h2, h3, h4, fun hn => h5 (by simp at hn; exact hn.2), fun hd hl => ?_⟩
      obtain ⟨h7, h8⟩ := h6 hd hl
      exact ⟨List.mem_append.2 (Or.inr h7), by simpa using h8⟩

end Verif.WhileIter
