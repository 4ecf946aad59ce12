import Verif.RangeLoop.Spec
import Verif.RangeLoop.Model

/-!
# What the visitor knows about the new body
-/

namespace Verif.RangeLoop

theorem uses_iff (x : Var) : ∀ (e : Expr), uses x e = true ↔ x ∈ vars e
  | .lit _ => by simp [uses, vars]
  | .brk => by simp [uses, vars]
  | .item => by simp [uses, vars]
  | .path y => by
    simp only [uses, vars, beq_iff_eq, List.mem_singleton]
    exact eq_comm
  | .field e _ => uses_iff x e
  | .one _ e => uses_iff x e
  | .index a b => by simp [uses, vars, uses_iff x a, uses_iff x b]
  | .two _ a b => by simp [uses, vars, uses_iff x a, uses_iff x b]

theorem declared_binds : ∀ (e : Expr), declared e = binds e
  | .lit _ => rfl
  | .brk => rfl
  | .path _ => rfl
  | .item => rfl
  | .field e _ => declared_binds e
  | .index a b => by simp [declared, binds, declared_binds a, declared_binds b]
  | .two _ a b => by simp [declared, binds, declared_binds a, declared_binds b]
  | .one .addr e => declared_binds e
  | .one .addrMut e => declared_binds e
  | .one .callMut e => declared_binds e
  | .one .refMut e => declared_binds e
  | .one .loop e => declared_binds e
  | .one (.bind x) e => by simp [declared, binds, declared_binds e]

theorem indexVars_sub : ∀ (e : Expr) (x : Var), x ∈ indexVars e → x ∈ vars e
  | .lit _, _, h => h
  | .brk, _, h => h
  | .item, _, h => h
  | .path _, _, h => nomatch h
  | .field e _, x, h => indexVars_sub e x h
  | .one _ e, x, h => indexVars_sub e x h
  | .index e j, x, h => by
    rcases List.mem_append.1 h with h | h
    · exact List.mem_append.2 (Or.inl (indexVars_sub e x h))
    · exact List.mem_append.2 (Or.inr h)
  | .two _ e j, x, h => by
    rcases List.mem_append.1 h with h | h
    · exact List.mem_append.2 (Or.inl (indexVars_sub e x h))
    · exact List.mem_append.2 (Or.inr (indexVars_sub j x h))

theorem vars_subst (s : Expr) (i : Var) : ∀ (e : Expr) (x : Var), x ∈ vars (subst s i e) → x ∈ vars e
  | .lit _, _, h => h
  | .brk, _, h => h
  | .item, _, h => h
  | .path _, _, h => h
  | .field e _, x, h => vars_subst s i e x h
  | .one _ e, x, h => vars_subst s i e x h
  | .two _ a b, x, h => by
    rcases List.mem_append.1 h with h | h
    · exact List.mem_append.2 (Or.inl (vars_subst s i a x h))
    · exact List.mem_append.2 (Or.inr (vars_subst s i b x h))
  | .index a b, x, h => by
    simp only [subst] at h
    split at h
    · exact nomatch h
    · rcases List.mem_append.1 h with h | h
      · exact List.mem_append.2 (Or.inl (vars_subst s i a x h))
      · exact List.mem_append.2 (Or.inr (vars_subst s i b x h))

/-- Where the index is not used nothing is replaced. -/
theorem subst_unused (s : Expr) (i : Var) : ∀ (e : Expr), uses i e = false → subst s i e = e
  | .lit _, _ => rfl
  | .brk, _ => rfl
  | .item, _ => rfl
  | .path _, _ => rfl
  | .field e _, h => by simp only [subst]; rw [subst_unused s i e h]
  | .one _ e, h => by simp only [subst]; rw [subst_unused s i e h]
  | .two _ a b, h => by
    simp only [uses, Bool.or_eq_false_iff] at h
    simp only [subst]; rw [subst_unused s i a h.1, subst_unused s i b h.2]
  | .index a b, h => by
    simp only [uses, Bool.or_eq_false_iff] at h
    simp only [subst]
    rw [if_neg, subst_unused s i a h.1, subst_unused s i b h.2]
    rintro ⟨_, rfl⟩
    simp [uses] at h

theorem isPath_uses {i : Var} {j : Expr} (h : uses i j = true) (hp : isPath j = true) : j = .path i := by
  cases j with
  | path x => simp only [uses, beq_iff_eq] at h; rw [h]
  | lit _ => exact nomatch hp
  | brk => exact nomatch hp
  | item => exact nomatch hp
  | field _ _ => exact nomatch hp
  | index _ _ => exact nomatch hp
  | one _ _ => exact nomatch hp
  | two _ _ _ => exact nomatch hp

/-- Nothing was peeled off. -/
theorem nested_zero (i : Var) (e : Expr) (h : (nested i e).2.1 = 0) : (nested i e).1 = e := by
  cases e with
  | index a b =>
    simp only [nested] at h ⊢
    split at h
    · simp at h
    · rename_i hu
      rw [if_neg hu]
  | lit _ => rfl
  | brk => rfl
  | path _ => rfl
  | item => rfl
  | field _ _ => rfl
  | one _ _ => rfl
  | two _ _ _ => rfl

theorem base_nested (i : Var) : ∀ (e : Expr), base (nested i e).1 = base e
  | .index a b => by
    simp only [nested]
    split
    · exact base_nested i a
    · rfl
  | .lit _ => rfl
  | .brk => rfl
  | .path _ => rfl
  | .item => rfl
  | .field _ _ => rfl
  | .one _ _ => rfl
  | .two _ _ _ => rfl

theorem base_root : ∀ (e : Expr) (x : Var), base e = some x → root e = some x
  | .path _, _, h => h
  | .field e _, x, h => base_root e x h
  | .index e _, x, h => base_root e x h

/-- At least one index was peeled off, and all are the variable. -/
theorem nested_pos (i : Var) : ∀ (e : Expr), (nested i e).2.1 ≠ 0 → (nested i e).2.2 = true →
    (∀ x, x ∈ vars (subst (nested i e).1 i e) → x = i) ∧
    ((nested i e).2.1 = 1 → subst (nested i e).1 i e = .item) ∧
    mutItem (subst (nested i e).1 i e) = false
  | .index a b, h, hd => by
    have hu : uses i b = true := by
      cases hu : uses i b with
      | true => rfl
      | false => simp [nested, hu] at h
    have e1 : nested i (.index a b) = ((nested i a).1, (nested i a).2.1 + 1, (nested i a).2.2 && isPath b) := by
      simp only [nested]; rw [if_pos hu]
    rw [e1] at hd ⊢
    simp only [Bool.and_eq_true] at hd ⊢
    have hb := isPath_uses hu hd.2
    subst hb
    by_cases hz : (nested i a).2.1 = 0
    · rw [nested_zero i a hz]
      simp [RangeLoop.subst, vars, mutItem]
    · obtain ⟨i1, i2, i3⟩ := nested_pos i a hz hd.1
      refine ⟨?_, fun h1 => absurd (by omega) hz, ?_⟩
      · intro x hx
        simp only [RangeLoop.subst] at hx
        split at hx
        · exact nomatch hx
        · rcases List.mem_append.1 hx with hx | hx
          · exact i1 x hx
          · simpa [vars] using hx
      · simp only [RangeLoop.subst]
        split
        · rfl
        · simp [mutItem, i3]
  | .lit _, h, _ => absurd rfl h
  | .brk, h, _ => absurd rfl h
  | .path _, h, _ => absurd rfl h
  | .item, h, _ => absurd rfl h
  | .field _ _, h, _ => absurd rfl h
  | .one _ _, h, _ => absurd rfl h
  | .two _ _ _, h, _ => absurd rfl h

/-- The only container that is indexed. -/
structure Facts.Only (f : Facts) (x : Var) (s : Expr) : Prop where
  ind : f.indirect = []
  dir : ∀ p ∈ f.direct, p = (x, s)

theorem Facts.Only.left {f g : Facts} {x : Var} {s : Expr} (h : (f.join g).Only x s) : f.Only x s :=
  ⟨(List.append_eq_nil_iff.1 h.ind).1, fun p hp => h.dir p (List.mem_append.2 (Or.inl hp))⟩

theorem Facts.Only.right {f g : Facts} {x : Var} {s : Expr} (h : (f.join g).Only x s) : g.Only x s :=
  ⟨(List.append_eq_nil_iff.1 h.ind).2, fun p hp => h.dir p (List.mem_append.2 (Or.inr hp))⟩

/-- What an index of the container looks like. -/
theorem checkIndex_some {i : Var} {pm : Bool} {e j : Expr} {f : Facts} {x : Var} {s : Expr}
    (h : checkIndex i pm e j = some f) (ho : f.Only x s) :
    (pm = true → x ∈ f.indexedMut) ∧
    ((e = s ∧ j = .path i) ∨
     ((nested i e).1 = s ∧ (nested i e).2.1 ≠ 0 ∧ (nested i e).2.2 = true ∧ (uses i j = false ∨ j = .path i) ∧
      (f.nonindex = false → (nested i e).2.1 = 1 ∧ uses i j = false))) := by
  unfold checkIndex at h
  split at h
  · exact nomatch h
  · rename_i hc
    split at h
    · rename_i y hy
      cases h
      have hd : usedDirectly i e j = true := by
        cases hd : usedDirectly i e j with
        | true => rfl
        | false => have := ho.ind; simp [hd] at this
      have hp := ho.dir (y, (nested i e).1) (by simp [hd])
      cases hp
      refine ⟨fun hpm => by simp [hpm], ?_⟩
      simp only [usedDirectly, Bool.and_eq_true, Bool.or_eq_true, Bool.not_eq_true'] at hd
      by_cases hz : (nested i e).2.1 = 0
      · left
        have hu : uses i j = true := by
          cases hu : uses i j with
          | true => rfl
          | false => simp [usedCnt, hz, hu] at hc
        refine ⟨(nested_zero i e hz).symm, isPath_uses hu ?_⟩
        rcases hd.2 with h | h
        · rw [hu] at h; exact nomatch h
        · exact h
      · right
        refine ⟨rfl, hz, hd.1, ?_, ?_⟩
        · cases hu : uses i j with
          | false => exact Or.inl rfl
          | true =>
            right
            rcases hd.2 with h | h
            · rw [hu] at h; exact nomatch h
            · exact isPath_uses hu h
        · intro hn
          have hn' : ¬ 1 < usedCnt i e j := of_decide_eq_false hn
          unfold usedCnt at hn'
          cases hu : uses i j with
          | false => rw [hu] at hn'; simp at hn'; exact ⟨by omega, rfl⟩
          | true => rw [hu] at hn'; simp at hn'; omega
    · exact nomatch h

/-- The new body does not mention the container. -/
theorem scan_gone (i x : Var) (s : Expr) (hx : x ≠ i) : ∀ (e : Expr) (pm : Bool), (scan i pm e).Only x s →
    x ∉ (scan i pm e).referenced → x ∉ indexVars e → x ∉ vars (subst s i e)
  | .lit _, _, _, _, _ => fun h => nomatch h
  | .brk, _, _, _, _ => fun h => nomatch h
  | .item, _, _, _, _ => fun h => nomatch h
  | .path y, pm, _, hr, _ => by
    simp only [scan] at hr
    split at hr
    · rename_i he
      have : y = i := by simpa using he
      simpa [subst, vars, this] using hx
    · simpa [subst, vars] using hr
  | .field e _, pm, ho, hr, hv => scan_gone i x s hx e pm ho hr hv
  | .one .addr e, pm, ho, hr, hv => scan_gone i x s hx e pm ho hr hv
  | .one .addrMut e, _, ho, hr, hv => scan_gone i x s hx e true ho hr hv
  | .one .callMut e, _, ho, hr, hv => scan_gone i x s hx e true ho hr hv
  | .one .refMut e, pm, ho, hr, hv => scan_gone i x s hx e pm ho hr hv
  | .one (.bind _) e, pm, ho, hr, hv => scan_gone i x s hx e pm ho hr hv
  | .one .loop e, pm, ho, hr, hv => scan_gone i x s hx e pm ho hr hv
  | .two .set a b, _, ho, hr, hv => by
    simp only [scan, Facts.join, List.mem_append, not_or] at hr
    simp only [indexVars, List.mem_append, not_or] at hv
    simp only [subst, vars, List.mem_append, not_or]
    exact ⟨scan_gone i x s hx a false ho.right hr.2 hv.1, scan_gone i x s hx b true ho.left hr.1 hv.2⟩
  | .two .seq a b, pm, ho, hr, hv => by
    simp only [scan, Facts.join, List.mem_append, not_or] at hr
    simp only [indexVars, List.mem_append, not_or] at hv
    simp only [subst, vars, List.mem_append, not_or]
    exact ⟨scan_gone i x s hx a pm ho.left hr.1 hv.1, scan_gone i x s hx b pm ho.right hr.2 hv.2⟩
  | .two .lazily a b, pm, ho, hr, hv => by
    simp only [scan, Facts.join, List.mem_append, not_or] at hr
    simp only [indexVars, List.mem_append, not_or] at hv
    simp only [subst, vars, List.mem_append, not_or]
    exact ⟨scan_gone i x s hx a pm ho.left hr.1 hv.1, scan_gone i x s hx b pm ho.right hr.2 hv.2⟩
  | .index e j, pm, ho, hr, hv => by
    simp only [indexVars, List.mem_append, not_or] at hv
    simp only [subst]
    split
    · exact fun h => nomatch h
    · rename_i hne
      simp only [vars, List.mem_append, not_or]
      simp only [scan] at ho hr
      split at ho
      · rename_i f hf
        rcases (checkIndex_some hf ho).2 with h | ⟨h1, h2, h3, _, _⟩
        · exact absurd h hne
        · subst h1
          exact ⟨fun h => hx ((nested_pos i e h2 h3).1 x h), fun h => hv.2 (vars_subst _ _ _ _ h)⟩
      · rename_i hn
        rw [hn] at hr
        simp only [Facts.join, List.mem_append, not_or] at hr
        exact ⟨scan_gone i x s hx e pm ho.left hr.1 hv.1,
          scan_gone i x s hx j pm ho.right hr.2 (fun h => hv.2 (indexVars_sub j x h))⟩

/-- The new body does not use the index. -/
theorem scan_unused (i x : Var) (s : Expr) : ∀ (e : Expr) (pm : Bool), (scan i pm e).Only x s →
    (scan i pm e).nonindex = false → i ∉ vars (subst s i e)
  | .lit _, _, _, _ => fun h => nomatch h
  | .brk, _, _, _ => fun h => nomatch h
  | .item, _, _, _ => fun h => nomatch h
  | .path y, pm, _, hr => by
    simp only [scan] at hr
    split at hr
    · exact nomatch hr
    · rename_i he
      simp only [subst, vars, List.mem_singleton]
      intro h
      exact he (by simp [h])
  | .field e _, pm, ho, hr => scan_unused i x s e pm ho hr
  | .one .addr e, pm, ho, hr => scan_unused i x s e pm ho hr
  | .one .addrMut e, _, ho, hr => scan_unused i x s e true ho hr
  | .one .callMut e, _, ho, hr => scan_unused i x s e true ho hr
  | .one .refMut e, pm, ho, hr => scan_unused i x s e pm ho hr
  | .one (.bind _) e, pm, ho, hr => scan_unused i x s e pm ho hr
  | .one .loop e, pm, ho, hr => scan_unused i x s e pm ho hr
  | .two .set a b, _, ho, hr => by
    simp only [scan, Facts.join, Bool.or_eq_false_iff] at hr
    simp only [subst, vars, List.mem_append, not_or]
    exact ⟨scan_unused i x s a false ho.right hr.2, scan_unused i x s b true ho.left hr.1⟩
  | .two .seq a b, pm, ho, hr => by
    simp only [scan, Facts.join, Bool.or_eq_false_iff] at hr
    simp only [subst, vars, List.mem_append, not_or]
    exact ⟨scan_unused i x s a pm ho.left hr.1, scan_unused i x s b pm ho.right hr.2⟩
  | .two .lazily a b, pm, ho, hr => by
    simp only [scan, Facts.join, Bool.or_eq_false_iff] at hr
    simp only [subst, vars, List.mem_append, not_or]
    exact ⟨scan_unused i x s a pm ho.left hr.1, scan_unused i x s b pm ho.right hr.2⟩
  | .index e j, pm, ho, hr => by
    simp only [subst]
    split
    · exact fun h => nomatch h
    · rename_i hne
      simp only [vars, List.mem_append, not_or]
      simp only [scan] at ho hr
      split at ho
      · rename_i f hf
        rw [hf] at hr
        rcases (checkIndex_some hf ho).2 with h | ⟨h1, h2, h3, _, h5⟩
        · exact absurd h hne
        · subst h1
          obtain ⟨h6, h7⟩ := h5 hr
          rw [(nested_pos i e h2 h3).2.1 h6]
          refine ⟨fun h => (nomatch h), fun h => ?_⟩
          have := (uses_iff i j).2 (vars_subst _ _ _ _ h)
          rw [h7] at this
          exact nomatch this
      · rename_i hn
        rw [hn] at hr
        simp only [Facts.join, Bool.or_eq_false_iff] at hr
        exact ⟨scan_unused i x s e pm ho.left hr.1, scan_unused i x s j pm ho.right hr.2⟩

/-- Where a mutable place is preferred, the place is not a part of an element. -/
theorem scan_ofItem (i x : Var) (s : Expr) (hs : base s = some x) : ∀ (e : Expr), noItem e = true →
    (scan i true e).Only x s → x ∉ (scan i true e).indexedMut → ofItem (subst s i e) = false
  | .lit _, _, _, _ => rfl
  | .brk, _, _, _ => rfl
  | .item, h, _, _ => nomatch h
  | .path y, _, _, hr => rfl
  | .field e _, hn, ho, hr => scan_ofItem i x s hs e hn ho hr
  | .one .addr e, hn, ho, hr => scan_ofItem i x s hs e hn ho hr
  | .one .addrMut e, hn, ho, hr => scan_ofItem i x s hs e hn ho hr
  | .one .callMut e, _, _, _ => rfl
  | .one .refMut e, _, _, _ => rfl
  | .one (.bind _) e, _, _, _ => rfl
  | .one .loop e, _, _, _ => rfl
  | .two _ a b, _, _, _ => rfl
  | .index e j, hn, ho, hr => by
    simp only [noItem, Bool.and_eq_true] at hn
    simp only [scan] at ho hr
    split at ho
    · rename_i f hf
      rw [hf] at hr
      exact absurd ((checkIndex_some hf ho).1 rfl) hr
    · rename_i hc
      rw [hc] at hr
      simp only [Facts.join, List.mem_append, not_or] at hr
      simp only [subst]
      split
      · rename_i he
        obtain ⟨rfl, rfl⟩ := he
        have hb : base (nested i e).1 = some x := by rw [base_nested, hs]
        simp [checkIndex, usedCnt, uses, hb] at hc
      · exact scan_ofItem i x s hs e hn.1 ho.left hr.1

theorem noItem_ofItem : ∀ (e : Expr), noItem e = true → ofItem e = false
  | .lit _, _ => rfl
  | .brk, _ => rfl
  | .path _, _ => rfl
  | .field e _, h => noItem_ofItem e h
  | .index e _, h => by
    simp only [noItem, Bool.and_eq_true] at h
    exact noItem_ofItem e h.1
  | .one .addr e, h => noItem_ofItem e h
  | .one .addrMut e, h => noItem_ofItem e h
  | .one .callMut e, _ => rfl
  | .one .refMut e, _ => rfl
  | .one (.bind _) e, _ => rfl
  | .one .loop e, _ => rfl
  | .two _ a b, _ => rfl

theorem noItem_mutItem : ∀ (e : Expr), noItem e = true → mutItem e = false
  | .lit _, _ => rfl
  | .brk, _ => rfl
  | .path _, _ => rfl
  | .field e _, h => noItem_mutItem e h
  | .index a b, h => by
    simp only [noItem, Bool.and_eq_true] at h
    simp [mutItem, noItem_mutItem a h.1, noItem_mutItem b h.2]
  | .one .addr e, h => noItem_mutItem e h
  | .one .addrMut e, h => by
    have h' : noItem e = true := h
    simp [mutItem, noItem_ofItem e h', noItem_mutItem e h']
  | .one .callMut e, h => by
    have h' : noItem e = true := h
    simp [mutItem, noItem_ofItem e h', noItem_mutItem e h']
  | .one .refMut e, h => by
    have h' : noItem e = true := h
    simp [mutItem, noItem_ofItem e h', noItem_mutItem e h']
  | .one (.bind _) e, h => noItem_mutItem e h
  | .one .loop e, h => noItem_mutItem e h
  | .two .set a b, h => by
    simp only [noItem, Bool.and_eq_true] at h
    simp [mutItem, noItem_ofItem b h.2, noItem_mutItem a h.1, noItem_mutItem b h.2]
  | .two .seq a b, h => by
    simp only [noItem, Bool.and_eq_true] at h
    simp [mutItem, noItem_mutItem a h.1, noItem_mutItem b h.2]
  | .two .lazily a b, h => by
    simp only [noItem, Bool.and_eq_true] at h
    simp [mutItem, noItem_mutItem a h.1, noItem_mutItem b h.2]

/-- The new body does not change an element. -/
theorem scan_mutItem (i x : Var) (s : Expr) (hs : base s = some x) : ∀ (e : Expr) (pm : Bool), noItem e = true →
    noRefMut e = true → (scan i pm e).Only x s → x ∉ (scan i pm e).indexedMut → mutItem (subst s i e) = false
  | .lit _, _, _, _, _, _ => rfl
  | .brk, _, _, _, _, _ => rfl
  | .item, _, _, _, _, _ => rfl
  | .path y, _, _, _, _, _ => rfl
  | .field e _, pm, hn, hm, ho, hr => scan_mutItem i x s hs e pm hn hm ho hr
  | .one .addr e, pm, hn, hm, ho, hr => scan_mutItem i x s hs e pm hn hm ho hr
  | .one .addrMut e, _, hn, hm, ho, hr => by
    simp [subst, mutItem, scan_ofItem i x s hs e hn ho hr, scan_mutItem i x s hs e true hn hm ho hr]
  | .one .callMut e, _, hn, hm, ho, hr => by
    simp [subst, mutItem, scan_ofItem i x s hs e hn ho hr, scan_mutItem i x s hs e true hn hm ho hr]
  | .one .refMut e, _, _, hm, _, _ => nomatch hm
  | .one (.bind _) e, pm, hn, hm, ho, hr => scan_mutItem i x s hs e pm hn hm ho hr
  | .one .loop e, pm, hn, hm, ho, hr => scan_mutItem i x s hs e pm hn hm ho hr
  | .two .set a b, _, hn, hm, ho, hr => by
    simp only [noItem, Bool.and_eq_true] at hn
    simp only [noRefMut, Bool.and_eq_true] at hm
    simp only [scan, Facts.join, List.mem_append, not_or] at hr
    simp [subst, mutItem, scan_ofItem i x s hs b hn.2 ho.left hr.1,
      scan_mutItem i x s hs b true hn.2 hm.2 ho.left hr.1, scan_mutItem i x s hs a false hn.1 hm.1 ho.right hr.2]
  | .two .seq a b, pm, hn, hm, ho, hr => by
    simp only [noItem, Bool.and_eq_true] at hn
    simp only [noRefMut, Bool.and_eq_true] at hm
    simp only [scan, Facts.join, List.mem_append, not_or] at hr
    simp [subst, mutItem,
      scan_mutItem i x s hs a pm hn.1 hm.1 ho.left hr.1, scan_mutItem i x s hs b pm hn.2 hm.2 ho.right hr.2]
  | .two .lazily a b, pm, hn, hm, ho, hr => by
    simp only [noItem, Bool.and_eq_true] at hn
    simp only [noRefMut, Bool.and_eq_true] at hm
    simp only [scan, Facts.join, List.mem_append, not_or] at hr
    simp [subst, mutItem,
      scan_mutItem i x s hs a pm hn.1 hm.1 ho.left hr.1, scan_mutItem i x s hs b pm hn.2 hm.2 ho.right hr.2]
  | .index e j, pm, hn, hm, ho, hr => by
    simp only [noItem, Bool.and_eq_true] at hn
    simp only [noRefMut, Bool.and_eq_true] at hm
    simp only [subst]
    split
    · rfl
    · rename_i hne
      simp only [scan] at ho hr
      split at ho
      · rename_i f hf
        rcases (checkIndex_some hf ho).2 with h | ⟨h1, h2, h3, h4, _⟩
        · exact absurd h hne
        · subst h1
          have hj : mutItem (subst (nested i e).1 i j) = false := by
            rcases h4 with h4 | rfl
            · rw [subst_unused _ _ _ h4]; exact noItem_mutItem j hn.2
            · rfl
          simp [mutItem, (nested_pos i e h2 h3).2.2, hj]
      · rename_i hc
        rw [hc] at hr
        simp only [Facts.join, List.mem_append, not_or] at hr
        simp [mutItem,
          scan_mutItem i x s hs e pm hn.1 hm.1 ho.left hr.1, scan_mutItem i x s hs j pm hn.2 hm.2 ho.right hr.2]

end Verif.RangeLoop
