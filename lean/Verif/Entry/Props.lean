import Verif.Entry.Closure

/-!
# Properties: the suggested program does the same
-/

namespace Verif.Entry

variable (fa : Facts)

mutual
/-- A mentioned key has been seen. -/
theorem visit_sees : ∀ (d : Nat) (e : Ex) (st : Srch), (visit fa d e st).can = true → hasKey e = true →
    (visit fa d e st).keyUsed = true
  | d, .ins own v, st, hc, hk => by
    have h0 := (visit_le fa d (.ins own v) st).can hc
    simp only [visit_ins fa h0] at hc ⊢
    generalize st.restore (walk fa d v { st with mapUsed := st.mapUsed || fa.keyUsesMap }) = st1 at hc ⊢
    by_cases hm : (st1.mapUsed || !own) = true
    · rw [if_pos hm] at hc; exact nomatch hc
    · rw [if_neg hm] at hc ⊢
      simp only [hasKey] at hk
      exact visit_sees d v _ hc hk
  | d, .part n, st, hc, hk => by simp [hasKey] at hk
  | d, .key, st, hc, hk => by
    have h0 := (visit_le fa d .key st).can hc
    rw [visit_key fa h0]
  | d, .ite c t e, st, hc, hk => by
    have h0 := (visit_le fa d (.ite c t e) st).can hc
    simp only [visit_ite fa h0] at hc ⊢
    have i1 := visit_sees d c { st with single := false, tail := false }
    generalize visit fa d c { st with single := false, tail := false } = st1 at i1 hc ⊢
    have i2 := visit_sees d t { st1 with tail := st.tail }
    have h2 := visit_le fa d t { st1 with tail := st.tail }
    generalize visit fa d t { st1 with tail := st.tail } = st2 at h2 i2 hc ⊢
    have i3 := visit_sees d e { st2 with mapUsed := st1.mapUsed, tail := st.tail }
    have h3 := visit_le fa d e { st2 with mapUsed := st1.mapUsed, tail := st.tail }
    generalize visit fa d e { st2 with mapUsed := st1.mapUsed, tail := st.tail } = st3 at h3 i3 hc ⊢
    simp only [hasKey, Bool.or_eq_true] at hk
    rcases hk with (hk | hk) | hk
    · exact h3.key (h2.key (i1 (h2.can (h3.can hc)) hk))
    · exact h3.key (i2 (h3.can hc) hk)
    · exact i3 hc hk
  | d, .when c t, st, hc, hk => by
    have h0 := (visit_le fa d (.when c t) st).can hc
    simp only [visit_when fa h0] at hc ⊢
    have h2 := visit_le fa d t (visit fa d c (st.other true))
    simp only [hasKey, Bool.or_eq_true] at hk
    rcases hk with hk | hk
    · exact h2.key (visit_sees d c _ (h2.can hc) hk)
    · exact visit_sees d t _ hc hk
  | d, .mtch s as, st, hc, hk => by
    have h0 := (visit_le fa d (.mtch s as) st).can hc
    simp only [visit_mtch fa h0] at hc ⊢
    have i1 := visit_sees d s { st with single := false, tail := false }
    generalize visit fa d s { st with single := false, tail := false } = st1 at i1 hc ⊢
    have h2 := arms_le fa d as { st1 with tail := st.tail } st1.mapUsed
    simp only [hasKey, Bool.or_eq_true] at hk
    rcases hk with hk | hk
    · exact h2.2.2.2.1 (i1 (h2.1 hc) hk)
    · exact arms_sees d as _ _ hc hk
  | d, .loop b, st, hc, hk => by
    have h0 := (visit_le fa d (.loop b) st).can hc
    simp only [visit_loop fa h0] at hc ⊢
    have ib := visitB_sees (d + 1) b { st.notTail with single := false }
    generalize visitB fa (d + 1) b { st.notTail with single := false } = st1 at ib hc ⊢
    by_cases hl : (st1.edits.length != st.edits.length) = true
    · rw [if_pos hl] at hc; exact nomatch hc
    · rw [if_neg hl] at hc ⊢
      simp only [hasKey] at hk
      exact ib hc hk
  | d, .blk b, st, hc, hk => by
    have h0 := (visit_le fa d (.blk b) st).can hc
    rw [visit_blk fa h0] at hc ⊢
    simp only [hasKey] at hk
    exact visitB_sees d b st hc hk
  | d, .asm n, st, hc, hk => by simp only [visit] at hc; exact nomatch hc
  | d, .op n args, st, hc, hk => by
    have h0 := (visit_le fa d (.op n args) st).can hc
    rw [visit_op fa h0] at hc ⊢
    simp only [hasKey] at hk
    exact all_sees d args _ hc hk
  | d, .eIns w v, st, hc, hk => by simp only [visit] at hc; exact nomatch hc
theorem all_sees : ∀ (d : Nat) (es : Exs) (st : Srch), (visitAll fa d es st).can = true → hasKeyAll es = true →
    (visitAll fa d es st).keyUsed = true
  | d, .nil, st, hc, hk => by simp [hasKeyAll] at hk
  | d, .cons e es, st, hc, hk => by
    simp only [visitAll] at hc ⊢
    have h2 := all_le fa d es (visit fa d e st)
    simp only [hasKeyAll, Bool.or_eq_true] at hk
    rcases hk with hk | hk
    · exact h2.key (visit_sees d e st (h2.can hc) hk)
    · exact all_sees d es _ hc hk
theorem visitB_sees : ∀ (d : Nat) (b : Blk) (st : Srch), (visitB fa d b st).can = true → hasKeyB b = true →
    (visitB fa d b st).keyUsed = true
  | d, .done, st, hc, hk => by simp [hasKeyB] at hk
  | d, .tail e, st, hc, hk => by
    simp only [visitB] at hc ⊢; simp only [hasKeyB] at hk; exact visit_sees d e st hc hk
  | d, .semi e r, st, hc, hk => by
    simp only [visitB] at hc ⊢
    simp only [hasKeyB, Bool.or_eq_true] at hk
    have h1 := le_afterSemi (visit fa d e (st.enter r.isDone))
    have i1 := visit_sees d e (st.enter r.isDone)
    generalize visit fa d e (st.enter r.isDone) = st1 at h1 i1 hc ⊢
    cases hr : r.isDone with
    | true =>
      simp only [hr, if_true] at hc ⊢
      rw [isDone_eq hr] at hk
      rcases hk with hk | hk
      · exact h1.key (i1 (h1.can hc) hk)
      · simp [hasKeyB] at hk
    | false =>
      simp only [hr, Bool.false_eq_true, if_false] at hc ⊢
      have h2 := visitB_le fa d r { st1.afterSemi with tail := st.tail }
      rcases hk with hk | hk
      · exact h2.key (h1.key (i1 (h1.can (h2.can hc)) hk))
      · exact visitB_sees d r _ hc hk
  | d, .stmt e r, st, hc, hk => by
    simp only [visitB] at hc ⊢
    simp only [hasKeyB, Bool.or_eq_true] at hk
    have i1 := visit_sees d e (st.enter r.isDone)
    generalize visit fa d e (st.enter r.isDone) = st1 at i1 hc ⊢
    cases hr : r.isDone with
    | true =>
      simp only [hr, if_true] at hc ⊢
      rw [isDone_eq hr] at hk
      rcases hk with hk | hk
      · exact i1 hc hk
      · simp [hasKeyB] at hk
    | false =>
      simp only [hr, Bool.false_eq_true, if_false] at hc ⊢
      have h2 := visitB_le fa d r { st1 with tail := st.tail }
      rcases hk with hk | hk
      · exact h2.key (i1 (h2.can hc) hk)
      · exact visitB_sees d r _ hc hk
  | d, .letWild e r, st, hc, hk => by
    simp only [visitB] at hc ⊢
    simp only [hasKeyB, Bool.or_eq_true] at hk
    have i1 := visit_sees d e (st.enter r.isDone).forInit
    generalize visit fa d e (st.enter r.isDone).forInit = st1 at i1 hc ⊢
    cases hr : r.isDone with
    | true =>
      simp only [hr, if_true] at hc ⊢
      rw [isDone_eq hr] at hk
      rcases hk with hk | hk
      · exact i1 hc hk
      · simp [hasKeyB] at hk
    | false =>
      simp only [hr, Bool.false_eq_true, if_false] at hc ⊢
      have h2 := visitB_le fa d r { st1 with tail := st.tail }
      rcases hk with hk | hk
      · exact h2.key (i1 (h2.can hc) hk)
      · exact visitB_sees d r _ hc hk
  | d, .let_ p e r, st, hc, hk => by
    simp only [visitB] at hc ⊢
    simp only [hasKeyB, Bool.or_eq_true] at hk
    have i1 := visit_sees d e (st.enter r.isDone).forInit
    generalize visit fa d e (st.enter r.isDone).forInit = st1 at i1 hc ⊢
    cases hr : r.isDone with
    | true =>
      simp only [hr, if_true] at hc ⊢
      rw [isDone_eq hr] at hk
      rcases hk with hk | hk
      · exact i1 hc hk
      · simp [hasKeyB] at hk
    | false =>
      simp only [hr, Bool.false_eq_true, if_false] at hc ⊢
      have h2 := visitB_le fa d r { st1 with tail := st.tail }
      rcases hk with hk | hk
      · exact h2.key (i1 (h2.can hc) hk)
      · exact visitB_sees d r _ hc hk
  | d, .letElse p e els r, st, hc, hk => by
    simp only [visitB] at hc ⊢
    simp only [hasKeyB, Bool.or_eq_true] at hk
    have i1 := visit_sees d e (st.enter r.isDone).forInit
    generalize visit fa d e (st.enter r.isDone).forInit = st1 at i1 hc ⊢
    have ie := visitB_sees d els st1
    have he := visitB_le fa d els st1
    generalize visitB fa d els st1 = st2 at ie he hc ⊢
    cases hr : r.isDone with
    | true =>
      simp only [hr, if_true] at hc ⊢
      rw [isDone_eq hr] at hk
      rcases hk with (hk | hk) | hk
      · exact he.key (i1 (he.can hc) hk)
      · exact ie hc hk
      · simp [hasKeyB] at hk
    | false =>
      simp only [hr, Bool.false_eq_true, if_false] at hc ⊢
      have h2 := visitB_le fa d r { st2 with tail := st.tail }
      rcases hk with (hk | hk) | hk
      · exact h2.key (he.key (i1 (he.can (h2.can hc)) hk))
      · exact h2.key (ie (h2.can hc) hk)
      · exact visitB_sees d r _ hc hk
  | d, .decl r, st, hc, hk => by
    simp only [visitB] at hc ⊢
    simp only [hasKeyB] at hk
    cases hr : r.isDone with
    | true => rw [isDone_eq hr] at hk; simp [hasKeyB] at hk
    | false =>
      simp only [hr, Bool.false_eq_true, if_false] at hc ⊢
      exact visitB_sees d r _ hc hk
  | d, .item r, st, hc, hk => by
    simp only [visitB] at hc ⊢
    simp only [hasKeyB] at hk
    cases hr : r.isDone with
    | true => rw [isDone_eq hr] at hk; simp [hasKeyB] at hk
    | false =>
      simp only [hr, Bool.false_eq_true, if_false] at hc ⊢
      exact visitB_sees d r _ hc hk
theorem arms_sees : ∀ (d : Nat) (as : Arms) (st : Srch) (acc : Bool), (visitArms fa d as st acc).1.can = true →
    hasKeyArms as = true → (visitArms fa d as st acc).1.keyUsed = true
  | d, .nil, st, acc, hc, hk => by simp [hasKeyArms] at hk
  | d, .arm p e r, st, acc, hc, hk => by
    simp only [visitArms] at hc ⊢
    have h2 := arms_le fa d r { visit fa d e st with mapUsed := st.mapUsed, tail := st.tail }
      (acc || (visit fa d e st).mapUsed)
    simp only [hasKeyArms, Bool.or_eq_true] at hk
    rcases hk with hk | hk
    · exact h2.2.2.2.1 (visit_sees d e st (h2.1 hc) hk)
    · exact arms_sees d r _ _ hc hk
  | d, .guarded p g e r, st, acc, hc, hk => by
    simp only [visitArms] at hc ⊢
    have i0 := visit_sees d g { st with tail := false }
    generalize visit fa d g { st with tail := false } = st0 at i0 hc ⊢
    have i1 := visit_sees d e { st0 with tail := st.tail }
    have h1 := visit_le fa d e { st0 with tail := st.tail }
    generalize visit fa d e { st0 with tail := st.tail } = st1 at i1 h1 hc ⊢
    have h2 := arms_le fa d r { st1 with mapUsed := st0.mapUsed, tail := st.tail } (acc || st1.mapUsed)
    simp only [hasKeyArms, Bool.or_eq_true] at hk
    rcases hk with (hk | hk) | hk
    · exact h2.2.2.2.1 (h1.key (i0 (h1.can (h2.1 hc)) hk))
    · exact h2.2.2.2.1 (i1 (h2.1 hc) hk)
    · exact arms_sees d r _ _ hc hk
end

mutual
/-- The edits do not touch the key. -/
theorem rw_key (occ : Bool) : ∀ (used : Bool) (e : Ex), hasKey (rw_ occ used e) = hasKey e
  | _, .ins _ v => by simp only [rw_, hasKey]
  | _, .part _ => by simp only [rw_]
  | _, .key => by simp only [rw_]
  | _, .ite c t e => by simp only [rw_, hasKey, rw_key occ true c, rw_key occ true t, rw_key occ true e]
  | _, .when c t => by simp only [rw_, hasKey, rw_key occ true c, rw_key occ false t]
  | _, .mtch s as => by simp only [rw_, hasKey, rw_key occ true s, rwArms_key occ _ as]
  | _, .loop b => by simp only [rw_, hasKey, rwB_key occ true b]
  | _, .blk b => by simp only [rw_, hasKey, rwB_key occ _ b]
  | _, .asm _ => by simp only [rw_]
  | _, .op _ args => by simp only [rw_, hasKey, rwAll_key occ args]
  | _, .eIns _ _ => by simp only [rw_]
theorem rwAll_key (occ : Bool) : ∀ (es : Exs), hasKeyAll (rwAll occ es) = hasKeyAll es
  | .nil => by simp only [rwAll]
  | .cons e es => by simp only [rwAll, hasKeyAll, rw_key occ true e, rwAll_key occ es]
theorem rwB_key (occ : Bool) : ∀ (used : Bool) (b : Blk), hasKeyB (rwB occ used b) = hasKeyB b
  | _, .done => by simp only [rwB]
  | _, .tail e => by simp only [rwB, hasKeyB, rw_key occ _ e]
  | _, .semi e r => by simp only [rwB, hasKeyB, rw_key occ false e, rwB_key occ _ r]
  | _, .stmt e r => by simp only [rwB, hasKeyB, rw_key occ false e, rwB_key occ _ r]
  | _, .letWild e r => by simp only [rwB, hasKeyB, rw_key occ false e, rwB_key occ _ r]
  | _, .let_ _ e r => by simp only [rwB, hasKeyB, rw_key occ true e, rwB_key occ _ r]
  | _, .letElse _ e els r => by
    simp only [rwB, hasKeyB, rw_key occ true e, rwB_key occ true els, rwB_key occ _ r]
  | _, .decl r => by simp only [rwB, hasKeyB, rwB_key occ _ r]
  | _, .item r => by simp only [rwB, hasKeyB, rwB_key occ _ r]
theorem rwArms_key (occ : Bool) : ∀ (used : Bool) (as : Arms), hasKeyArms (rwArms occ used as) = hasKeyArms as
  | _, .nil => by simp only [rwArms]
  | _, .arm _ e r => by simp only [rwArms, hasKeyArms, rw_key occ _ e, rwArms_key occ _ r]
  | _, .guarded _ g e r => by
    simp only [rwArms, hasKeyArms, rw_key occ true g, rw_key occ _ e, rwArms_key occ _ r]
end

variable {fa}

theorem find_some {e : Ex} {st : Srch} (h : find fa e = some st) : visit fa 0 e .start = st ∧ st.can = true := by
  unfold find at h
  by_cases hc : (visit fa 0 e .start).can = true
  · simp only [hc, if_true, Option.some.injEq] at h
    exact ⟨h, h ▸ hc⟩
  · simp only [hc, if_false] at h; exact nomatch h

/-- A suggestion for an `if` with an `else` does not use a key after it was moved.  Missing for the property: without an
`else` this is not checked (`key_used_after_move`). -/
theorem key_not_moved_partial {c : Check} {n : New} (h : check fa c = .sugg n) (he : c.els.isSome = true)
    (hcopy : fa.keyCopy = false) : n.usesMovedKey = false := by
  unfold check at h
  obtain ⟨neg, thn, els⟩ := c
  cases els with
  | none => simp at he
  | some e =>
    cases h1 : find fa (.blk thn) with
    | none => simp only [h1] at h; exact nomatch h
    | some st =>
      cases h2 : find fa e with
      | none => simp only [h1, h2] at h; exact nomatch h
      | some se =>
        simp only [h1, h2] at h
        obtain ⟨v1, c1⟩ := find_some h1
        obtain ⟨v2, c2⟩ := find_some h2
        have k1 : st.keyUsed = false → hasKey (.blk thn) = false := fun hk => by
          cases hx : hasKey (.blk thn) with
          | false => rfl
          | true =>
            have := visit_sees fa 0 (.blk thn) .start (by rw [v1]; exact c1) hx
            rw [v1, hk] at this; exact nomatch this
        have k2 : se.keyUsed = false → hasKey e = false := fun hk => by
          cases hx : hasKey e with
          | false => rfl
          | true =>
            have := visit_sees fa 0 e .start (by rw [v2]; exact c2) hx
            rw [v2, hk] at this; exact nomatch this
        unfold checkElse at h
        by_cases he0 : (st.edits.isEmpty && se.edits.isEmpty) = true
        · rw [if_pos he0] at h; exact nomatch h
        · rw [if_neg he0] at h
          by_cases hm : (st.keyMoved fa || se.keyMoved fa) = true
          · rw [if_pos hm] at h; exact nomatch h
          · rw [if_neg hm] at h
            simp [Srch.keyMoved, hcopy] at hm
            have r1 := k1 hm.1
            have r2 := k2 hm.2
            by_cases he1 : se.edits.isEmpty = true
            · rw [if_pos he1] at h; cases h
              simp [New.usesMovedKey, rw_key, r1, r2]
            · rw [if_neg he1] at h
              by_cases he2 : st.edits.isEmpty = true
              · rw [if_pos he2] at h; cases h
                simp [New.usesMovedKey, rw_key, r1, r2]
              · rw [if_neg he2] at h
                by_cases hn : neg = true
                · rw [if_pos hn] at h; cases h
                  simp [New.usesMovedKey, rw_key, r1, r2]
                · rw [if_neg hn] at h; cases h
                  simp [New.usesMovedKey, rw_key, r1, r2]

section
variable {σ V : Type} {S : Sys σ V} {k : Nat} {good : World σ V → Prop} {clean : V → Prop}

/-- An insertion that is not at the end cannot be moved into a closure. -/
theorem ins_tail {d : Nat} {own : Bool} {v : Ex} {st : Srch} (hc : (visit fa d (.ins own v) st).can = true)
    (ha : (visit fa d (.ins own v) st).allow = true) : st.tail = true := by
  have h0 := (visit_le fa d (.ins own v) st).can hc
  simp only [visit_ins fa h0] at hc ha
  have ht : (st.restore (walk fa d v { st with mapUsed := st.mapUsed || fa.keyUsesMap })).tail = st.tail := rfl
  generalize st.restore (walk fa d v { st with mapUsed := st.mapUsed || fa.keyUsesMap }) = st1 at ht hc ha
  by_cases hm : (st1.mapUsed || !own) = true
  · rw [if_pos hm] at hc; exact nomatch hc
  · rw [if_neg hm] at ha
    have := (visit_le fa d v { st1.record with tail := false }).allow ha
    simp [Srch.record] at this
    rw [← ht]; exact this.2

/-- A single insertion is the whole block. -/
theorem first_clo {b : Blk} {v : Ex} {st : Srch} (hf : first fa b = some v) (hc : (visitB fa 0 b st).can = true)
    (ha : (visitB fa 0 b st).allow = true) : cloB b = .tail v := by
  have key : ∀ own w r, (visit fa 0 (.ins own w) (st.enter (Blk.isDone r))).can = true →
      (visit fa 0 (.ins own w) (st.enter (Blk.isDone r))).allow = true → r.isDone = true := by
    intro own w r h1 h2
    have := ins_tail h1 h2
    cases hr : r.isDone with
    | true => rfl
    | false => rw [hr] at this; exact nomatch this
  unfold first at hf
  split at hf
  · rename_i own w r
    by_cases hcm : fa.comment = true
    · rw [if_pos hcm] at hf; exact nomatch hf
    · rw [if_neg hcm] at hf
      cases hf
      simp only [visitB] at hc ha
      have h1 := le_afterSemi (visit fa 0 (.ins own v) (st.enter r.isDone))
      have hd : r.isDone = true := by
        apply Classical.byContradiction
        intro hr
        rw [if_neg hr] at hc ha
        have h2 := visitB_le fa 0 r
          { (visit fa 0 (.ins own v) (st.enter r.isDone)).afterSemi with tail := st.tail }
        exact hr (key own v r (h1.can (h2.can hc)) (h1.allow (h2.allow ha)))
      simp only [cloB, hd, if_true, clo]
  · rename_i own w
    by_cases hcm : fa.comment = true
    · rw [if_pos hcm] at hf; exact nomatch hf
    · rw [if_neg hcm] at hf
      cases hf; simp only [cloB, clo]
  · rename_i own w r
    by_cases hcm : fa.comment = true
    · rw [if_pos hcm] at hf; exact nomatch hf
    · rw [if_neg hcm] at hf
      cases hf
      simp only [visitB] at hc ha
      have hd : r.isDone = true := by
        apply Classical.byContradiction
        intro hr
        rw [if_neg hr] at hc ha
        have h2 := visitB_le fa 0 r { visit fa 0 (.ins own v) (st.enter r.isDone) with tail := st.tail }
        exact hr (key own v r (h2.can hc) (h2.allow ha))
      simp only [cloB, hd, if_true, clo]
  · exact nomatch hf

/-- The same state, and the same end if it matters. -/
def Agree (used : Bool) (r r' : World σ V × Flow V) : Prop := r'.1 = r.1 ∧ Same used r.2 r'.2

theorem agree_refl (used : Bool) (r : World σ V × Flow V) : Agree used r r := ⟨rfl, .refl _ _⟩

theorem rw_agree (L : Law S fa.movable k good clean) {e : Ex} {st : Srch} {occ used : Bool} {s : World σ V}
    (h : find fa e = some st) (hg : Good k good occ s) :
    Agree used (eval S k e s) (eval S k (rw_ occ used e) s) := by
  obtain ⟨v, c⟩ := find_some h
  have o := visit_out (occ := occ) fa L 0 e .start used s (by rw [v]; exact c) fun _ => hg
  exact ⟨o.state, o.flow⟩

/-- The closure form. -/
theorem clo_agree (L : Law S fa.movable k good clean) {b : Blk} {st : Srch} {s : World σ V}
    (h : find fa (.blk b) = some st) (ha : st.allow = true) (hi : idleB b = false) (hs : good s) :
    Agree false (if (s.map k).isSome != true then evalB S k b s else (s, .val S.unit))
      (runNew S (.orInsertWith (cloB b)) s) := by
  obtain ⟨v, c⟩ := find_some h
  rw [visit_blk fa rfl] at v
  have hk := L.key s hs
  simp only [runNew, hk]
  cases hm : (s.map k).isSome with
  | true => simp [Agree, Same]
  | false =>
    have r := cloB_ret fa L 0 b .start s rfl (by rw [v]; exact c) (by rw [v]; exact ha) (fun _ => ⟨hs, hm⟩) hi
    have t := visitB_stays fa L 0 b .start s (by rw [v]; exact c) (by rw [v]; exact ha)
    simp only [bne, Bool.false_beq, Bool.not_true, Bool.not_false, if_true, Bool.false_eq_true, if_false]
    rcases r with ⟨x, u, h1, h2, h3⟩ | ⟨h1, h2⟩
    · rw [h1]
      exact ⟨h3.symm, by rw [h2]; simp [Same]⟩
    · rw [h1]
      generalize evalB S k b s = q at h2 t
      obtain ⟨s1, f⟩ := q
      cases f with
      | val x => exact (h2 x rfl).elim
      | leave j => exact (Nat.not_lt_zero _ (t.2 j rfl)).elim
      | ret => exact (t.1 rfl).elim
      | panic => exact ⟨rfl, .refl _ _⟩

/-- **The suggested program ends in the same state, and in the same way; with an `else` also with the same value.**
Missing for the property: the key must not be changed, and its evaluation must have no effects (`Law.key`; see
`key_changed`, `key_twice`); values without side effects must not panic (see `value_panics`); without `else`, no path may
end with the key, the map or a declaration (see `never_inserted`, `declared`). -/
theorem entry_same_partial (L : Law S fa.movable k good clean) {c : Check} {n : New} {s : World σ V} (hs : good s)
    (hpure : ∀ v, fa.effects v = false → ∀ s, good s → ∃ x, eval S k v s = (s, .val x))
    (hi : c.els = none → idleB c.thn = false) (h : check fa c = .sugg n) :
    Agree c.els.isSome (run S c s) (runNew S n s) := by
  have hk := L.key s hs
  unfold check at h
  obtain ⟨neg, thn, els⟩ := c
  cases h1 : find fa (.blk thn) with
  | none => rw [h1] at h; cases els <;> exact nomatch h
  | some st =>
    rw [h1] at h
    cases els with
    | none =>
      simp only at h
      have hi := hi rfl
      unfold checkThen at h
      by_cases he : st.edits.isEmpty = true
      · rw [if_pos he] at h; exact nomatch h
      · rw [if_neg he] at h
        by_cases ha : (!st.allow) = true
        · rw [if_pos ha] at h
          cases h
          simp only [run, runNew, hk, Option.isSome_none]
          cases hm : (s.map k).isSome with
          | true =>
            cases neg with
            | true => exact agree_refl _ _
            | false =>
              have := rw_agree (used := false) L h1 ⟨hs, hm⟩
              simpa [eval] using this
          | false =>
            cases neg with
            | true =>
              have := rw_agree (used := false) L h1 ⟨hs, hm⟩
              simpa [eval] using this
            | false => exact agree_refl _ _
        · rw [if_neg ha] at h
          have ha : st.allow = true := by simpa using ha
          by_cases hcr : st.crashes = true
          · rw [if_pos hcr] at h; exact nomatch h
          · rw [if_neg hcr] at h
            by_cases hn : (!neg) = true
            · rw [if_pos hn] at h; exact nomatch h
            · rw [if_neg hn] at h
              have hn : neg = true := by simpa using hn
              subst hn
              have q := clo_agree L h1 ha hi hs
              have q' : Agree false (run S ⟨true, thn, none⟩ s) (runNew S (.orInsertWith (cloB thn)) s) := by
                simpa only [run, hk, runElse] using q
              cases ho : st.only fa thn with
              | none => rw [ho] at h; cases h; exact q'
              | some v =>
                rw [ho] at h
                simp only at h
                have hf : first fa thn = some v := by
                  unfold Srch.only at ho
                  split at ho
                  · exact ho
                  · exact nomatch ho
                obtain ⟨v1, c1⟩ := find_some h1
                rw [visit_blk fa rfl] at v1
                have hv := first_clo (st := .start) hf (by rw [v1]; exact c1) (by rw [v1]; exact ha)
                rw [hv] at q'
                by_cases hx : fa.effects v = true
                · rw [if_pos hx] at h; cases h; exact q'
                · rw [if_neg hx] at h; cases h
                  obtain ⟨x, hx⟩ := hpure v (by simpa using hx) s hs
                  have : runNew S (.orInsert v) s = runNew S (.orInsertWith (.tail v)) s := by
                    simp only [runNew, hk, evalB, hx, andThen]
                    split <;> rfl
                  rw [this]; exact q'
    | some e =>
      simp only at h
      cases h2 : find fa e with
      | none => rw [h2] at h; exact nomatch h
      | some se =>
        rw [h2] at h
        simp only at h
        unfold checkElse at h
        by_cases he0 : (st.edits.isEmpty && se.edits.isEmpty) = true
        · rw [if_pos he0] at h; exact nomatch h
        · rw [if_neg he0] at h
          by_cases hm : (st.keyMoved fa || se.keyMoved fa) = true
          · rw [if_pos hm] at h; exact nomatch h
          · rw [if_neg hm] at h
            have a1 : ∀ occ, (s.map k).isSome = occ →
              Agree true (evalB S k thn s) (eval S k (rw_ occ true (.blk thn)) s) := fun occ ho => by
                have := rw_agree (used := true) (occ := occ) L h1 ⟨hs, ho⟩
                simpa only [eval] using this
            have a2 : ∀ occ, (s.map k).isSome = occ → Agree true (eval S k e s) (eval S k (rw_ occ true e) s) :=
              fun occ ho => rw_agree (used := true) (occ := occ) L h2 ⟨hs, ho⟩
            by_cases he1 : se.edits.isEmpty = true
            · rw [if_pos he1] at h; cases h
              simp only [run, runNew, hk, Option.isSome_some, runElse]
              cases hx : (s.map k).isSome <;> cases neg
              · exact agree_refl _ _
              · exact a1 _ hx
              · exact a1 _ hx
              · exact agree_refl _ _
            · rw [if_neg he1] at h
              by_cases he2 : st.edits.isEmpty = true
              · rw [if_pos he2] at h; cases h
                simp only [run, runNew, hk, Option.isSome_some, runElse]
                cases hx : (s.map k).isSome <;> cases neg
                · exact a2 _ hx
                · simp only [eval]; exact agree_refl _ _
                · simp only [eval]; exact agree_refl _ _
                · exact a2 _ hx
              · rw [if_neg he2] at h
                cases neg with
                | true =>
                  rw [if_pos rfl] at h; cases h
                  simp only [run, runNew, hk, Option.isSome_some, runElse]
                  cases hx : (s.map k).isSome
                  · exact a1 _ hx
                  · exact a2 _ hx
                | false =>
                  rw [if_neg (by simp)] at h; cases h
                  simp only [run, runNew, hk, Option.isSome_some, runElse]
                  cases hx : (s.map k).isSome
                  · exact a2 _ hx
                  · exact a1 _ hx
end

end Verif.Entry
