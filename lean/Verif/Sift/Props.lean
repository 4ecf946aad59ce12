import Verif.Sift.Model

/-! # Properties: closures that only map or only filter, `bool::then`, searches -/

namespace Verif.Sift

/-! ## Evaluation -/

theorem andThen_or {I : Sem} (r : Out × V × I.W) (k : V → V → I.W → Out × V × I.W) :
    (∃ v, r.1 = .val v ∧ andThen r k = k v r.2.1 r.2.2) ∨ ((∀ v, r.1 ≠ .val v) ∧ andThen r k = r) := by
  obtain ⟨o, p, w⟩ := r
  cases o with
  | val v => exact Or.inl ⟨v, rfl, rfl⟩
  | _ => exact Or.inr ⟨by simp, rfl⟩

/-- The result of `andThen` has what both of its parts have. -/
theorem andThen_ind {I : Sem} {q : Out × V × I.W → Prop} {r : Out × V × I.W}
    {k : V → V → I.W → Out × V × I.W} (h1 : (∀ v, r.1 ≠ .val v) → q r)
    (h2 : ∀ v, r.1 = .val v → q (k v r.2.1 r.2.2)) : q (andThen r k) := by
  rcases andThen_or r k with ⟨v, hv, e⟩ | ⟨hv, e⟩
  · rw [e]; exact h2 v hv
  · rw [e]; exact h1 hv

theorem param_kept (I : Sem) (e : E) (h : NeverSet e) :
    (∀ p w, (ev I e p w).2.1 = p) ∧ (∀ n p w, (evArms I e n p w).2.1 = p) := by
  induction e with
  | param => exact ⟨fun _ _ => by simp [ev], fun n _ _ => by cases n <;> simp [evArms]⟩
  | path => exact ⟨fun _ _ => by simp [ev], fun n _ _ => by cases n <;> simp [evArms]⟩
  | opq k =>
    refine ⟨fun p w => ?_, fun n _ _ => by cases n <;> simp [evArms]⟩
    simp only [ev]; split <;> rfl
  | none' => exact ⟨fun _ _ => by simp [ev], fun n _ _ => by cases n <;> simp [evArms]⟩
  | anil => exact ⟨fun _ _ => by simp [ev], fun n _ _ => by cases n <;> simp [evArms]⟩
  | some' a ih =>
    simp only [NeverSet, Has, not_or] at h ih
    refine ⟨fun p w => ?_, fun n _ _ => by cases n <;> simp [evArms]⟩
    simp only [ev]
    exact andThen_ind (q := fun r => r.2.1 = p) (fun _ => (ih h.2).1 p w) (fun _ _ => (ih h.2).1 p w)
  | thenSome c a ihc iha =>
    simp only [NeverSet, Has, not_or] at h ihc iha
    refine ⟨fun p w => ?_, fun n _ _ => by cases n <;> simp [evArms]⟩
    simp only [ev]
    have hc := (ihc h.2.1).1 p w
    refine andThen_ind (q := fun r => r.2.1 = p) (fun _ => hc) (fun b _ => ?_)
    rw [hc]
    exact andThen_ind (q := fun r => r.2.1 = p) (fun _ => (iha h.2.2).1 p _) (fun _ _ => (iha h.2.2).1 p _)
  | thenDo c b ihc ihb =>
    simp only [NeverSet, Has, not_or, true_and] at h ihc ihb
    refine ⟨fun p w => ?_, fun n _ _ => by cases n <;> simp [evArms]⟩
    simp only [ev]
    have hc := (ihc h.2.1).1 p w
    refine andThen_ind (q := fun r => r.2.1 = p) (fun _ => hc) (fun t _ => ?_)
    rw [hc]
    split
    · have := (ihb h.2.2).1 p (ev I c p w).2.2
      unfold ofThen
      split <;> exact this
    · rfl
  | ite c a b ihc iha ihb =>
    simp only [NeverSet, Has, not_or] at h ihc iha ihb
    refine ⟨fun p w => ?_, fun n _ _ => by cases n <;> simp [evArms]⟩
    simp only [ev]
    have hc := (ihc h.2.1).1 p w
    refine andThen_ind (q := fun r => r.2.1 = p) (fun _ => hc) (fun t _ => ?_)
    rw [hc]
    split
    · exact (iha h.2.2.1).1 p _
    · exact (ihb h.2.2.2).1 p _
  | mtch s a ihs iha =>
    simp only [NeverSet, Has, not_or] at h ihs iha
    refine ⟨fun p w => ?_, fun n _ _ => by cases n <;> simp [evArms]⟩
    simp only [ev]
    have hc := (ihs h.2.1).1 p w
    refine andThen_ind (q := fun r => r.2.1 = p) (fun _ => hc) (fun t _ => ?_)
    rw [hc]
    exact (iha h.2.2).2 _ p _
  | acons a r iha ihr =>
    simp only [NeverSet, Has, not_or] at h iha ihr
    refine ⟨fun _ _ => by simp [ev], fun n p w => ?_⟩
    cases n with
    | zero => simp only [evArms]; exact (iha h.2.1).1 p w
    | succ n => simp only [evArms]; exact (ihr h.2.2).2 n p w
  | seq a b iha ihb =>
    simp only [NeverSet, Has, not_or] at h iha ihb
    refine ⟨fun p w => ?_, fun n _ _ => by cases n <;> simp [evArms]⟩
    simp only [ev]
    have hc := (iha h.2.1).1 p w
    refine andThen_ind (q := fun r => r.2.1 = p) (fun _ => hc) (fun t _ => ?_)
    rw [hc]
    exact (ihb h.2.2).1 p _
  | stmt a ih =>
    simp only [NeverSet, Has, not_or] at h ih
    refine ⟨fun p w => ?_, fun n _ _ => by cases n <;> simp [evArms]⟩
    simp only [ev]
    exact andThen_ind (q := fun r => r.2.1 = p) (fun _ => (ih h.2).1 p w) (fun _ _ => (ih h.2).1 p w)
  | lab l a ih =>
    simp only [NeverSet, Has, not_or] at h ih
    refine ⟨fun p w => ?_, fun n _ _ => by cases n <;> simp [evArms]⟩
    simp only [ev]
    have := (ih h.2).1 p w
    unfold ofLabel
    split
    · split <;> exact this
    · exact this
  | brk l a ih =>
    simp only [NeverSet, Has, not_or] at h ih
    refine ⟨fun p w => ?_, fun n _ _ => by cases n <;> simp [evArms]⟩
    simp only [ev]
    exact andThen_ind (q := fun r => r.2.1 = p) (fun _ => (ih h.2).1 p w) (fun _ _ => (ih h.2).1 p w)
  | ret a ih =>
    simp only [NeverSet, Has, not_or] at h ih
    refine ⟨fun p w => ?_, fun n _ _ => by cases n <;> simp [evArms]⟩
    simp only [ev]
    exact andThen_ind (q := fun r => r.2.1 = p) (fun _ => (ih h.2).1 p w) (fun _ _ => (ih h.2).1 p w)
  | set a ih => exact absurd (by simp only [Has]; exact Or.inl ⟨a, rfl⟩) h

/-- Without `return`, nothing is returned. -/
theorem no_return (I : Sem) (e : E) (h : ¬ Has IsReturn false e) :
    (∀ p w u, (ev I e p w).1 ≠ .ret u) ∧ (∀ n p w u, (evArms I e n p w).1 ≠ .ret u) := by
  have arms : ∀ e, (∀ a r, e ≠ .acons a r) → ∀ n p w u, (evArms I e n p w).1 ≠ .ret u := by
    intro e he n p w u
    cases e with
    | acons a r => exact absurd rfl (he a r)
    | _ => cases n <;> simp [evArms]
  induction e with
  | param => exact ⟨fun _ _ _ => by simp [ev], arms _ (by simp)⟩
  | path => exact ⟨fun _ _ _ => by simp [ev], arms _ (by simp)⟩
  | opq k =>
    refine ⟨fun p w u => ?_, arms _ (by simp)⟩
    simp only [ev]; split <;> simp
  | none' => exact ⟨fun _ _ _ => by simp [ev], arms _ (by simp)⟩
  | anil => exact ⟨fun _ _ _ => by simp [ev], arms _ (by simp)⟩
  | some' a ih =>
    simp only [Has, not_or] at h
    refine ⟨fun p w u => ?_, arms _ (by simp)⟩
    simp only [ev]
    exact andThen_ind (q := fun r => r.1 ≠ .ret u) (fun _ => (ih h.2).1 p w u) (fun _ _ => by simp)
  | thenSome c a ihc iha =>
    simp only [Has, not_or] at h
    refine ⟨fun p w u => ?_, arms _ (by simp)⟩
    simp only [ev]
    refine andThen_ind (q := fun r => r.1 ≠ .ret u) (fun _ => (ihc h.2.1).1 p w u) (fun b _ => ?_)
    exact andThen_ind (q := fun r => r.1 ≠ .ret u) (fun _ => (iha h.2.2).1 _ _ u) (fun _ _ => by simp)
  | thenDo c b ihc ihb =>
    simp only [Has, not_or] at h
    refine ⟨fun p w u => ?_, arms _ (by simp)⟩
    simp only [ev]
    refine andThen_ind (q := fun r => r.1 ≠ .ret u) (fun _ => (ihc h.2.1).1 p w u) (fun t _ => ?_)
    split
    · unfold ofThen
      split
      · simp
      · simp
      · rename_i h1 h2; exact h2 u
    · simp
  | ite c a b ihc iha ihb =>
    simp only [Has, not_or] at h
    refine ⟨fun p w u => ?_, arms _ (by simp)⟩
    simp only [ev]
    refine andThen_ind (q := fun r => r.1 ≠ .ret u) (fun _ => (ihc h.2.1).1 p w u) (fun t _ => ?_)
    split
    · exact (iha h.2.2.1).1 _ _ u
    · exact (ihb h.2.2.2).1 _ _ u
  | mtch s a ihs iha =>
    simp only [Has, not_or] at h
    refine ⟨fun p w u => ?_, arms _ (by simp)⟩
    simp only [ev]
    exact andThen_ind (q := fun r => r.1 ≠ .ret u) (fun _ => (ihs h.2.1).1 p w u)
      (fun t _ => (iha h.2.2).2 _ _ _ u)
  | acons a r iha ihr =>
    simp only [Has, not_or] at h
    refine ⟨fun _ _ _ => by simp [ev], fun n p w u => ?_⟩
    cases n with
    | zero => simp only [evArms]; exact (iha h.2.1).1 p w u
    | succ n => simp only [evArms]; exact (ihr h.2.2).2 n p w u
  | seq a b iha ihb =>
    simp only [Has, not_or] at h
    refine ⟨fun p w u => ?_, arms _ (by simp)⟩
    simp only [ev]
    exact andThen_ind (q := fun r => r.1 ≠ .ret u) (fun _ => (iha h.2.1).1 p w u)
      (fun t _ => (ihb h.2.2).1 _ _ u)
  | stmt a ih =>
    simp only [Has, not_or] at h
    refine ⟨fun p w u => ?_, arms _ (by simp)⟩
    simp only [ev]
    exact andThen_ind (q := fun r => r.1 ≠ .ret u) (fun _ => (ih h.2).1 p w u) (fun _ _ => by simp)
  | lab l a ih =>
    simp only [Has, not_or] at h
    refine ⟨fun p w u => ?_, arms _ (by simp)⟩
    simp only [ev]
    have := (ih h.2).1 p w u
    unfold ofLabel
    split
    · split
      · simp
      · exact this
    · exact this
  | brk l a ih =>
    simp only [Has, not_or] at h
    refine ⟨fun p w u => ?_, arms _ (by simp)⟩
    simp only [ev]
    exact andThen_ind (q := fun r => r.1 ≠ .ret u) (fun _ => (ih h.2).1 p w u) (fun _ _ => by simp)
  | ret a ih => exact absurd (by simp only [Has]; exact Or.inl ⟨a, rfl⟩) h
  | set a ih =>
    simp only [Has, not_or] at h
    refine ⟨fun p w u => ?_, arms _ (by simp)⟩
    simp only [ev]
    exact andThen_ind (q := fun r => r.1 ≠ .ret u) (fun _ => (ih h.2).1 p w u) (fun _ _ => by simp)

/-! ## What the classification says about values -/

/-- An expression is `None` only if filtering was found, and `Some` of anything but the parameter only if
mapping was found. -/
theorem value_fits (I : Sem) (e : E) (hl : NoLabels e) :
    (∀ p w u, (ev I e p w).1 = .val u → (classify e).2 = false → u ≠ .none') ∧
    (∀ n p w u, (evArms I e n p w).1 = .val u → (classify e).2 = false → u ≠ .none') ∧
    (NeverSet e → ∀ p w u, (ev I e p w).1 = .val u → (classify e).1 = false → ∀ x, u = .some' x → x = p) ∧
    (NeverSet e → ∀ n p w u, (evArms I e n p w).1 = .val u → (classify e).1 = false → ∀ x, u = .some' x → x = p) := by
  have arms : ∀ e, (∀ a r, e ≠ .acons a r) → ∀ n p w u, (evArms I e n p w).1 ≠ .val u := by
    intro e he n p w u
    cases e with
    | acons a r => exact absurd rfl (he a r)
    | _ => cases n <;> simp [evArms]
  have all : ∀ e, (∀ a r, e ≠ .acons a r) → classify e = (true, true) →
      (∀ p w u, (ev I e p w).1 = .val u → (classify e).2 = false → u ≠ .none') ∧
      (∀ n p w u, (evArms I e n p w).1 = .val u → (classify e).2 = false → u ≠ .none') ∧
      (NeverSet e → ∀ p w u, (ev I e p w).1 = .val u → (classify e).1 = false → ∀ x, u = .some' x → x = p) ∧
      (NeverSet e → ∀ n p w u, (evArms I e n p w).1 = .val u → (classify e).1 = false → ∀ x, u = .some' x → x = p) := by
    intro e _ hc
    rw [hc]
    exact ⟨fun _ _ _ _ h => by simp at h, fun _ _ _ _ _ h => by simp at h,
      fun _ _ _ _ _ h => by simp at h, fun _ _ _ _ _ _ h => by simp at h⟩
  induction e with
  | param => exact all _ (by simp) rfl
  | path => exact all _ (by simp) rfl
  | opq => exact all _ (by simp) rfl
  | thenDo => exact all _ (by simp) rfl
  | brk => exact all _ (by simp) rfl
  | ret => exact all _ (by simp) rfl
  | set => exact all _ (by simp) rfl
  | none' =>
    refine ⟨fun _ _ _ _ h => by simp [classify] at h, fun n p w u h => absurd h (arms _ (by simp) n p w u),
      fun _ p w u h _ x hx => ?_, fun _ n p w u h => absurd h (arms _ (by simp) n p w u)⟩
    simp only [ev, Out.val.injEq] at h
    subst h; cases hx
  | anil =>
    refine ⟨fun p w u h => by simp [ev] at h, fun n p w u h => absurd h (arms _ (by simp) n p w u),
      fun _ p w u h => by simp [ev] at h, fun _ n p w u h => absurd h (arms _ (by simp) n p w u)⟩
  | some' a =>
    have key : ∀ p w u, (ev I (.some' a) p w).1 = .val u → ∃ v, (ev I a p w).1 = .val v ∧ u = .some' v := by
      intro p w u h
      simp only [ev] at h
      rcases andThen_or (ev I a p w) (fun v p w => (.val (.some' v), p, w)) with ⟨v, hv, e⟩ | ⟨hv, e⟩
      · rw [e] at h; simp only [Out.val.injEq] at h; exact ⟨v, hv, h.symm⟩
      · rw [e] at h; exact absurd h (hv u)
    refine ⟨fun p w u h _ => ?_, fun n p w u h => absurd h (arms _ (by simp) n p w u),
      fun _ p w u h hc x hx => ?_, fun _ n p w u h => absurd h (arms _ (by simp) n p w u)⟩
    · obtain ⟨v, _, rfl⟩ := key p w u h; simp
    · obtain ⟨v, hv, rfl⟩ := key p w u h
      by_cases ha : a = .param
      · subst ha
        simp only [ev, Out.val.injEq] at hv
        simp only [V.some'.injEq] at hx
        rw [← hx, ← hv]
      · simp [classify, ha] at hc
  | thenSome c a =>
    refine ⟨fun p w u _ hc => ?_, fun n p w u h => absurd h (arms _ (by simp) n p w u),
      fun hs p w u h hc x hx => ?_, fun _ n p w u h => absurd h (arms _ (by simp) n p w u)⟩
    · by_cases ha : a = .param <;> simp [classify, ha] at hc
    · by_cases ha : a = .param
      · subst ha
        simp only [NeverSet, Has, not_or] at hs
        have hk := (param_kept I c hs.2.1).1 p w
        simp only [ev] at h
        rcases andThen_or (ev I c p w) (fun b p w => andThen (I := I) (.val p, p, w) fun v p w =>
          (.val (if I.truth b then .some' v else .none'), p, w)) with ⟨v, hv, e⟩ | ⟨hv, e⟩
        · rw [e] at h
          simp only [andThen, Out.val.injEq] at h
          rw [← h] at hx
          split at hx
          · simp only [V.some'.injEq] at hx; rw [← hx, hk]
          · cases hx
        · rw [e] at h; exact absurd h (hv u)
      · simp [classify, ha] at hc
  | stmt a =>
    have key : ∀ p w u, (ev I (.stmt a) p w).1 = .val u → u = .unit := by
      intro p w u h
      simp only [ev] at h
      rcases andThen_or (ev I a p w) (fun _ p w => (.val .unit, p, w)) with ⟨v, hv, e⟩ | ⟨hv, e⟩
      · rw [e] at h; simp only [Out.val.injEq] at h; exact h.symm
      · rw [e] at h; exact absurd h (hv u)
    refine ⟨fun p w u h _ => (by rw [key p w u h]; simp), fun n p w u h => absurd h (arms _ (by simp) n p w u),
      fun _ p w u h _ x hx => (by rw [key p w u h] at hx; cases hx), fun _ n p w u h => absurd h (arms _ (by simp) n p w u)⟩
  | lab l b => exact absurd (by simp only [Has]; exact Or.inl ⟨l, b, rfl⟩) hl
  | seq a b _ ihb =>
    simp only [NoLabels, Has, not_or] at hl ihb
    obtain ⟨i1, _, i3, _⟩ := ihb hl.2.2
    have key : ∀ p w u, (ev I (.seq a b) p w).1 = .val u →
        ∃ w', (ev I b (ev I a p w).2.1 w').1 = .val u := by
      intro p w u h
      simp only [ev] at h
      rcases andThen_or (ev I a p w) (fun _ p w => ev I b p w) with ⟨v, hv, e⟩ | ⟨hv, e⟩
      · rw [e] at h; exact ⟨_, h⟩
      · rw [e] at h; exact absurd h (hv u)
    refine ⟨fun p w u h hc => ?_, fun n p w u h => absurd h (arms _ (by simp) n p w u),
      fun hs p w u h hc x hx => ?_, fun _ n p w u h => absurd h (arms _ (by simp) n p w u)⟩
    · obtain ⟨w', h'⟩ := key p w u h
      exact i1 _ _ u h' hc
    · obtain ⟨w', h'⟩ := key p w u h
      simp only [NeverSet, Has, not_or] at hs i3
      rw [(param_kept I a hs.2.1).1 p w] at h'
      exact i3 hs.2.2 _ _ u h' hc x hx
  | ite c a b _ iha ihb =>
    simp only [NoLabels, Has, not_or] at hl iha ihb
    obtain ⟨i1, _, i3, _⟩ := iha hl.2.2.1
    obtain ⟨j1, _, j3, _⟩ := ihb hl.2.2.2
    have key : ∀ p w u, (ev I (.ite c a b) p w).1 = .val u →
        ∃ w', (ev I a (ev I c p w).2.1 w').1 = .val u ∨ (ev I b (ev I c p w).2.1 w').1 = .val u := by
      intro p w u h
      simp only [ev] at h
      rcases andThen_or (ev I c p w) (fun t p w => if I.truth t then ev I a p w else ev I b p w) with ⟨v, hv, e⟩ | ⟨hv, e⟩
      · rw [e] at h
        refine ⟨(ev I c p w).2.2, ?_⟩
        cases ht : I.truth v with
        | true => simp only [ht, if_true] at h; exact Or.inl h
        | false => simp only [ht, Bool.false_eq_true, if_false] at h; exact Or.inr h
      · rw [e] at h; exact absurd h (hv u)
    refine ⟨fun p w u h hc => ?_, fun n p w u h => absurd h (arms _ (by simp) n p w u),
      fun hs p w u h hc x hx => ?_, fun _ n p w u h => absurd h (arms _ (by simp) n p w u)⟩
    · simp only [classify, orBoth, Bool.or_eq_false_iff] at hc
      obtain ⟨w', h' | h'⟩ := key p w u h
      · exact i1 _ _ u h' hc.1
      · exact j1 _ _ u h' hc.2
    · simp only [classify, orBoth, Bool.or_eq_false_iff] at hc
      simp only [NeverSet, Has, not_or] at hs i3 j3
      have hk := (param_kept I c hs.2.1).1 p w
      obtain ⟨w', h' | h'⟩ := key p w u h
      · rw [hk] at h'; exact i3 hs.2.2.1 _ _ u h' hc.1 x hx
      · rw [hk] at h'; exact j3 hs.2.2.2 _ _ u h' hc.2 x hx
  | mtch s a _ iha =>
    simp only [NoLabels, Has, not_or] at hl iha
    obtain ⟨_, i2, _, i4⟩ := iha hl.2.2
    have key : ∀ p w u, (ev I (.mtch s a) p w).1 = .val u →
        ∃ n w', (evArms I a n (ev I s p w).2.1 w').1 = .val u := by
      intro p w u h
      simp only [ev] at h
      rcases andThen_or (ev I s p w) (fun v p w => evArms I a (I.pick v) p w) with ⟨v, hv, e⟩ | ⟨hv, e⟩
      · rw [e] at h; exact ⟨_, _, h⟩
      · rw [e] at h; exact absurd h (hv u)
    refine ⟨fun p w u h hc => ?_, fun n p w u h => absurd h (arms _ (by simp) n p w u),
      fun hs p w u h hc x hx => ?_, fun _ n p w u h => absurd h (arms _ (by simp) n p w u)⟩
    · obtain ⟨n, w', h'⟩ := key p w u h
      exact i2 n _ _ u h' hc
    · obtain ⟨n, w', h'⟩ := key p w u h
      simp only [NeverSet, Has, not_or] at hs i4
      rw [(param_kept I s hs.2.1).1 p w] at h'
      exact i4 hs.2.2 n _ _ u h' hc x hx
  | acons a r iha ihr =>
    simp only [NoLabels, Has, not_or] at hl iha ihr
    obtain ⟨i1, _, i3, _⟩ := iha hl.2.1
    obtain ⟨_, j2, _, j4⟩ := ihr hl.2.2
    refine ⟨fun p w u h => by simp [ev] at h, fun n p w u h hc => ?_,
      fun _ p w u h => by simp [ev] at h, fun hs n p w u h hc x hx => ?_⟩
    · simp only [classify, orBoth, Bool.or_eq_false_iff] at hc
      cases n with
      | zero => simp only [evArms] at h; exact i1 p w u h hc.1
      | succ n => simp only [evArms] at h; exact j2 n p w u h hc.2
    · simp only [classify, orBoth, Bool.or_eq_false_iff] at hc
      simp only [NeverSet, Has, not_or] at hs i3 j4
      cases n with
      | zero => simp only [evArms] at h; exact i3 hs.2.1 p w u h hc.1 x hx
      | succ n => simp only [evArms] at h; exact j4 hs.2.2 n p w u h hc.2 x hx

/-- What is said of a returned value. -/
def Fits (ns : Prop) (c : Bool × Bool) (p u : V) : Prop :=
  (c.2 = false → u ≠ .none') ∧ (ns → c.1 = false → ∀ x, u = .some' x → x = p)

theorem Fits.up {ns ns' : Prop} {c c' : Bool × Bool} {p p' u : V} (h : Fits ns c p' u)
    (hn : ns' → ns ∧ p' = p) (h1 : c'.1 = false → c.1 = false) (h2 : c'.2 = false → c.2 = false) :
    Fits ns' c' p u :=
  ⟨fun e => h.1 (h2 e), fun n e x hx => by rw [h.2 (hn n).1 (h1 e) x hx, (hn n).2]⟩

theorem andThen_ret {I : Sem} {r : Out × V × I.W} {k : V → V → I.W → Out × V × I.W} {u : V}
    (h : (andThen r k).1 = .ret u) : r.1 = .ret u ∨ ∃ v, r.1 = .val v ∧ (k v r.2.1 r.2.2).1 = .ret u := by
  rcases andThen_or r k with ⟨v, hv, e⟩ | ⟨hv, e⟩
  · rw [e] at h; exact Or.inr ⟨v, hv, h⟩
  · rw [e] at h; exact Or.inl h

theorem or1 {a b : Bool × Bool} : ((orBoth a b).1 = false → a.1 = false) ∧ ((orBoth a b).2 = false → a.2 = false) ∧
    ((orBoth a b).1 = false → b.1 = false) ∧ ((orBoth a b).2 = false → b.2 = false) := by
  obtain ⟨a1, a2⟩ := a; obtain ⟨b1, b2⟩ := b
  cases a1 <;> cases a2 <;> cases b1 <;> cases b2 <;> decide

/-- The same for the values that are returned. -/
theorem return_fits (I : Sem) (e : E) (hl : NoLabels e) (hr : NoReturnInReturn e) :
    (∀ p w u, (ev I e p w).1 = .ret u → Fits (NeverSet e) (returns e) p u) ∧
    (∀ n p w u, (evArms I e n p w).1 = .ret u → Fits (NeverSet e) (returns e) p u) := by
  have arms : ∀ e, (∀ a r, e ≠ .acons a r) → ∀ n p w u, (evArms I e n p w).1 ≠ .ret u := by
    intro e he n p w u
    cases e with
    | acons a r => exact absurd rfl (he a r)
    | _ => cases n <;> simp [evArms]
  have na : ∀ e, (∀ a r, e ≠ .acons a r) → ∀ n p w u, (evArms I e n p w).1 = .ret u →
      Fits (NeverSet e) (returns e) p u := fun e he n p w u h => absurd h (arms e he n p w u)
  induction e with
  | param => exact ⟨fun _ _ _ h => by simp [ev] at h, na _ (by simp)⟩
  | path => exact ⟨fun _ _ _ h => by simp [ev] at h, na _ (by simp)⟩
  | opq k =>
    refine ⟨fun p w u h => ?_, na _ (by simp)⟩
    simp only [ev] at h; split at h <;> simp at h
  | none' => exact ⟨fun _ _ _ h => by simp [ev] at h, na _ (by simp)⟩
  | anil => exact ⟨fun _ _ _ h => by simp [ev] at h, na _ (by simp)⟩
  | some' a ih =>
    simp only [NoLabels, NoReturnInReturn, NeverSet, Has, not_or] at hl hr ih ⊢
    refine ⟨fun p w u h => ?_, fun n p w u h => absurd h (arms _ (by simp) n p w u)⟩
    simp only [ev] at h
    rcases andThen_ret h with h | ⟨v, _, h⟩
    · exact ((ih hl.2 hr.2).1 p w u h).up (fun n => ⟨n.2, rfl⟩) id id
    · simp at h
  | thenSome c a ihc iha =>
    simp only [NoLabels, NoReturnInReturn, NeverSet, Has, not_or] at hl hr ihc iha ⊢
    refine ⟨fun p w u h => ?_, fun n p w u h => absurd h (arms _ (by simp) n p w u)⟩
    simp only [ev] at h
    rcases andThen_ret h with h | ⟨v, _, h⟩
    · exact ((ihc hl.2.1 hr.2.1).1 p w u h).up (fun n => ⟨n.2.1, rfl⟩) or1.1 or1.2.1
    · rcases andThen_ret h with h | ⟨v, _, h⟩
      · exact ((iha hl.2.2 hr.2.2).1 _ _ u h).up (fun n => ⟨n.2.2, (param_kept I c n.2.1).1 p w⟩) or1.2.2.1 or1.2.2.2
      · simp at h
  | thenDo c b ihc _ =>
    simp only [NoLabels, NoReturnInReturn, NeverSet, Has, not_or] at hl hr ihc ⊢
    refine ⟨fun p w u h => ?_, fun n p w u h => absurd h (arms _ (by simp) n p w u)⟩
    simp only [ev] at h
    rcases andThen_ret h with h | ⟨v, _, h⟩
    · exact ((ihc hl.2.1 hr.2.1).1 p w u h).up (fun n => ⟨n.2.1, rfl⟩) id id
    · split at h
      · unfold ofThen at h
        split at h
        · simp at h
        · simp at h
        · rename_i h1 h2; exact absurd h (h2 u)
      · simp at h
  | ite c a b ihc iha ihb =>
    simp only [NoLabels, NoReturnInReturn, NeverSet, Has, not_or] at hl hr ihc iha ihb ⊢
    refine ⟨fun p w u h => ?_, fun n p w u h => absurd h (arms _ (by simp) n p w u)⟩
    simp only [ev] at h
    rcases andThen_ret h with h | ⟨v, _, h⟩
    · exact ((ihc hl.2.1 hr.2.1).1 p w u h).up (fun n => ⟨n.2.1, rfl⟩) or1.1 or1.2.1
    · split at h
      · exact ((iha hl.2.2.1 hr.2.2.1).1 _ _ u h).up (fun n => ⟨n.2.2.1, (param_kept I c n.2.1).1 p w⟩)
          (fun e => or1.1 (or1.2.2.1 e)) (fun e => or1.2.1 (or1.2.2.2 e))
      · exact ((ihb hl.2.2.2 hr.2.2.2).1 _ _ u h).up (fun n => ⟨n.2.2.2, (param_kept I c n.2.1).1 p w⟩)
          (fun e => or1.2.2.1 (or1.2.2.1 e)) (fun e => or1.2.2.2 (or1.2.2.2 e))
  | mtch s a ihs iha =>
    simp only [NoLabels, NoReturnInReturn, NeverSet, Has, not_or] at hl hr ihs iha ⊢
    refine ⟨fun p w u h => ?_, fun n p w u h => absurd h (arms _ (by simp) n p w u)⟩
    simp only [ev] at h
    rcases andThen_ret h with h | ⟨v, _, h⟩
    · exact ((ihs hl.2.1 hr.2.1).1 p w u h).up (fun n => ⟨n.2.1, rfl⟩) or1.1 or1.2.1
    · exact ((iha hl.2.2 hr.2.2).2 _ _ _ u h).up (fun n => ⟨n.2.2, (param_kept I s n.2.1).1 p w⟩) or1.2.2.1 or1.2.2.2
  | acons a r iha ihr =>
    simp only [NoLabels, NoReturnInReturn, NeverSet, Has, not_or] at hl hr iha ihr ⊢
    refine ⟨fun _ _ _ h => by simp [ev] at h, fun n p w u h => ?_⟩
    cases n with
    | zero =>
      simp only [evArms] at h
      exact ((iha hl.2.1 hr.2.1).1 p w u h).up (fun n => ⟨n.2.1, rfl⟩) or1.1 or1.2.1
    | succ n =>
      simp only [evArms] at h
      exact ((ihr hl.2.2 hr.2.2).2 n p w u h).up (fun n => ⟨n.2.2, rfl⟩) or1.2.2.1 or1.2.2.2
  | seq a b iha ihb =>
    simp only [NoLabels, NoReturnInReturn, NeverSet, Has, not_or] at hl hr iha ihb ⊢
    refine ⟨fun p w u h => ?_, fun n p w u h => absurd h (arms _ (by simp) n p w u)⟩
    simp only [ev] at h
    rcases andThen_ret h with h | ⟨v, _, h⟩
    · exact ((iha hl.2.1 hr.2.1).1 p w u h).up (fun n => ⟨n.2.1, rfl⟩) or1.1 or1.2.1
    · exact ((ihb hl.2.2 hr.2.2).1 _ _ u h).up (fun n => ⟨n.2.2, (param_kept I a n.2.1).1 p w⟩) or1.2.2.1 or1.2.2.2
  | stmt a ih =>
    simp only [NoLabels, NoReturnInReturn, NeverSet, Has, not_or] at hl hr ih ⊢
    refine ⟨fun p w u h => ?_, fun n p w u h => absurd h (arms _ (by simp) n p w u)⟩
    simp only [ev] at h
    rcases andThen_ret h with h | ⟨v, _, h⟩
    · exact ((ih hl.2 hr.2).1 p w u h).up (fun n => ⟨n.2, rfl⟩) id id
    · simp at h
  | lab l b => exact absurd (by simp only [Has]; exact Or.inl ⟨l, b, rfl⟩) hl
  | brk l a ih =>
    simp only [NoLabels, NoReturnInReturn, NeverSet, Has, not_or] at hl hr ih ⊢
    refine ⟨fun p w u h => ?_, fun n p w u h => absurd h (arms _ (by simp) n p w u)⟩
    simp only [ev] at h
    rcases andThen_ret h with h | ⟨v, _, h⟩
    · exact ((ih hl.2 hr.2).1 p w u h).up (fun n => ⟨n.2, rfl⟩) id id
    · simp at h
  | set a ih =>
    simp only [NoLabels, NoReturnInReturn, NeverSet, Has, not_or] at hl hr ih ⊢
    refine ⟨fun p w u h => ?_, fun n p w u h => absurd h (arms _ (by simp) n p w u)⟩
    simp only [ev] at h
    rcases andThen_ret h with h | ⟨v, _, h⟩
    · exact ((ih hl.2 hr.2).1 p w u h).up (fun n => ⟨n.2, rfl⟩) id id
    · simp at h
  | ret a _ =>
    have hla : NoLabels a := by
      intro h; apply hl; simp only [Has]; exact Or.inr h
    have hra : ¬ Has IsReturn false a := by
      intro h; apply hr; simp only [Has]; exact Or.inl ⟨a, rfl, h⟩
    have hns : NeverSet (.ret a) → NeverSet a := by
      intro hn h; apply hn; simp only [Has]; exact Or.inr h
    refine ⟨fun p w u h => ?_, na _ (by simp)⟩
    simp only [ev] at h
    rcases andThen_ret h with h | ⟨v, hv, h⟩
    · exact absurd h ((no_return I a hra).1 p w u)
    · simp only [Out.ret.injEq] at h
      subst h
      obtain ⟨i1, _, i3, _⟩ := value_fits I a hla
      exact ⟨fun hc => i1 p w v hv hc, fun n hc => i3 (hns n) p w v hv hc⟩

theorem mutates_iff (e : E) : mutates e = true ↔ Has IsSet true e := by
  induction e <;> simp_all [mutates, Has, IsSet]

theorem never_set {e : E} (h : mutates e = false) : NeverSet e := by
  intro h'; rw [(mutates_iff e).mpr h'] at h; cases h

/-! ## `filter_map` and `find_map` -/

theorem run_congr {I : Sem} {k k' : Consumer I} (h : ∀ v w, k v w = k' v w) (is : List Nat) (w : I.W) :
    run I k is w = run I k' is w := by
  have : k = k' := by funext v w; exact h v w
  rw [this]

/-- What is said of a closure by its classification. -/
theorem call_fits (I : Sem) (body : E) (hl : NoLabels body) (hr : NoReturnInReturn body) (v : V) (w : I.W) :
    ((orBoth (classify body) (returns body)).2 = false → (callOpt I body v w).1 ≠ .no) ∧
    (NeverSet body → (orBoth (classify body) (returns body)).1 = false →
      ∀ u, (callOpt I body v w).1 = .yes u → u = v) := by
  obtain ⟨i1, _, i3, _⟩ := value_fits I body hl
  have j := (return_fits I body hl hr).1
  obtain ⟨o, p', w', he⟩ : ∃ o p' w', ev I body v w = (o, p', w') := ⟨_, _, _, rfl⟩
  have he1 : (ev I body v w).1 = o := by rw [he]
  unfold callOpt
  rw [he]
  constructor
  · intro hc
    split
    · rename_i heq; simp only [Prod.mk.injEq] at heq
      rw [heq.1] at he1
      exact absurd rfl (i1 v w _ he1 (or1.2.1 hc))
    · simp
    · rename_i heq; simp only [Prod.mk.injEq] at heq
      rw [heq.1] at he1
      exact absurd rfl ((j v w _ he1).1 (or1.2.2.2 hc))
    · simp
    · simp
  · intro hn hc u
    split
    · simp
    · rename_i heq; simp only [Prod.mk.injEq] at heq
      rw [heq.1] at he1
      intro hu
      simp only [Res.yes.injEq] at hu
      subst hu
      exact i3 hn v w _ he1 (or1.1 hc) _ rfl
    · simp
    · rename_i heq; simp only [Prod.mk.injEq] at heq
      rw [heq.1] at he1
      intro hu
      simp only [Res.yes.injEq] at hu
      subst hu
      exact (j v w _ he1).2 hn (or1.2.2.1 hc) _ rfl
    · simp

/-- A closure that is said to be for `map(..)` never gives `None`, and `map` does the same — for every
iterator and every consumer, `next` (for `find_map`) included. Missing: labelled blocks and a `return`
within a `return` — see `label_lost` and `return_lost`. -/
theorem map_partial (filterMap' movable sameType : Bool) (body : E)
    (h : report filterMap' movable sameType body = some .map) (hl : NoLabels body) (hr : NoReturnInReturn body) :
    OnlyMaps body := by
  have hf : (orBoth (classify body) (returns body)).2 = false := by
    unfold report at h
    cases hc : (orBoth (classify body) (returns body)).2 with
    | false => rfl
    | true =>
      simp only [hc, Bool.true_eq_false, if_false] at h
      split at h
      · split at h <;> simp at h
      · simp at h
  intro I
  refine ⟨fun v w => match callOpt I body v w with
    | (.yes u, w') => (some u, w')
    | (_, w') => (none, w'), fun k is w => run_congr (fun v w => ?_) is w⟩
  have := (call_fits I body hl hr v w).1 hf
  unfold filterMap map
  obtain ⟨r, w', hc⟩ : ∃ r w', callOpt I body v w = (r, w') := ⟨_, _, rfl⟩
  simp only [hc] at this ⊢
  cases r with
  | no => exact absurd rfl this
  | _ => rfl

/-- `|x| { if c { return Some(1) } match s { _ => Some(f(x)) } }` -/
example : report true true true (.seq (.ite (.opq 0) (.ret (.some' (.path 1))) (.opq 2))
    (.mtch (.opq 3) (.acons (.some' (.opq 4)) .anil))) = some .map := by decide

/-- A closure that is said to be for `filter(..)` gives its argument or `None`, and `filter` does the
same. Missing: as for `map_partial`. -/
theorem filter_partial (filterMap' movable sameType : Bool) (body : E)
    (h : report filterMap' movable sameType body = some .filter) (hl : NoLabels body)
    (hr : NoReturnInReturn body) : OnlyFilters body := by
  have hm : (orBoth (classify body) (returns body)).1 = false ∧ mutates body = false := by
    unfold report at h
    by_cases c1 : (orBoth (classify body) (returns body)).2 = false
    · simp only [c1, if_true] at h
      split at h <;> simp at h
    · simp only [if_neg c1] at h
      by_cases c2 : (orBoth (classify body) (returns body)).1 = false ∧ mutates body = false ∧ movable = true
      · exact ⟨c2.1, c2.2.1⟩
      · rw [if_neg c2] at h; simp at h
  intro I
  refine ⟨fun v w => match callOpt I body v w with
    | (.yes _, w') => (some true, w')
    | (.no, w') => (some false, w')
    | (.panic, w') => (none, w'), fun k is w => run_congr (fun v w => ?_) is w⟩
  have := (call_fits I body hl hr v w).2 (never_set hm.2) hm.1
  unfold filterMap filter
  obtain ⟨r, w', hc⟩ : ∃ r w', callOpt I body v w = (r, w') := ⟨_, _, rfl⟩
  simp only [hc] at this ⊢
  cases r with
  | yes u =>
    have := this u rfl
    subst this
    rfl
  | _ => rfl

/-- `|x| if c { return None } else { d.then_some(x) }` -/
example : report true true true (.ite (.opq 0) (.ret .none') (.thenSome (.opq 1) .param)) = none ∧
    report true true true (.ite (.opq 0) (.none') (.thenSome (.opq 1) .param)) = some .filter := by decide

/-- A choice between the parameter and `None` is said to be for `filter(..)`, whatever the condition does, if
it neither returns nor changes the parameter. -/
theorem choice_found (filterMap' : Bool) (c : E) (hr : returns c = (false, false)) (hm : mutates c = false) :
    report filterMap' true true (.ite c (.some' .param) .none') = some .filter := by
  simp [report, classify, returns, mutates, orBoth, hr, hm]

example : returns (.opq 3) = (false, false) ∧ mutates (.opq 3) = false := by decide

/-- The call that is said to be unnecessary is, if the path is the parameter. Missing: other paths — see
`constant_lost`. -/
theorem unneeded_partial (movable sameType filterMap' : Bool) (body : E)
    (h : report filterMap' movable sameType body = some .unneeded) (hp : ∀ k, body ≠ .some' (.path k)) :
    filterMap' = true ∧ DoesNothing body := by
  have : filterMap' = true ∧ somePath body = true := by
    unfold report at h
    by_cases c1 : (orBoth (classify body) (returns body)).2 = false
    · simp only [c1, if_true] at h
      cases hc : filterMap' && somePath body with
      | true => simpa using hc
      | false => simp [hc] at h
    · simp only [if_neg c1] at h
      split at h
      · split at h <;> simp at h
      · simp at h
  refine ⟨this.1, ?_⟩
  have hb : body = .some' .param := by
    have h2 := this.2
    unfold somePath at h2
    split at h2
    · rfl
    · exact absurd rfl (hp _)
    · cases h2
  subst hb
  intro I k is w
  exact run_congr (fun v w => by simp [filterMap, callOpt, ev, andThen]) is w

example : report true true true (.some' .param) = some .unneeded := by decide

/-- For `find_map`, there is no such report. -/
theorem find_map_needed (movable sameType : Bool) (body : E) : report false movable sameType body ≠ some .unneeded := by
  unfold report
  simp only [Bool.false_and, Bool.false_eq_true, if_false]
  split
  · simp
  · split
    · split <;> simp
    · simp

/-- `map` never passes over an item. -/
theorem map_one {I : Sem} (g : V → I.W → Option V × I.W) (k : Consumer I) (hk : ∀ v w, (k v w).1 ≠ .more)
    (i : Nat) (w : I.W) : (run I (map g k) [i] w).1 ≠ .more := by
  have : (map g k (I.item i w).1 (I.item i w).2).1 ≠ .more := by
    unfold map
    split
    · exact hk _ _
    · simp
  simp only [run]
  split
  · rename_i heq; rw [heq] at this; exact absurd rfl this
  · exact this

/-- A program for the counterexamples: the world counts the calls. -/
def prog : Sem :=
  { W := Nat, path := fun k => .prim k, opq := fun k p w => (some (if k = 0 then p else .prim k), w + 1),
    truth := fun v => v == .prim 1, pick := fun _ => 0, item := fun i w => (.prim i, w) }

/-- A consumer that stops at once. -/
def stop : Consumer prog := fun v w => (if v == .prim 7 then .enough else .more, Nat.add w (if v == .prim 7 then 100 else 10))

/-- `.filter_map(|_| Some(K))` is said to be unnecessary. -/
theorem constant_lost : report true true true (.some' (.path 3)) = some .unneeded ∧ ¬ DoesNothing (.some' (.path 3)) := by
  refine ⟨by decide, fun h => ?_⟩
  have := h prog stop [7] (0 : Nat)
  revert this
  show ¬ ((Step.more, (10 : Nat)) = (Step.enough, (100 : Nat)))
  decide

/-- `'l: { if x == 1 { break 'l None } Some(f(x)) }` is said to be for `map`, and drops items. -/
theorem label_lost :
    report true true true (.lab 0 (.seq (.ite (.opq 0) (.brk 0 .none') (.opq 2)) (.some' (.opq 0)))) = some .map ∧
      ¬ OnlyMaps (.lab 0 (.seq (.ite (.opq 0) (.brk 0 .none') (.opq 2)) (.some' (.opq 0)))) := by
  refine ⟨by decide, fun h => ?_⟩
  obtain ⟨g, hg⟩ := h prog
  -- the first consumer never panics and tells a skipped item from a kept one
  have h1 := hg (fun _ _ => (.enough, (50 : Nat))) [1] (0 : Nat)
  have e1 : run prog (filterMap (callOpt prog (.lab 0 (.seq (.ite (.opq 0) (.brk 0 .none') (.opq 2)) (.some' (.opq 0)))))
      (fun _ _ => (.enough, (50 : Nat)))) [1] (0 : Nat) = (.more, (1 : Nat)) := by rfl
  rw [e1] at h1
  exact map_one g (fun _ _ => (.enough, (50 : Nat))) (fun _ _ => by simp) 1 (0 : Nat) (by rw [← h1])

/-- `return { if x == 1 { return None } Some(f(x)) }` is said to be for `map`, and drops items. -/
theorem return_lost :
    report true true true (.ret (.seq (.ite (.opq 0) (.ret .none') (.opq 2)) (.some' (.opq 0)))) = none ∧
    report true true true (.seq (.ret (.seq (.ite (.opq 0) (.ret .none') (.opq 2)) (.some' (.opq 0)))) (.some' .param)) = some .map ∧
      ¬ OnlyMaps (.seq (.ret (.seq (.ite (.opq 0) (.ret .none') (.opq 2)) (.some' (.opq 0)))) (.some' .param)) := by
  refine ⟨by decide, by decide, fun h => ?_⟩
  obtain ⟨g, hg⟩ := h prog
  have h1 := hg (fun _ _ => (.enough, (50 : Nat))) [1] (0 : Nat)
  have e1 : run prog (filterMap (callOpt prog (.seq (.ret (.seq (.ite (.opq 0) (.ret .none') (.opq 2)) (.some' (.opq 0)))) (.some' .param)))
      (fun _ _ => (.enough, (50 : Nat)))) [1] (0 : Nat) = (.more, (1 : Nat)) := by rfl
  rw [e1] at h1
  exact map_one g (fun _ _ => (.enough, (50 : Nat))) (fun _ _ => by simp) 1 (0 : Nat) (by rw [← h1])

/-! ## `bool::then` in `filter_map` -/

theorem containsReturn_iff (e : E) : containsReturn e = true ↔ Has IsReturn false e := by
  induction e <;> simp_all [containsReturn, Has, IsReturn]

/-- `filter` then `map` do the same as `filter_map` with `then`, if the condition does not assign the
parameter. Missing: conditions that do — see `assignment_lost`. -/
theorem then_partial (disjoint : Bool) (body c b : E) (h : filterThenMap disjoint body = some (c, b))
    (hs : NeverSet c) (I : Sem) (k : Consumer I) (is : List Nat) (w : I.W) :
    run I (filterMap (callOpt I body) k) is w = run I (filter (callBool I c) (map (callVal I b) k)) is w := by
  have hb : body = .thenDo c b ∧ containsReturn c = false := by
    unfold filterThenMap at h
    split at h
    · rename_i c' b'
      cases hc : containsReturn c' with
      | true => simp [hc] at h
      | false =>
        simp only [hc, Bool.false_eq_true, if_false] at h
        split at h
        · simp only [Option.some.injEq, Prod.mk.injEq] at h
          rw [← h.1, ← h.2]
          exact ⟨rfl, hc⟩
        · cases h
    · cases h
  obtain ⟨rfl, hc⟩ := hb
  have hnr : ¬ Has IsReturn false c := by
    intro h'; rw [(containsReturn_iff c).mpr h'] at hc; cases hc
  refine run_congr (fun v w => ?_) is w
  have hk := (param_kept I c hs).1 v w
  have hret := (no_return I c hnr).1 v w
  obtain ⟨o, p', w', he⟩ : ∃ o p' w', ev I c v w = (o, p', w') := ⟨_, _, _, rfl⟩
  rw [he] at hk hret
  simp only at hk hret
  subst hk
  unfold filterMap filter callBool callOpt
  simp only [ev]
  cases o with
  | val t =>
    have hcv : callVal I c p' w = (some t, w') := by unfold callVal; rw [he]
    rw [he, hcv]
    simp only [andThen, Option.map_some]
    cases ht : I.truth t with
    | false => simp
    | true =>
      simp only [if_true]
      obtain ⟨o2, p2, w2, he2⟩ : ∃ o p w3, ev I b p' w' = (o, p, w3) := ⟨_, _, _, rfl⟩
      unfold map callVal
      rw [he2]
      cases o2 <;> rfl
  | ret u => exact absurd rfl (hret u)
  | _ =>
    have hcv : callVal I c p' w = (none, w') := by unfold callVal; rw [he]
    rw [he, hcv]
    rfl

example : filterThenMap true (.thenDo (.opq 0) (.opq 1)) = some (.opq 0, .opq 1) ∧ NeverSet (.opq 0) :=
  ⟨by decide, by simp [NeverSet, Has, IsSet]⟩

/-- Without `return` in the condition and without common captures there is a suggestion. -/
theorem then_found (c b : E) (h : ¬ Has IsReturn false c) : filterThenMap true (.thenDo c b) = some (c, b) := by
  have : containsReturn c = false := by
    cases hc : containsReturn c with
    | false => rfl
    | true => exact absurd ((containsReturn_iff c).mp hc) h
  simp [filterThenMap, this]

/-- `|(mut a, b)| { a = f(); true }.then(|| a)`: the assigned value is lost. -/
theorem assignment_lost :
    filterThenMap true (.thenDo (.seq (.set (.path 7)) (.path 1)) .param) = some (.seq (.set (.path 7)) (.path 1), .param) ∧
      ∃ (k : Consumer prog) (is : List Nat) (w : Nat),
        run prog (filterMap (callOpt prog (.thenDo (.seq (.set (.path 7)) (.path 1)) .param)) k) is w ≠
          run prog (filter (callBool prog (.seq (.set (.path 7)) (.path 1))) (map (callVal prog .param) k)) is w := by
  refine ⟨by decide, stop, [3], (0 : Nat), ?_⟩
  show ¬ ((Step.enough, (100 : Nat)) = (Step.more, (10 : Nat)))
  decide

/-! ## Searches -/

/-- What the suggestion gives: `any`, negated for `is_none`. -/
def suggested {I : Sem} (isSome : Bool) (s : Search) (f : V → I.W → Option Bool × I.W) (is : List Nat) (w : I.W) :
    Option Bool × I.W :=
  ((anyOf f is w).1.map fun b => if negated isSome s then !b else b, (anyOf f is w).2)

theorem find_any {I : Sem} (f : V → I.W → Option Bool × I.W) : ∀ (is : List Nat) (w : I.W),
    ((findFirst f is w).1.map Option.isSome, (findFirst f is w).2) = anyOf f is w
  | [], w => rfl
  | i :: is, w => by
    unfold findFirst anyOf
    obtain ⟨r, w', hr⟩ : ∃ r w', f (I.item i w).1 (I.item i w).2 = (r, w') := ⟨_, _, rfl⟩
    rw [hr]
    rcases r with _ | _ | _
    · rfl
    · exact find_any f is w'
    · rfl

theorem index_any {I : Sem} (f : V → I.W → Option Bool × I.W) : ∀ (n : Nat) (is : List Nat) (w : I.W),
    ((indexFrom f n is w).1.map Option.isSome, (indexFrom f n is w).2) = anyOf f is w
  | _, [], w => rfl
  | n, i :: is, w => by
    unfold indexFrom anyOf
    obtain ⟨r, w', hr⟩ : ∃ r w', f (I.item i w).1 (I.item i w).2 = (r, w') := ⟨_, _, rfl⟩
    rw [hr]
    rcases r with _ | _ | _
    · rfl
    · exact index_any f (n + 1) is w'
    · rfl

/-- `find(f).is_some()`, `position(f).is_some()` and their negations are `any(f)` and its negation, with
the same effects. -/
theorem search_same {I : Sem} (isSome : Bool) (s : Search) (hs : s ≠ .rposition) (f : V → I.W → Option Bool × I.W)
    (is : List Nat) (w : I.W) :
    suggested isSome s f is w =
      ((searched s f is w).1.map fun b => if isSome then b else !b, (searched s f is w).2) := by
  have : searched s f is w = anyOf f is w := by
    cases s with
    | find => exact find_any f is w
    | position => exact index_any f 0 is w
    | rposition => exact absurd rfl hs
  rw [this]
  unfold suggested negated
  cases isSome <;> rfl

theorem any_pure {I : Sem} (f : V → I.W → Option Bool × I.W) (q : Nat → Bool) (w : I.W)
    (h : ∀ i, f (I.item i w).1 (I.item i w).2 = (some (q i), w)) : ∀ is, anyOf f is w = (some (is.any q), w)
  | [] => rfl
  | i :: is => by
    unfold anyOf
    rw [h i, List.any_cons]
    cases hq : q i with
    | true => rfl
    | false => simpa using any_pure f q w h is

/-- `rposition(f).is_some()` is `any(f)` where making and testing items has no effect. Missing: effects —
see `order_changed`. -/
theorem rposition_partial {I : Sem} (isSome : Bool) (f : V → I.W → Option Bool × I.W) (q : Nat → Bool)
    (is : List Nat) (w : I.W) (h : ∀ i, f (I.item i w).1 (I.item i w).2 = (some (q i), w)) :
    suggested isSome .rposition f is w =
      ((searched .rposition f is w).1.map fun b => if isSome then b else !b, (searched .rposition f is w).2) := by
  have : searched .rposition f is w = anyOf f is w := by
    show ((indexFrom f 0 is.reverse w).1.map Option.isSome, (indexFrom f 0 is.reverse w).2) = _
    rw [index_any, any_pure f q w h, any_pure f q w h, List.any_reverse]
  rw [this]
  unfold suggested negated
  cases isSome <;> rfl

example : searched (I := prog) .rposition (fun v w => (some (v == .prim 2), w)) [1, 2, 3] (0 : Nat) = (some true, (0 : Nat)) := by
  rfl

/-- `rposition(f).is_some()` tests the items from the end, `any(f)` from the start: a test that panics for
one item is reached by one of them only. -/
theorem order_changed : ∃ f : V → prog.W → Option Bool × prog.W,
    suggested (I := prog) true .rposition f [1, 2] (0 : Nat) = (none, (0 : Nat)) ∧
      searched (I := prog) .rposition f [1, 2] (0 : Nat) = (some true, (0 : Nat)) :=
  ⟨fun v w => (if v = .prim 1 then none else some true, w), rfl, rfl⟩

end Verif.Sift
