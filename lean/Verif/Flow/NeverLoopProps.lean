import Verif.Flow.NeverLoopSpec

/-!
# C40: a reported loop body runs at most once
-/

namespace Verif.Flow

/-- What the analysis says about the possible ends `P` of an expression. -/
structure Good (main : Nat) (ls : Labels) (r : Res × Labels) (P : Outcome → Prop) : Prop where
  ids : r.2.map (·.1) = ls.map (·.1)
  mono : ∀ id, (id, true) ∈ ls → (id, true) ∈ r.2
  sound : r.1 ≠ .mayContinue →
    ¬ P (.cont main) ∧ (r.1 = .diverging → ¬ P .finished) ∧ ∀ id ∈ ls.map (·.1), P (.brk id) → (id, true) ∈ r.2

theorem Good.weaken {main : Nat} {ls : Labels} {r : Res × Labels} {P Q : Outcome → Prop} (h : Good main ls r P)
    (hq : ∀ o, Q o → P o) : Good main ls r Q where
  ids := h.ids
  mono := h.mono
  sound hr := by
    obtain ⟨h1, h2, h3⟩ := h.sound hr
    exact ⟨fun hc => h1 (hq _ hc), fun hd hf => h2 hd (hq _ hf), fun id hid hb => h3 id hid (hq _ hb)⟩

theorem Good.seq {main : Nat} {ls : Labels} {r1 : Res × Labels} {f : Labels → Res × Labels}
    {P1 P2 P : Outcome → Prop} (h1 : Good main ls r1 P1)
    (h2 : ∀ ls', ls'.map (·.1) = ls.map (·.1) → Good main ls' (f ls') P2)
    (hp : ∀ o, P o → (P1 o ∧ o ≠ .finished) ∨ (P1 .finished ∧ P2 o)) : Good main ls (combineSeq r1 f) P := by
  obtain ⟨r1r, r1l⟩ := r1
  have g2 := h2 r1l h1.ids
  cases r1r with
  | mayContinue => exact ⟨h1.ids, h1.mono, fun h => absurd rfl h⟩
  | diverging =>
    refine ⟨h1.ids, h1.mono, fun h => ?_⟩
    obtain ⟨a1, a2, a3⟩ := h1.sound h
    have a2 := a2 rfl
    refine ⟨fun hc => ?_, fun _ hf => ?_, fun id hid hb => ?_⟩
    · rcases hp _ hc with ⟨h, _⟩ | ⟨h, _⟩
      · exact a1 h
      · exact a2 h
    · rcases hp _ hf with ⟨_, h⟩ | ⟨h, _⟩
      · exact h rfl
      · exact a2 h
    · rcases hp _ hb with ⟨h, _⟩ | ⟨h, _⟩
      · exact a3 id hid h
      · exact absurd h a2
  | normal =>
    refine ⟨g2.ids.trans h1.ids, fun id h => g2.mono id (h1.mono id h), fun h => ?_⟩
    obtain ⟨a1, _, a3⟩ := h1.sound (by simp)
    obtain ⟨b1, b2, b3⟩ := g2.sound h
    refine ⟨fun hc => ?_, fun hd hf => ?_, fun id hid hb => ?_⟩
    · rcases hp _ hc with ⟨h, _⟩ | ⟨_, h⟩
      · exact a1 h
      · exact b1 h
    · rcases hp _ hf with ⟨_, h⟩ | ⟨_, h⟩
      · exact h rfl
      · exact b2 hd h
    · rcases hp _ hb with ⟨h, _⟩ | ⟨_, h⟩
      · exact g2.mono id (a3 id hid h)
      · exact b3 id (by rw [h1.ids]; exact hid) h

theorem Good.absorb {main : Nat} {ls : Labels} {r : Res × Labels} {P Q : Outcome → Prop} (h : Good main ls r P)
    (hq : ∀ o, Q o → o ≠ .finished → P o) : Good main ls (absorbBreak r.1, r.2) Q where
  ids := h.ids
  mono := h.mono
  sound hr := by
    have hr' : r.1 ≠ .mayContinue := by
      intro e; rw [e] at hr; exact hr rfl
    obtain ⟨h1, _, h3⟩ := h.sound hr'
    refine ⟨fun hc => h1 (hq _ hc (by simp)), fun hd => ?_, fun id hid hb => h3 id hid (hq _ hb (by simp))⟩
    cases hc : r.1 <;> rw [hc] at hd <;> simp [absorbBreak] at hd

theorem combineBranches_ne {a b : Res} (h : combineBranches a b ≠ .mayContinue) : a ≠ .mayContinue ∧ b ≠ .mayContinue := by
  cases a <;> cases b <;> simp_all [combineBranches]

theorem combineBranches_diverging {a b : Res} (h : combineBranches a b = .diverging) : a = .diverging ∧ b = .diverging := by
  cases a <;> cases b <;> simp_all [combineBranches]

/-- Two alternatives, analysed one after the other. -/
theorem Good.branches {main : Nat} {ls : Labels} {r1 r2 : Res × Labels} {P1 P2 P : Outcome → Prop}
    (h1 : Good main ls r1 P1) (h2 : Good main r1.2 r2 P2) (hp : ∀ o, P o → P1 o ∨ P2 o) :
    Good main ls (combineBranches r1.1 r2.1, r2.2) P where
  ids := h2.ids.trans h1.ids
  mono := fun id h => h2.mono id (h1.mono id h)
  sound hr := by
    obtain ⟨n1, n2⟩ := combineBranches_ne hr
    obtain ⟨a1, a2, a3⟩ := h1.sound n1
    obtain ⟨b1, b2, b3⟩ := h2.sound n2
    refine ⟨fun hc => ?_, fun hd hf => ?_, fun id hid hb => ?_⟩
    · rcases hp _ hc with h | h
      · exact a1 h
      · exact b1 h
    · obtain ⟨d1, d2⟩ := combineBranches_diverging hd
      rcases hp _ hf with h | h
      · exact a2 d1 h
      · exact b2 d2 h
    · rcases hp _ hb with h | h
      · exact h2.mono id (a3 id hid h)
      · exact b3 id (by rw [h1.ids]; exact hid) h

theorem mark_ids (id : Nat) (ls : Labels) : (markReachable id ls).map (·.1) = ls.map (·.1) := by
  induction ls with
  | nil => rfl
  | cons a ls ih =>
    obtain ⟨l, b⟩ := a
    unfold markReachable
    split
    · rfl
    · simp [ih]

theorem mark_mono (id : Nat) (ls : Labels) : ∀ i, (i, true) ∈ ls → (i, true) ∈ markReachable id ls := by
  induction ls with
  | nil => simp
  | cons a ls ih =>
    obtain ⟨l, b⟩ := a
    intro i hi
    unfold markReachable
    split
    · rcases List.mem_cons.1 hi with h | h
      · simp only [Prod.mk.injEq] at h
        simp [h.1]
      · exact List.mem_cons_of_mem _ h
    · rcases List.mem_cons.1 hi with h | h
      · rw [h]; exact List.mem_cons_self ..
      · exact List.mem_cons_of_mem _ (ih i h)

theorem mark_mem (id : Nat) (ls : Labels) (h : id ∈ ls.map (·.1)) : (id, true) ∈ markReachable id ls := by
  induction ls with
  | nil => simp at h
  | cons a ls ih =>
    obtain ⟨l, b⟩ := a
    unfold markReachable
    split
    · next e => simp [e]
    · next e =>
      refine List.mem_cons_of_mem _ (ih ?_)
      simp only [List.map_cons, List.mem_cons] at h
      exact h.resolve_left fun h => e h.symm

/-- Leaving a labelled block. -/
theorem Good.leave {main id : Nat} {ls : Labels} {r : Res × Labels} {P Q : Outcome → Prop}
    (h : Good main (ls ++ [(id, false)]) r P) (hid : id ∉ ls.map (·.1))
    (hq : ∀ o, Q o → (P o ∧ o ≠ .brk id) ∨ (o = .finished ∧ P (.brk id))) :
    Good main ls (leaveBlock r) Q := by
  have hids := h.ids
  rw [List.map_append] at hids
  have hne : r.2 ≠ [] := by
    intro e; rw [e] at hids; simp at hids
  obtain ⟨init, last, hr⟩ : ∃ init last, r.2 = init ++ [last] :=
    ⟨r.2.dropLast, r.2.getLast hne, (List.dropLast_concat_getLast hne).symm⟩
  rw [hr, List.map_append] at hids
  obtain ⟨e1, e2⟩ := List.append_inj' hids rfl
  simp only [List.map_cons, List.map_nil, List.cons.injEq, and_true] at e2
  have hlast : (r.2.getLast?.getD (0, false)) = last := by rw [hr]; simp
  have hdrop : r.2.dropLast = init := by rw [hr]; simp
  have mem_init : ∀ i ∈ ls.map (·.1), (i, true) ∈ r.2 → (i, true) ∈ init := by
    intro i hi hm
    rw [hr, List.mem_append, List.mem_singleton] at hm
    rcases hm with hm | hm
    · exact hm
    · exfalso
      rw [← hm] at e2
      exact hid (e2 ▸ hi)
  refine ⟨by simp only [leaveBlock, hdrop]; exact e1, ?_, ?_⟩
  · intro i hi
    simp only [leaveBlock, hdrop]
    exact mem_init i (List.mem_map.2 ⟨_, hi, rfl⟩) (h.mono i (List.mem_append.2 (.inl hi)))
  · intro hr1
    simp only [leaveBlock, hdrop, hlast] at hr1 ⊢
    have hne : r.1 ≠ .mayContinue := by
      intro e; rw [e] at hr1; simp at hr1
    obtain ⟨a1, a2, a3⟩ := h.sound hne
    refine ⟨fun hc => ?_, fun hd hf => ?_, fun i hi hb => ?_⟩
    · rcases hq _ hc with ⟨h, _⟩ | ⟨h, _⟩
      · exact a1 h
      · simp at h
    · by_cases hj : r.1 = .diverging ∧ last.2 = true
      · rw [if_pos hj] at hd; simp at hd
      · rw [if_neg hj] at hd
        rcases hq _ hf with ⟨h, _⟩ | ⟨_, h⟩
        · exact a2 hd h
        · have hm := a3 id (by simp) h
          rw [hr, List.mem_append, List.mem_singleton] at hm
          rcases hm with hm | hm
          · exact hid (e1 ▸ List.mem_map.2 ⟨_, hm, rfl⟩)
          · exact hj ⟨hd, by rw [← hm]⟩
    · rcases hq _ hb with ⟨h, _⟩ | ⟨h, _⟩
      · exact mem_init i hi (a3 i (by simp only [List.map_append, List.mem_append]; exact .inl hi) h)
      · simp at h

theorem Good.here {main : Nat} {ls : Labels} {P : Outcome → Prop} {r : Res}
    (h : r ≠ .mayContinue → ¬ P (.cont main) ∧ (r = .diverging → ¬ P .finished) ∧ ∀ id, ¬ P (.brk id)) :
    Good main ls (r, ls) P where
  ids := rfl
  mono := fun _ h => h
  sound hr := by
    obtain ⟨h1, h2, h3⟩ := h hr
    exact ⟨h1, h2, fun id _ hb => absurd hb (h3 id)⟩

/-! ## Plain expressions -/

mutual
theorem plain_run : ∀ {e : NExpr} {o : Outcome}, plain e = true → Run e o → o = .finished
  | .leaf, _, _, h => by cases h; rfl
  | .seq es, _, hp, h => plainAll_run (by simpa [plain] using hp) h
  | .assign a b, _, hp, h => by
    rw [plain, Bool.and_eq_true] at hp
    cases h with
    | assignValue h hn => exact absurd (plain_run hp.2 h) hn
    | assignPlace _ h => exact plain_run hp.1 h
  | .lazy a b, _, hp, h => by
    rw [plain, Bool.and_eq_true] at hp
    cases h with
    | lazyLeft h => exact plain_run hp.1 h
    | lazyRight _ h => exact plain_run hp.2 h
  | .arm a b, _, hp, h => by
    rw [plain, Bool.and_eq_true] at hp
    cases h with
    | armGuard h hn => exact absurd (plain_run hp.1 h) hn
    | armBody _ h => exact plain_run hp.2 h
  | .ite a b c, _, hp, h => by
    rw [plain, Bool.and_eq_true, Bool.and_eq_true] at hp
    cases h with
    | iteCond h hn => exact absurd (plain_run hp.1.1 h) hn
    | iteThen _ h => exact plain_run hp.1.2 h
    | iteElse _ h => exact plain_run hp.2 h
  | .mtch s arms, _, hp, h => by
    rw [plain, Bool.and_eq_true, Bool.and_eq_true] at hp
    cases h with
    | mtchScrut h hn => exact absurd (plain_run hp.1.1 h) hn
    | mtchArm _ h => exact plainAll_arm hp.1.2 h
  | .yield e, _, hp, h => by
    rw [plain] at hp
    cases h with
    | yield h => exact plain_run hp h
  | .letElse .., _, hp, _ | .loop .., _, hp, _ | .block .., _, hp, _ | .cont _, _, hp, _ | .ret _, _, hp, _
  | .brk .., _, hp, _ | .never _, _, hp, _ | .todo _, _, hp, _ => by simp [plain] at hp

theorem plainAll_run : ∀ {es : List NExpr} {o : Outcome}, plainAll es = true → Run (.seq es) o → o = .finished
  | [], _, _, h => by cases h; rfl
  | e :: es, _, hp, h => by
    rw [plainAll, Bool.and_eq_true] at hp
    cases h with
    | seqStop h hn => exact absurd (plain_run hp.1 h) hn
    | seqNext _ h => exact plainAll_run hp.2 h

theorem plainAll_arm : ∀ {es : List NExpr} {o : Outcome}, plainAll es = true → RunArm es o → o = .finished
  | [], _, _, h => by cases h
  | e :: es, _, hp, h => by
    rw [plainAll, Bool.and_eq_true] at hp
    cases h with
    | here h => exact plain_run hp.1 h
    | later h => exact plainAll_arm hp.2 h
end

mutual
theorem plain_never (main : Nat) : ∀ {e : NExpr} (ls : Labels), plain e = true → neverExpr main e ls = (.normal, ls)
  | .leaf, ls, _ => by rw [neverExpr]
  | .seq es, ls, hp => by rw [neverExpr]; exact plainAll_never main ls (by simpa [plain] using hp)
  | .assign a b, ls, hp => by
    rw [plain, Bool.and_eq_true] at hp
    rw [neverExpr, plain_never main ls hp.1]
    exact plain_never main ls hp.2
  | .lazy a b, ls, hp => by
    rw [plain, Bool.and_eq_true] at hp
    rw [neverExpr]; exact plain_never main ls hp.1
  | .arm a b, ls, hp => by
    rw [plain, Bool.and_eq_true] at hp
    rw [neverExpr]; exact plain_never main ls hp.2
  | .ite a b c, ls, hp => by
    rw [plain, Bool.and_eq_true, Bool.and_eq_true] at hp
    rw [neverExpr, plain_never main ls hp.1.1]
    simp only [combineSeq]
    rw [plain_never main ls hp.1.2, plain_never main ls hp.2]
    rfl
  | .mtch s arms, ls, hp => by
    rw [plain, Bool.and_eq_true, Bool.and_eq_true] at hp
    rw [neverExpr, plain_never main ls hp.1.1]
    simp only [combineSeq]
    cases arms with
    | nil => simp at hp
    | cons a as =>
      have h1 := hp.1.2
      rw [plainAll, Bool.and_eq_true] at h1
      rw [neverArms, plain_never main ls h1.1]
      exact plainAll_arms main ls h1.2
  | .yield e, ls, hp => by rw [neverExpr]
  | .letElse .., ls, hp | .loop .., ls, hp | .block .., ls, hp | .cont _, ls, hp | .ret _, ls, hp
  | .brk .., ls, hp | .never _, ls, hp | .todo _, ls, hp => by simp [plain] at hp

theorem plainAll_never (main : Nat) : ∀ {es : List NExpr} (ls : Labels), plainAll es = true →
    neverSeq main es ls = (.normal, ls)
  | [], ls, _ => by rw [neverSeq]
  | e :: es, ls, hp => by
    rw [plainAll, Bool.and_eq_true] at hp
    rw [neverSeq, plain_never main ls hp.1]
    exact plainAll_never main ls hp.2

theorem plainAll_arms (main : Nat) : ∀ {es : List NExpr} (ls : Labels), plainAll es = true →
    neverArms main es .normal ls = (.normal, ls)
  | [], ls, _ => by rw [neverArms]
  | e :: es, ls, hp => by
    rw [plainAll, Bool.and_eq_true] at hp
    rw [neverArms, plain_never main ls hp.1]
    exact plainAll_arms main ls hp.2
end

/-! ## Soundness -/

/-- The ends of a loop. -/
theorem run_loop {id : Nat} {b e : NExpr} {o : Outcome} (h : Run e o) (he : e = .loop id b) :
    (o = .finished ∧ Run b (.brk id)) ∨ (Run b o ∧ o ≠ .finished) := by
  induction h using Run.rec (motive_2 := fun _ _ _ => True) with
  | loopBreak h => cases he; exact .inl ⟨rfl, h⟩
  | loopNext _ _ _ ih => exact ih he
  | loopCont _ _ _ ih => exact ih he
  | loopStop h h1 => cases he; exact .inr ⟨h, h1⟩
  | here | later => trivial
  | _ => cases he

mutual
/-- The analysis of an expression is right about its possible ends. -/
theorem never_good (main : Nat) : ∀ (e : NExpr) (ls : Labels), visible e = true → inScope (ls.map (·.1)) e →
    Good main ls (neverExpr main e ls) (Run e)
  | .leaf, ls, _, _ => by
    rw [neverExpr]
    refine .here fun _ => ⟨fun h => ?_, by simp, fun _ h => ?_⟩ <;> cases h
  | .seq es, ls, hv, hs => by
    rw [neverExpr]; exact neverSeq_good main es ls (by simpa [visible] using hv) (by simpa [inScope] using hs)
  | .letElse a b, ls, hv, hs => by
    rw [visible, Bool.and_eq_true] at hv
    rw [inScope] at hs
    rw [neverExpr]
    refine Good.seq (P2 := fun o => o = .finished ∨ (Run b o ∧ o ≠ .finished)) (never_good main a ls hv.1 hs.1) ?_ ?_
    · intro ls' hl
      refine (never_good main b ls' hv.2 (hl ▸ hs.2)).absorb ?_
      rintro o (h | h) hn
      · exact absurd h hn
      · exact h.1
    · intro o h
      cases h with
      | letInit h =>
        by_cases hn : o = .finished
        · subst hn; exact .inr ⟨h, .inl rfl⟩
        · exact .inl ⟨h, hn⟩
      | letElse h1 h2 h3 => exact .inr ⟨h1, .inr ⟨h2, h3⟩⟩
  | .assign p v, ls, hv, hs => by
    rw [visible, Bool.and_eq_true, Bool.and_eq_true] at hv
    rw [inScope] at hs
    rw [neverExpr, plain_never main ls hv.1.1]
    refine (never_good main v ls hv.2 hs.2).weaken ?_
    intro o h
    cases h with
    | assignValue h _ => exact h
    | assignPlace h1 h2 => rw [plain_run hv.1.1 h2]; exact h1
  | .lazy a b, ls, hv, hs => by
    rw [visible, Bool.and_eq_true] at hv
    rw [inScope] at hs
    rw [neverExpr]
    refine (never_good main a ls hv.1 hs.1).weaken ?_
    intro o h
    cases h with
    | lazyLeft h => exact h
    | lazyRight h1 h2 => rw [plain_run hv.2 h2]; exact h1
  | .loop id b, ls, hv, hs => by
    rw [visible] at hv
    rw [inScope] at hs
    rw [neverExpr]
    refine (never_good main b ls hv hs).absorb ?_
    intro o h hn
    rcases run_loop h rfl with ⟨h, _⟩ | ⟨h, _⟩
    · exact absurd h hn
    · exact h
  | .ite c t e, ls, hv, hs => by
    rw [visible, Bool.and_eq_true, Bool.and_eq_true] at hv
    rw [inScope] at hs
    rw [neverExpr]
    refine Good.seq (P2 := fun o => Run t o ∨ Run e o) (never_good main c ls hv.1.1 hs.1) ?_ ?_
    · intro ls' hl
      have g := never_good main t ls' hv.1.2 (hl ▸ hs.2.1)
      refine g.branches (never_good main e _ hv.2 ?_) (fun _ h => h)
      rw [g.ids, hl]; exact hs.2.2
    · intro o h
      cases h with
      | iteCond h hn => exact .inl ⟨h, hn⟩
      | iteThen h1 h2 => exact .inr ⟨h1, .inl h2⟩
      | iteElse h1 h2 => exact .inr ⟨h1, .inr h2⟩
  | .mtch s arms, ls, hv, hs => by
    rw [visible, Bool.and_eq_true] at hv
    rw [inScope] at hs
    rw [neverExpr]
    refine Good.seq (P2 := RunArm arms) (never_good main s ls hv.1 hs.1) ?_ ?_
    · intro ls' hl
      refine (neverArms_good main arms ls' (fun _ => False) .diverging hv.2 (hl ▸ hs.2) ?_).weaken (fun _ h => .inr h)
      exact .here fun _ => ⟨id, fun _ => id, fun _ => id⟩
    · intro o h
      cases h with
      | mtchScrut h hn => exact .inl ⟨h, hn⟩
      | mtchArm h1 h2 => exact .inr ⟨h1, h2⟩
  | .arm g b, ls, hv, hs => by
    rw [visible, Bool.and_eq_true] at hv
    rw [inScope] at hs
    rw [neverExpr]
    refine (never_good main b ls hv.2 hs.2).weaken ?_
    intro o h
    cases h with
    | armGuard h hn => exact absurd (plain_run hv.1 h) hn
    | armBody _ h => exact h
  | .block id b, ls, hv, hs => by
    rw [visible] at hv
    rw [inScope] at hs
    rw [neverExpr]
    have g := never_good main b (ls ++ [(id, false)]) hv (by simpa using hs.2)
    refine g.leave hs.1 ?_
    intro o h
    cases h with
    | blockBreak h => exact .inr ⟨rfl, h⟩
    | blockEnd h hn => exact .inl ⟨h, hn⟩
  | .cont id, ls, _, _ => by
    rw [neverExpr]
    refine .here fun hr => ⟨fun h => ?_, fun _ h => ?_, fun _ h => ?_⟩
    · cases h; exact hr (if_pos rfl)
    · cases h
    · cases h
  | .ret e, ls, hv, hs => by
    rw [visible] at hv
    rw [inScope] at hs
    rw [neverExpr]
    refine Good.seq (P2 := fun o => o = .ret) (never_good main e ls hv hs) ?_ ?_
    · intro ls' _
      exact .here fun _ => ⟨by simp, by simp, by simp⟩
    · intro o h
      cases h with
      | retVal h hn => exact .inl ⟨h, hn⟩
      | ret h => exact .inr ⟨h, rfl⟩
  | .brk id e, ls, hv, hs => by
    rw [visible] at hv
    rw [inScope] at hs
    rw [neverExpr]
    refine Good.seq (P2 := fun o => o = .brk id) (never_good main e ls hv hs) ?_ ?_
    · intro ls' _
      refine ⟨mark_ids id ls', mark_mono id ls', fun _ => ⟨by simp, by simp, ?_⟩⟩
      intro i hi h
      simp only [Outcome.brk.injEq] at h
      subst h
      exact mark_mem i ls' hi
    · intro o h
      cases h with
      | brkVal h hn => exact .inl ⟨h, hn⟩
      | brk h => exact .inr ⟨h, rfl⟩
  | .yield e, ls, hv, _ => by
    rw [visible] at hv
    rw [neverExpr]
    refine .here fun _ => ⟨fun h => ?_, by simp, fun _ h => ?_⟩
    · cases h with | yield h => exact absurd (plain_run hv h) (by simp)
    · cases h with | yield h => exact absurd (plain_run hv h) (by simp)
  | .never e, ls, hv, hs => by
    rw [visible] at hv
    rw [inScope] at hs
    rw [neverExpr]
    refine Good.seq (P2 := fun _ => False) (never_good main e ls hv hs) ?_ ?_
    · intro ls' _
      exact .here fun _ => ⟨by simp, by simp, by simp⟩
    · intro o h
      cases h with
      | never h hn => exact .inl ⟨h, hn⟩
  | .todo e, ls, hv, hs => by
    rw [visible] at hv
    rw [inScope] at hs
    rw [neverExpr]
    have g := never_good main e ls hv hs
    refine ⟨g.ids, g.mono, fun hr => ?_⟩
    simp only at hr ⊢
    have hd : (neverExpr main e ls).1 ≠ .diverging := by
      intro h; rw [if_pos h] at hr; exact hr rfl
    rw [if_neg hd] at hr ⊢
    obtain ⟨a1, _, a3⟩ := g.sound hr
    refine ⟨fun h => ?_, fun h => absurd h hd, fun i hi h => ?_⟩
    · cases h with | todo h => exact a1 h
    · cases h with | todo h => exact a3 i hi h

theorem neverSeq_good (main : Nat) : ∀ (es : List NExpr) (ls : Labels), visibleAll es = true →
    inScopeAll (ls.map (·.1)) es → Good main ls (neverSeq main es ls) (Run (.seq es))
  | [], ls, _, _ => by
    rw [neverSeq]
    refine .here fun _ => ⟨fun h => ?_, by simp, fun _ h => ?_⟩ <;> cases h
  | e :: es, ls, hv, hs => by
    rw [visibleAll, Bool.and_eq_true] at hv
    rw [inScopeAll] at hs
    rw [neverSeq]
    refine Good.seq (P2 := Run (.seq es)) (never_good main e ls hv.1 hs.1) ?_ ?_
    · intro ls' hl
      exact neverSeq_good main es ls' hv.2 (hl ▸ hs.2)
    · intro o h
      cases h with
      | seqStop h hn => exact .inl ⟨h, hn⟩
      | seqNext h1 h2 => exact .inr ⟨h1, h2⟩

theorem neverArms_good (main : Nat) : ∀ (as : List NExpr) (ls : Labels) (P : Outcome → Prop) (acc : Res),
    visibleAll as = true → inScopeAll (ls.map (·.1)) as → Good main ls (acc, ls) P →
    Good main ls (neverArms main as acc ls) (fun o => P o ∨ RunArm as o)
  | [], ls, P, acc, _, _, g => by
    rw [neverArms]
    refine g.weaken ?_
    rintro o (h | h)
    · exact h
    · cases h
  | a :: as, ls, P, acc, hv, hs, g => by
    rw [visibleAll, Bool.and_eq_true] at hv
    rw [inScopeAll] at hs
    rw [neverArms]
    have ga := never_good main a ls hv.1 hs.1
    have gb := Good.branches (P := fun o => P o ∨ Run a o) g ga (fun _ h => h)
    -- the labels have changed: restart from the labels after the arm
    have gc : Good main (neverExpr main a ls).2
        (combineBranches acc (neverExpr main a ls).1, (neverExpr main a ls).2) (fun o => P o ∨ Run a o) :=
      ⟨rfl, fun _ h => h, fun hr => by
        obtain ⟨a1, a2, a3⟩ := gb.sound hr
        exact ⟨a1, a2, fun i hi hb => a3 i (by rw [← ga.ids]; exact hi) hb⟩⟩
    have gd := neverArms_good main as (neverExpr main a ls).2 _ _ hv.2 (by rw [ga.ids]; exact hs.2) gc
    refine ⟨gd.ids.trans ga.ids, fun i h => gd.mono i (ga.mono i h), fun hr => ?_⟩
    obtain ⟨d1, d2, d3⟩ := gd.sound hr
    have conv : ∀ o, (P o ∨ RunArm (a :: as) o) → ((P o ∨ Run a o) ∨ RunArm as o) := by
      rintro o (h | h)
      · exact .inl (.inl h)
      · cases h with
        | here h => exact .inl (.inr h)
        | later h => exact .inr h
    exact ⟨fun h => d1 (conv _ h), fun hd h => d2 hd (conv _ h),
      fun i hi h => d3 i (by rw [ga.ids]; exact hi) (conv _ h)⟩
end

/-- **C40.** If a loop is reported, then its body, once started, neither comes to its end nor to a `continue` of this
loop: the body runs at most once.

Missing for the full property: loops in which the right side of `&&` or `||`, the guard of a match arm, the operand of
`yield` or the place of an assignment jumps, returns or diverges (see the violations below). -/
theorem reported_runs_once_partial {main : Nat} {body : NExpr} (hv : visible body = true) (hs : inScope [] body)
    (h : reported main body = true) : ¬ CanRunTwice main body := by
  have g := never_good main body [] hv (by simpa using hs)
  simp only [reported, decide_eq_true_eq] at h
  obtain ⟨h1, h2, _⟩ := g.sound (by rw [h]; simp)
  rintro (hf | hc)
  · exact h2 h hf
  · exact h1 hc

/-- `loop { 'a: { if c { break 'a } return } break }` is reported; the `break 'a` is followed. -/
example : let body : NExpr := .seq [.block 1 (.seq [.ite .leaf (.brk 1 (.seq [])) (.seq []), .ret (.seq [])]),
      .brk 0 (.seq [])]
    visible body = true ∧ inScope [] body ∧ reported 0 body = true ∧ Run body (.brk 0) := by
  refine ⟨by rfl, by simp [inScope, inScopeAll], by rfl, ?_⟩
  refine .seqNext (.blockBreak (.seqStop (.iteThen .leaf (.brk .seqNil)) (by simp))) ?_
  exact .seqStop (.brk .seqNil) (by simp)

/-! ## Violations -/

/-- **Violation of C40.** `loop { c && continue; break }` is reported, although it can run again: the right side of `&&`
is not looked at (never_loop.rs:324-326). -/
theorem lazy_violation : let body : NExpr := .seq [.lazy .leaf (.cont 0), .brk 0 (.seq [])]
    reported 0 body = true ∧ CanRunTwice 0 body :=
  ⟨by rfl, .inr (.seqStop (.lazyRight .leaf .cont) (by simp))⟩

/-- **Violation of C40.** `loop { match x { _ if { continue } => break, _ => break } }` is reported: guards are not
looked at (never_loop.rs:349-356). -/
theorem guard_violation :
    let body : NExpr := .mtch .leaf [.arm (.cont 0) (.brk 0 (.seq [])), .arm (.seq []) (.brk 0 (.seq []))]
    reported 0 body = true ∧ CanRunTwice 0 body :=
  ⟨by rfl, .inr (.mtchArm .leaf (.here (.armGuard .cont (by simp))))⟩

/-- **Violation of C40.** `loop { 'a: { c || break 'a; return } }` is reported, although the body comes to its end. -/
theorem lazy_block_violation : let body : NExpr := .block 1 (.seq [.lazy .leaf (.brk 1 (.seq [])), .ret (.seq [])])
    reported 0 body = true ∧ CanRunTwice 0 body :=
  ⟨by rfl, .inl (.blockBreak (.seqStop (.lazyRight .leaf (.brk .seqNil)) (by simp)))⟩

/-- **Violation of C40.** `loop { a[{ return }] = continue; }` is reported: the place of an assignment is looked at
first, but evaluated last (never_loop.rs:328-330). -/
theorem assign_violation : let body : NExpr := .assign (.seq [.leaf, .ret (.seq [])]) (.cont 0)
    reported 0 body = true ∧ CanRunTwice 0 body :=
  ⟨by rfl, .inr (.assignValue .cont (by simp))⟩

/-- **Violation of C40.** `loop { yield continue; break }` is reported: the operand of `yield` is not looked at
(never_loop.rs:450). -/
theorem yield_violation : let body : NExpr := .seq [.yield (.cont 0), .brk 0 (.seq [])]
    reported 0 body = true ∧ CanRunTwice 0 body :=
  ⟨by rfl, .inr (.seqStop (.yield .cont) (by simp))⟩

end Verif.Flow
