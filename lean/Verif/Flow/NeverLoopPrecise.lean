import Verif.Flow.NeverLoopProps

/-!
# C40: a loop that runs at most once is reported
-/

namespace Verif.Flow

/-- What the analysis concludes is possible. -/
structure Exact (main : Nat) (ls : Labels) (r : Res × Labels) (P : Outcome → Prop) : Prop where
  ids : r.2.map (·.1) = ls.map (·.1)
  cont : r.1 = .mayContinue → P (.cont main)
  normal : r.1 = .normal → P .finished
  marks : ∀ id, (id, true) ∈ r.2 → (id, true) ∈ ls ∨ P (.brk id)

theorem Exact.weaken {main : Nat} {ls : Labels} {r : Res × Labels} {P Q : Outcome → Prop} (h : Exact main ls r P)
    (hq : ∀ o, P o → Q o) : Exact main ls r Q :=
  ⟨h.ids, fun e => hq _ (h.cont e), fun e => hq _ (h.normal e), fun id hm => (h.marks id hm).imp_right (hq _)⟩

theorem Exact.seq {main : Nat} {ls : Labels} {r1 : Res × Labels} {f : Labels → Res × Labels}
    {P1 P2 P : Outcome → Prop} (h1 : Exact main ls r1 P1)
    (h2 : ∀ ls', ls'.map (·.1) = ls.map (·.1) → Exact main ls' (f ls') P2)
    (hp1 : ∀ o, P1 o → o ≠ .finished → P o) (hp2 : ∀ o, P1 .finished → P2 o → P o) :
    Exact main ls (combineSeq r1 f) P := by
  obtain ⟨r1r, r1l⟩ := r1
  have g2 := h2 r1l h1.ids
  cases r1r with
  | mayContinue =>
    exact ⟨h1.ids, fun e => hp1 _ (h1.cont e) (by simp), fun e => (by cases e),
      fun id hm => (h1.marks id hm).imp_right fun h => hp1 _ h (by simp)⟩
  | diverging =>
    exact ⟨h1.ids, fun e => (by cases e), fun e => (by cases e),
      fun id hm => (h1.marks id hm).imp_right fun h => hp1 _ h (by simp)⟩
  | normal =>
    have hf := h1.normal rfl
    refine ⟨g2.ids.trans h1.ids, fun e => hp2 _ hf (g2.cont e), fun e => hp2 _ hf (g2.normal e), fun id hm => ?_⟩
    rcases g2.marks id hm with h | h
    · exact (h1.marks id h).imp_right fun h => hp1 _ h (by simp)
    · exact .inr (hp2 _ hf h)

theorem combineBranches_mayContinue {a b : Res} (h : combineBranches a b = .mayContinue) :
    a = .mayContinue ∨ b = .mayContinue := by
  cases a <;> cases b <;> simp_all [combineBranches]

theorem combineBranches_normal {a b : Res} (h : combineBranches a b = .normal) : a = .normal ∨ b = .normal := by
  cases a <;> cases b <;> simp_all [combineBranches]

theorem absorbBreak_mayContinue {a : Res} (h : absorbBreak a = .mayContinue) : a = .mayContinue := by
  cases a <;> simp_all [absorbBreak]

theorem Exact.branches {main : Nat} {ls : Labels} {r1 r2 : Res × Labels} {P1 P2 : Outcome → Prop}
    (h1 : Exact main ls r1 P1) (h2 : Exact main r1.2 r2 P2) :
    Exact main ls (combineBranches r1.1 r2.1, r2.2) (fun o => P1 o ∨ P2 o) where
  ids := h2.ids.trans h1.ids
  cont e := (combineBranches_mayContinue e).imp h1.cont h2.cont
  normal e := (combineBranches_normal e).imp h1.normal h2.normal
  marks id hm := by
    rcases h2.marks id hm with h | h
    · exact (h1.marks id h).imp_right .inl
    · exact .inr (.inr h)

theorem Exact.here {main : Nat} {ls : Labels} {P : Outcome → Prop} {r : Res}
    (hc : r = .mayContinue → P (.cont main)) (hn : r = .normal → P .finished) : Exact main ls (r, ls) P :=
  ⟨rfl, hc, hn, fun _ h => .inl h⟩

theorem mark_back (id : Nat) (ls : Labels) : ∀ i, (i, true) ∈ markReachable id ls → (i, true) ∈ ls ∨ i = id := by
  induction ls with
  | nil => intro i h; exact .inl h
  | cons a ls ih =>
    obtain ⟨l, b⟩ := a
    intro i hi
    unfold markReachable at hi
    split at hi
    · next e =>
      rcases List.mem_cons.1 hi with h | h
      · simp only [Prod.mk.injEq, and_true] at h
        exact .inr (h.trans e)
      · exact .inl (List.mem_cons_of_mem _ h)
    · rcases List.mem_cons.1 hi with h | h
      · exact .inl (h ▸ List.mem_cons_self ..)
      · exact (ih i h).imp_left (List.mem_cons_of_mem _)

theorem Exact.leave {main id : Nat} {ls : Labels} {r : Res × Labels} {P Q : Outcome → Prop}
    (h : Exact main (ls ++ [(id, false)]) r P) (hid : id ∉ ls.map (·.1))
    (hb : P (.brk id) → Q .finished) (hq : ∀ o, P o → o ≠ .brk id → Q o) : Exact main ls (leaveBlock r) Q := by
  have hids := h.ids
  rw [List.map_append] at hids
  have hne : r.2 ≠ [] := by
    intro e; rw [e] at hids; simp at hids
  obtain ⟨init, last, hr⟩ : ∃ init last, r.2 = init ++ [last] :=
    ⟨r.2.dropLast, r.2.getLast hne, (List.dropLast_concat_getLast hne).symm⟩
  rw [hr, List.map_append] at hids
  obtain ⟨e1, e2⟩ := List.append_inj' hids rfl
  simp only [List.map_cons, List.map_nil, List.cons.injEq, and_true] at e2
  have hlast : (r.2.getLast?.getD (0, false)) = last := by rw [hr]; simp
  have hdrop : r.2.dropLast = init := by rw [hr]; simp
  refine ⟨by simp only [leaveBlock, hdrop]; exact e1, ?_, ?_, ?_⟩
  · intro hc
    simp only [leaveBlock] at hc
    split at hc
    · cases hc
    · exact hq _ (h.cont hc) (by simp)
  · intro hn
    simp only [leaveBlock, hlast] at hn
    split at hn
    · next hj =>
      have hm : (id, true) ∈ r.2 := by
        rw [hr, List.mem_append, List.mem_singleton]
        right; rw [← e2, ← hj.2]
      rcases h.marks id hm with h | h
      · exfalso
        rw [List.mem_append, List.mem_singleton] at h
        rcases h with h | h
        · exact hid (List.mem_map.2 ⟨_, h, rfl⟩)
        · simp at h
      · exact hb h
    · exact hq _ (h.normal hn) (by simp)
  · intro i hm
    simp only [leaveBlock, hdrop] at hm
    have hi : i ∈ ls.map (·.1) := e1 ▸ List.mem_map.2 ⟨_, hm, rfl⟩
    have hne : i ≠ id := fun e => hid (e ▸ hi)
    rcases h.marks i (by rw [hr]; exact List.mem_append.2 (.inl hm)) with h | h
    · rw [List.mem_append, List.mem_singleton] at h
      rcases h with h | h
      · exact .inl h
      · simp at h
    · exact .inr (hq _ h (by simpa using hne))

mutual
/-- A plain expression can be evaluated to its end. -/
theorem plain_finishes : ∀ {e : NExpr}, plain e = true → Run e .finished
  | .leaf, _ => .leaf
  | .seq es, hp => plainAll_finishes (by simpa [plain] using hp)
  | .assign a b, hp => by
    rw [plain, Bool.and_eq_true] at hp
    exact .assignPlace (plain_finishes hp.2) (plain_finishes hp.1)
  | .lazy a b, hp => by
    rw [plain, Bool.and_eq_true] at hp
    exact .lazyLeft (plain_finishes hp.1)
  | .arm a b, hp => by
    rw [plain, Bool.and_eq_true] at hp
    exact .armBody (plain_finishes hp.1) (plain_finishes hp.2)
  | .ite a b c, hp => by
    rw [plain, Bool.and_eq_true, Bool.and_eq_true] at hp
    exact .iteThen (plain_finishes hp.1.1) (plain_finishes hp.1.2)
  | .mtch s [], hp => by simp [plain] at hp
  | .mtch s (a :: as), hp => by
    rw [plain, plainAll, Bool.and_eq_true, Bool.and_eq_true, Bool.and_eq_true] at hp
    exact .mtchArm (plain_finishes hp.1.1) (.here (plain_finishes hp.1.2.1))
  | .yield e, hp => by
    rw [plain] at hp
    exact .yield (plain_finishes hp)
  | .letElse .., hp | .loop .., hp | .block .., hp | .cont _, hp | .ret _, hp
  | .brk .., hp | .never _, hp | .todo _, hp => by simp [plain] at hp

theorem plainAll_finishes : ∀ {es : List NExpr}, plainAll es = true → Run (.seq es) .finished
  | [], _ => .seqNil
  | e :: es, hp => by
    rw [plainAll, Bool.and_eq_true] at hp
    exact .seqNext (plain_finishes hp.1) (plainAll_finishes hp.2)
end

mutual
/-- Without inner loops, everything the analysis takes to be possible is possible. -/
theorem never_exact (main : Nat) : ∀ (e : NExpr) (ls : Labels), visible e = true → noLoop e = true →
    inScope (ls.map (·.1)) e → Exact main ls (neverExpr main e ls) (Run e)
  | .leaf, ls, _, _, _ => by
    rw [neverExpr]; exact .here (by simp) (fun _ => .leaf)
  | .seq es, ls, hv, hl, hs => by
    rw [neverExpr]
    exact neverSeq_exact main es ls (by simpa [visible] using hv) (by simpa [noLoop] using hl)
      (by simpa [inScope] using hs)
  | .letElse a b, ls, hv, hl, hs => by
    rw [visible, Bool.and_eq_true] at hv
    rw [noLoop, Bool.and_eq_true] at hl
    rw [inScope] at hs
    rw [neverExpr]
    refine Exact.seq (P2 := fun o => o = .finished ∨ (Run b o ∧ o ≠ .finished))
      (never_exact main a ls hv.1 hl.1 hs.1) ?_ (fun o h _ => .letInit h) ?_
    · intro ls' he
      have g := never_exact main b ls' hv.2 hl.2 (he ▸ hs.2)
      refine ⟨g.ids, fun hc => ?_, fun _ => .inl rfl, fun i hm => ?_⟩
      · refine .inr ⟨g.cont ?_, by simp⟩
        exact absorbBreak_mayContinue hc
      · exact (g.marks i hm).imp_right fun h => .inr ⟨h, by simp⟩
    · rintro o h1 (h | h)
      · subst h; exact .letInit h1
      · exact .letElse h1 h.1 h.2
  | .assign p v, ls, hv, hl, hs => by
    rw [visible, Bool.and_eq_true, Bool.and_eq_true] at hv
    rw [noLoop, Bool.and_eq_true] at hl
    rw [inScope] at hs
    rw [neverExpr, plain_never main ls hv.1.1]
    refine (never_exact main v ls hv.2 hl.2 hs.2).weaken ?_
    intro o h
    by_cases hn : o = .finished
    · subst hn; exact .assignPlace h (plain_finishes hv.1.1)
    · exact .assignValue h hn
  | .lazy a b, ls, hv, hl, hs => by
    rw [visible, Bool.and_eq_true] at hv
    rw [noLoop, Bool.and_eq_true] at hl
    rw [inScope] at hs
    rw [neverExpr]
    exact (never_exact main a ls hv.1 hl.1 hs.1).weaken fun o h => .lazyLeft h
  | .ite c t e, ls, hv, hl, hs => by
    rw [visible, Bool.and_eq_true, Bool.and_eq_true] at hv
    rw [noLoop, Bool.and_eq_true, Bool.and_eq_true] at hl
    rw [inScope] at hs
    rw [neverExpr]
    refine Exact.seq (P2 := fun o => Run t o ∨ Run e o) (never_exact main c ls hv.1.1 hl.1.1 hs.1) ?_
      (fun o h hn => .iteCond h hn) ?_
    · intro ls' he
      have g := never_exact main t ls' hv.1.2 hl.1.2 (he ▸ hs.2.1)
      refine g.branches (never_exact main e _ hv.2 hl.2 ?_)
      rw [g.ids, he]; exact hs.2.2
    · rintro o h1 (h | h)
      · exact .iteThen h1 h
      · exact .iteElse h1 h
  | .mtch s arms, ls, hv, hl, hs => by
    rw [visible, Bool.and_eq_true] at hv
    rw [noLoop, Bool.and_eq_true] at hl
    rw [inScope] at hs
    rw [neverExpr]
    refine Exact.seq (P2 := RunArm arms) (never_exact main s ls hv.1 hl.1 hs.1) ?_ (fun o h hn => .mtchScrut h hn)
      (fun o h1 h2 => .mtchArm h1 h2)
    intro ls' he
    refine (neverArms_exact main arms ls' (fun _ => False) .diverging hv.2 hl.2 (he ▸ hs.2) (by simp) (by simp)).weaken
      (fun o h => h.resolve_left id)
  | .arm g b, ls, hv, hl, hs => by
    rw [visible, Bool.and_eq_true] at hv
    rw [noLoop, Bool.and_eq_true] at hl
    rw [inScope] at hs
    rw [neverExpr]
    exact (never_exact main b ls hv.2 hl.2 hs.2).weaken fun o h => .armBody (plain_finishes hv.1) h
  | .block id b, ls, hv, hl, hs => by
    rw [visible] at hv
    rw [noLoop] at hl
    rw [inScope] at hs
    rw [neverExpr]
    have g := never_exact main b (ls ++ [(id, false)]) hv hl (by simpa using hs.2)
    exact g.leave hs.1 (fun h => .blockBreak h) (fun o h hn => .blockEnd h hn)
  | .cont id, ls, _, _, _ => by
    rw [neverExpr]
    refine .here (fun h => ?_) (fun h => ?_)
    · split at h
      · next e => rw [e]; exact .cont
      · cases h
    · split at h <;> cases h
  | .ret e, ls, hv, hl, hs => by
    rw [visible] at hv
    rw [noLoop] at hl
    rw [inScope] at hs
    rw [neverExpr]
    refine Exact.seq (P2 := fun o => o = .ret) (never_exact main e ls hv hl hs)
      (fun ls' _ => .here (by simp) (by simp)) (fun o h hn => .retVal h hn) ?_
    rintro o h rfl
    exact .ret h
  | .brk id e, ls, hv, hl, hs => by
    rw [visible] at hv
    rw [noLoop] at hl
    rw [inScope] at hs
    rw [neverExpr]
    refine Exact.seq (P2 := fun o => o = .brk id) (never_exact main e ls hv hl hs) (fun ls' _ => ?_)
      (fun o h hn => .brkVal h hn) ?_
    · refine ⟨mark_ids id ls', by simp, by simp, fun i hm => ?_⟩
      exact (mark_back id ls' i hm).imp_right fun h => by rw [h]
    · rintro o h rfl
      exact .brk h
  | .yield e, ls, hv, _, _ => by
    rw [visible] at hv
    rw [neverExpr]
    exact .here (by simp) (fun _ => .yield (plain_finishes hv))
  | .never e, ls, hv, hl, hs => by
    rw [visible] at hv
    rw [noLoop] at hl
    rw [inScope] at hs
    rw [neverExpr]
    exact Exact.seq (P2 := fun _ => False) (never_exact main e ls hv hl hs)
      (fun ls' _ => .here (by simp) (by simp)) (fun o h hn => .never h hn) (fun o _ h => h.elim)
  | .loop .., _, _, hl, _ | .todo _, _, _, hl, _ => by simp [noLoop] at hl

theorem neverSeq_exact (main : Nat) : ∀ (es : List NExpr) (ls : Labels), visibleAll es = true → noLoopAll es = true →
    inScopeAll (ls.map (·.1)) es → Exact main ls (neverSeq main es ls) (Run (.seq es))
  | [], ls, _, _, _ => by
    rw [neverSeq]; exact .here (by simp) (fun _ => .seqNil)
  | e :: es, ls, hv, hl, hs => by
    rw [visibleAll, Bool.and_eq_true] at hv
    rw [noLoopAll, Bool.and_eq_true] at hl
    rw [inScopeAll] at hs
    rw [neverSeq]
    exact Exact.seq (P2 := Run (.seq es)) (never_exact main e ls hv.1 hl.1 hs.1)
      (fun ls' he => neverSeq_exact main es ls' hv.2 hl.2 (he ▸ hs.2)) (fun o h hn => .seqStop h hn)
      (fun o h1 h2 => .seqNext h1 h2)

theorem neverArms_exact (main : Nat) : ∀ (as : List NExpr) (ls : Labels) (P : Outcome → Prop) (acc : Res),
    visibleAll as = true → noLoopAll as = true → inScopeAll (ls.map (·.1)) as →
    (acc = .mayContinue → P (.cont main)) → (acc = .normal → P .finished) →
    Exact main ls (neverArms main as acc ls) (fun o => P o ∨ RunArm as o)
  | [], ls, P, acc, _, _, _, hc, hn => by
    rw [neverArms]
    exact .here (fun h => .inl (hc h)) (fun h => .inl (hn h))
  | a :: as, ls, P, acc, hv, hl, hs, hc, hn => by
    rw [visibleAll, Bool.and_eq_true] at hv
    rw [noLoopAll, Bool.and_eq_true] at hl
    rw [inScopeAll] at hs
    rw [neverArms]
    have ga := never_exact main a ls hv.1 hl.1 hs.1
    have gd := neverArms_exact main as (neverExpr main a ls).2 (fun o => P o ∨ Run a o)
      (combineBranches acc (neverExpr main a ls).1) hv.2 hl.2 (by rw [ga.ids]; exact hs.2)
      (fun e => (combineBranches_mayContinue e).imp hc ga.cont)
      (fun e => (combineBranches_normal e).imp hn ga.normal)
    have conv : ∀ o, ((P o ∨ Run a o) ∨ RunArm as o) → (P o ∨ RunArm (a :: as) o) := by
      rintro o ((h | h) | h)
      · exact .inl h
      · exact .inr (.here h)
      · exact .inr (.later h)
    refine ⟨gd.ids.trans ga.ids, fun e => conv _ (gd.cont e), fun e => conv _ (gd.normal e), fun i hm => ?_⟩
    rcases gd.marks i hm with h | h
    · exact (ga.marks i h).imp_right fun h => .inr (.here h)
    · exact .inr (conv _ h)
end

/-- **C40, converse.** A loop without inner loops and without `todo!()` whose body can neither come to its end nor to a
`continue` of the loop is reported.

Missing for the full property: inner loops, which the analysis takes to finish always, and the cases missing in
`reported_runs_once_partial`. -/
theorem once_is_reported_partial {main : Nat} {body : NExpr} (hv : visible body = true) (hl : noLoop body = true)
    (hs : inScope [] body) (h : ¬ CanRunTwice main body) : reported main body = true := by
  have g := never_exact main body [] hv hl (by simpa using hs)
  simp only [reported, decide_eq_true_eq]
  cases hr : (neverExpr main body []).1 with
  | mayContinue => exact absurd (.inr (g.cont hr)) h
  | normal => exact absurd (.inl (g.normal hr)) h
  | diverging => rfl

/-- `loop { match x { a => return, b => break } }`. -/
example : let body : NExpr := .mtch .leaf [.arm (.seq []) (.ret (.seq [])), .arm (.seq []) (.brk 0 (.seq []))]
    visible body = true ∧ noLoop body = true ∧ inScope [] body ∧ ¬ CanRunTwice 0 body := by
  refine ⟨by rfl, by rfl, by simp [inScope, inScopeAll], ?_⟩
  exact reported_runs_once_partial (by rfl) (by simp [inScope, inScopeAll]) (by rfl)

/-- **Violation of the converse.** `loop { loop { return; break } }`: the body of the outer loop never comes to its end,
but the outer loop is not reported, since an inner loop is taken to finish (never_loop.rs:331-335). -/
theorem inner_loop_violation : let body : NExpr := .loop 1 (.seq [.ret (.seq []), .brk 1 (.seq [])])
    reported 0 body = false ∧ ¬ CanRunTwice 0 body := by
  refine ⟨by rfl, ?_⟩
  have hin : ∀ {o : Outcome}, Run (.seq [.ret (.seq []), .brk 1 (.seq [])]) o → o = .ret := by
    intro o h
    cases h with
    | seqStop h hn =>
      cases h with
      | ret => rfl
      | retVal h hn => cases h; exact absurd rfl hn
    | seqNext h _ =>
      cases h with
      | retVal h hn => exact absurd rfl hn
  have hloop : ∀ {o : Outcome}, Run (.loop 1 (.seq [.ret (.seq []), .brk 1 (.seq [])])) o → o = .ret := by
    intro o h
    rcases run_loop h rfl with ⟨_, h⟩ | ⟨h, _⟩
    · exact absurd (hin h) (by simp)
    · exact hin h
  rintro (h | h) <;> exact absurd (hloop h) (by simp)

end Verif.Flow
