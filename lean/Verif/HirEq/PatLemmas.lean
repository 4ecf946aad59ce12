import Verif.HirEq.EvalLemmas

namespace Verif.HirEq

variable {α : Type}

/-- Kinds which are compared by their data and their subtrees. -/
def K.simple : K → Bool
  | .expr .. | .path .. | .cStruct _ | .cTupleCall => false
  | _ => true

theorem reduce_expr (i : Info) (k : EK) (cs : List N) : ∃ j k' cs', reduce (.mk (.expr i k) cs) = .mk (.expr j k') cs' := by
  rcases reduce_cases (.mk (.expr i k) cs) with h | ⟨j, h⟩ | ⟨j, cs', h, _⟩
  · exact ⟨i, k, cs, h⟩
  · exact ⟨_, _, _, h⟩
  · exact ⟨_, _, _, h⟩

theorem reduce_other {k : K} {cs : List N} (h : ∀ i e, k ≠ .expr i e) : reduce (.mk k cs) = .mk k cs := by
  unfold reduce
  split <;> first
    | rfl
    | (rename_i e; cases e; exact absurd rfl (h _ _))

/-- Equal nodes of a simple kind have equal data and equal subtrees. -/
theorem Eqv.simple {c : Cfg} {st st' : St} {k : K} {cs : List N} {r : N} (hk : k.simple = true) (h : Eqv c st (.mk k cs) r st') :
    headEq c k r.kind = true ∧ ∃ st1, EqvAll c st cs r.kids st1 ∧ st' = declare st1 k r.kind := by
  have hne : ∀ i e, k ≠ .expr i e := by rintro i e rfl; simp [K.simple] at hk
  have hl : reduce (.mk k cs) = .mk k cs := reduce_other hne
  cases h.cases with
  | const h => unfold sameConst at h; split at h
               · next e1 _ => cases e1; exact absurd rfl (hne _ _)
               · cases h
  | bin i j op ll lr rl rr e1 e2 h => rw [hl] at e1; cases e1; exact absurd rfl (hne _ _)
  | swap i j lo ro ll lr rl rr e1 e2 hs st1 h1 h => rw [hl] at e1; cases e1; exact absurd rfl (hne _ _)
  | var x y ls rs lcs rcs e1 e2 h => rw [hl] at e1; cases e1; simp [K.simple] at hk
  | path lres rres ls rs lcs rcs e1 e2 n1 n2 h => rw [hl] at e1; cases e1; simp [K.simple] at hk
  | zip b lq rq lcs rcs e1 e2 =>
    rw [hl] at e1
    rcases zipOf_some e1 with ⟨ns, e⟩ | e <;> (cases e; simp [K.simple] at hk)
  | plain h st1 h1 hs =>
    rw [hl] at h h1 hs
    have hr : reduce r = r := by
      obtain ⟨rk, rcs⟩ := r
      by_cases hx : ∃ i e, rk = .expr i e
      · obtain ⟨i, e, rfl⟩ := hx
        obtain ⟨j, k', cs', e'⟩ := reduce_expr i e rcs
        rw [e'] at h
        have he := headEq_erase h
        simp only [N.kind] at he
        obtain ⟨i2, e2, h2, _⟩ := erase_expr he
        exact absurd h2 (hne _ _)
      · exact reduce_other (fun i e he => hx ⟨i, e, he⟩)
    rw [hr] at h h1 hs
    exact ⟨h, st1, h1, hs⟩

/-- The same, if nothing is declared. -/
theorem Eqv.simple' {c : Cfg} {st st' : St} {k : K} {cs : List N} {r : N} (hk : k.simple = true) (h : Eqv c st (.mk k cs) r st')
    (hd : ∀ st rk, declare st k rk = st) : headEq c k r.kind = true ∧ EqvAll c st cs r.kids st' := by
  obtain ⟨h1, st1, h2, h3⟩ := h.simple hk
  rw [hd] at h3
  exact ⟨h1, h3 ▸ h2⟩

theorem EqvAll.one {c st l rs st'} (h : EqvAll c st [l] rs st') : ∃ r, rs = [r] ∧ Eqv c st l r st' := by
  cases h with
  | cons h hs => cases hs; exact ⟨_, rfl, h⟩

theorem EqvAll.two {c st l l2 rs st'} (h : EqvAll c st [l, l2] rs st') :
    ∃ r r2 st1, rs = [r, r2] ∧ Eqv c st l r st1 ∧ Eqv c st1 l2 r2 st' := by
  cases h with
  | cons h hs => obtain ⟨r2, rfl, h2⟩ := hs.one; exact ⟨_, _, _, rfl, h, h2⟩

theorem EqvAll.cons' {c st l ls rs st'} (h : EqvAll c st (l :: ls) rs st') :
    ∃ r rs' st1, rs = r :: rs' ∧ Eqv c st l r st1 ∧ EqvAll c st1 ls rs' st' := by
  cases h with
  | cons h hs => exact ⟨_, _, _, rfl, h, hs⟩

theorem EqvAll.nil' {c st rs st'} (h : EqvAll c st [] rs st') : rs = [] ∧ st' = st := by
  cases h; exact ⟨rfl, rfl⟩

/-! ### Paths -/

theorem segs_names {c : Cfg} (hb : c.byRes = false) : ∀ {ls rs : List Seg}, segsEq c ls rs = true → ls.map Seg.name = rs.map Seg.name
  | [], [], _ => rfl
  | [], _ :: _, h => by simp [segsEq] at h
  | _ :: _, [], h => by simp [segsEq] at h
  | l :: ls, r :: rs, h => by
    simp only [segsEq, Bool.and_eq_true] at h
    rw [List.map_cons, List.map_cons, segEq_name h.1 (by simp [hb]), segs_names hb h.2]

theorem pathKey_some {q : N} {p : List Nat} (h : pathKey q = some p) : ∃ res segs cs,
    q = .mk .qResolved [.mk .optNone [], .mk (.path res segs) cs] ∧ res.key = none ∧ p = segs.map Seg.name := by
  unfold pathKey at h
  split at h
  · split at h
    · next hn =>
      split at h
      · cases h; exact ⟨_, _, _, rfl, hn, rfl⟩
      · cases h
    · cases h
  · cases h

theorem key_none {res : Res} (h : res.key = none) : ∀ i, res ≠ .locl i := by
  rintro i rfl; simp [Res.key] at h

theorem localOf_some {q : N} {x : Key} (h : localOf q = some x) : ∃ res segs cs,
    q = .mk .qResolved [.mk .optNone [], .mk (.path res segs) cs] ∧ res.key = some x := by
  unfold localOf at h
  split at h
  · split at h
    · exact ⟨_, _, _, rfl, h⟩
    · cases h
  · cases h

theorem declare_same (st : St) {k : K} (h1 : ∀ m x, k ≠ .pBinding m x) (h2 : ∀ n i, k ≠ .constItem n i) (rk : K) : declare st k rk = st := by
  unfold declare
  split
  · exact absurd rfl (h1 _ _)
  · exact absurd rfl (h2 _ _)
  · rfl

theorem Eqv.qResolved {c st lo lp ro rp st'} (h : Eqv c st (.mk .qResolved [lo, lp]) (.mk .qResolved [ro, rp]) st') :
    ∃ st1, Eqv c st lo ro st1 ∧ Eqv c st1 lp rp st' := by
  obtain ⟨_, h⟩ := h.simple' rfl (fun _ _ => rfl)
  obtain ⟨r, r2, st1, e, h1, h2⟩ := h.two
  cases e
  exact ⟨st1, h1, h2⟩

theorem Eqv.pathNode {c st lres ls lcs rres rs rcs st'} (h : Eqv c st (.mk (.path lres ls) lcs) (.mk (.path rres rs) rcs) st') :
    (∃ x y, lres = .locl x ∧ rres = .locl y ∧ (x = y ∨ look st.locals x = some y) ∧ st' = st) ∨
    ((∀ i, lres ≠ .locl i) ∧ (∀ i, rres ≠ .locl i) ∧ resOk st lres rres = true ∧ (c.byRes = false → segsEq c ls rs = true)) := by
  have hl : reduce (.mk (.path lres ls) lcs) = .mk (.path lres ls) lcs := reduce_other (by simp)
  have hr : reduce (.mk (.path rres rs) rcs) = .mk (.path rres rs) rcs := reduce_other (by simp)
  cases h.cases with
  | const h => simp [sameConst] at h
  | bin i j op ll lr rl rr e1 e2 h => rw [hl] at e1; cases e1
  | swap i j lo ro ll lr rl rr e1 e2 hs st1 h1 h => rw [hl] at e1; cases e1
  | var x y _ _ _ _ e1 e2 hv hs =>
    rw [hl] at e1; rw [hr] at e2; cases e1; cases e2
    exact .inl ⟨x, y, rfl, rfl, hv, hs⟩
  | path _ _ _ _ _ _ e1 e2 n1 n2 ho h =>
    rw [hl] at e1; rw [hr] at e2; cases e1; cases e2
    exact .inr ⟨n1, n2, ho, fun hb => (h hb).1⟩
  | zip b lq rq lcs rcs e1 e2 =>
    rw [hl] at e1
    rcases zipOf_some e1 with ⟨ns, e⟩ | e <;> cases e
  | plain h st1 h1 hs =>
    obtain ⟨n, h⟩ := ‹Eqv c st _ _ st'›
    cases n with
    | zero => simp [eqN] at h
    | succ n =>
      simp only [eqN, hl, hr, sameConst, Bool.false_eq_true, if_false, eqNode, binOf, pathOf] at h
      have h1 := congrArg Prod.fst h
      by_cases hloc : ∃ l r, lres = .locl l ∧ rres = .locl r
      · obtain ⟨x, y, rfl, rfl⟩ := hloc
        refine .inl ⟨x, y, rfl, rfl, eqPath_local h1, ?_⟩
        simp only [eqPath] at h
        exact (congrArg Prod.snd h).symm
      · obtain ⟨n1, n2, ho, e⟩ := eqPath_other h1 hloc
        refine .inr ⟨n1, n2, ho, ?_⟩
        intro hb
        rw [e] at h
        simp only [eqSegs, hb] at h
        by_cases hs : segsEq c ls rs = true
        · exact hs
        · rw [if_neg hs] at h; cases h

theorem Eqv.pathKey {c st q q' st' p p'} (hb : c.byRes = false) (h : Eqv c st q q' st') (hp : pathKey q = some p)
    (hp' : pathKey q' = some p') : p = p' := by
  obtain ⟨lres, ls, lcs, rfl, nl, rfl⟩ := pathKey_some hp
  obtain ⟨rres, rs, rcs, rfl, nr, rfl⟩ := pathKey_some hp'
  obtain ⟨st1, _, h2⟩ := h.qResolved
  rcases h2.pathNode with ⟨x, _, e, _⟩ | ⟨_, _, _, hs⟩
  · exact absurd e (key_none nl x)
  · exact segs_names hb (hs hb)

/-! ### Patterns -/

/-- Two lists of bindings: corresponding variables are mapped to each other and hold the same value. -/
inductive Aligned (st : St) : Env α → Env α → Prop
  | nil : Aligned st [] []
  | cons {x y u bs bs'} : st.get x = some y → Aligned st bs bs' → Aligned st ((x, u) :: bs) ((y, u) :: bs')

theorem Aligned.append {st : St} {a a' b b' : Env α} (h : Aligned st a a') (h' : Aligned st b b') : Aligned st (a ++ b) (a' ++ b') := by
  induction h with
  | nil => exact h'
  | cons h _ ih => exact .cons h ih

theorem Aligned.frame {st st' : St} {xs : List Key} {a a' : Env α} (h : Aligned st a a') (hf : Frame xs st st')
    (hd : ∀ x ∈ a.map Prod.fst, x ∉ xs) : Aligned st' a a' := by
  induction h with
  | nil => exact .nil
  | cons h _ ih =>
    refine .cons ((hf _ (hd _ (by simp))).trans h) (ih (fun x hx => hd x (List.mem_cons_of_mem _ hx)))

/-- What is known about the results of two equal patterns. -/
def SameMatch (st : St) (xs ys : List Key) (R R' : Option (Env α)) : Prop :=
  (R = none ∧ R' = none) ∨ ∃ bs bs', R = some bs ∧ R' = some bs' ∧ Aligned st bs bs' ∧
    (bs.map Prod.fst).Sublist xs ∧ (bs'.map Prod.fst).Sublist ys

theorem fields_eqv {c : Cfg} : ∀ {fs fs' : List N} {st st' : St} {xs ys : List (Nat × N)}, EqvAll c st fs fs' st' →
    allSome fieldPat fs = some xs → allSome fieldPat fs' = some ys →
    xs.map Prod.fst = ys.map Prod.fst ∧ EqvAll c st (xs.map Prod.snd) (ys.map Prod.snd) st' ∧
      bindersL (xs.map Prod.snd) = bindersL fs ∧ bindersL (ys.map Prod.snd) = bindersL fs'
  | [], _, st, st', xs, ys, h, h1, h2 => by
    obtain ⟨rfl, rfl⟩ := h.nil'
    simp only [allSome, Option.some.injEq] at h1 h2
    subst h1 h2
    exact ⟨rfl, .nil, rfl, rfl⟩
  | f :: fs, _, st, st', xs, ys, h, h1, h2 => by
    obtain ⟨f', fs', st1, rfl, hf, hfs⟩ := h.cons'
    simp only [allSome, Option.bind_eq_bind, Option.bind_eq_some_iff, Option.some.injEq] at h1 h2
    obtain ⟨⟨n, p⟩, hp, xs', hxs, rfl⟩ := h1
    obtain ⟨⟨m, q⟩, hq, ys', hys, rfl⟩ := h2
    obtain ⟨e1, e2, e3, e4⟩ := fields_eqv hfs hxs hys
    have hf1 : f = .mk (.pField n) [p] := by
      unfold fieldPat at hp; split at hp <;> cases hp; rfl
    have hf2 : f' = .mk (.pField m) [q] := by
      unfold fieldPat at hq; split at hq <;> cases hq; rfl
    subst hf1 hf2
    obtain ⟨hh, hk⟩ := hf.simple' rfl (fun _ _ => rfl)
    obtain ⟨r, e, hr⟩ := hk.one
    cases e
    have hnm := headEq_erase hh
    simp only [N.kind, K.erase, K.pField.injEq] at hnm
    refine ⟨by simp [hnm, e1], .cons hr e2, ?_, ?_⟩
    · simp only [List.map_cons, bindersL_cons, bindersL_nil, e3, binders_mk (k := .pField _) rfl, List.append_nil]
    · simp only [List.map_cons, bindersL_cons, bindersL_nil, e4, binders_mk (k := .pField _) rfl, List.append_nil]

/-- Equal patterns test the same and have equal patterns inside. -/
theorem patHead_eqv {c : Cfg} (hb : c.byRes = false) {st st' : St} {p q : N} {h h' : PatHead × List N} (he : Eqv c st p q st')
    (hp : patHead p = some h) (hq : patHead q = some h') :
    h.1 = h'.1 ∧ (∃ st0, EqvAll c st0 h.2 h'.2 st') ∧ (bindersL h.2).Sublist (binders p) ∧ (bindersL h'.2).Sublist (binders q) := by
  have hq0 := hq
  unfold patHead at hp
  split at hp
  · next l neg =>
    cases hp
    obtain ⟨hh, hk⟩ := he.simple' rfl (fun _ _ => rfl)
    obtain ⟨q1, e1, hq1⟩ := hk.one
    obtain ⟨hh1, hk1⟩ := hq1.simple' rfl (fun _ _ => rfl)
    have := hk1.nil'
    obtain ⟨qk, qcs⟩ := q
    obtain ⟨k1, cs1⟩ := q1
    have a1 := headEq_erase hh
    have a2 := headEq_erase hh1
    simp only [N.kind, N.kids] at *
    cases qk <;> simp [K.erase] at a1
    cases k1 <;> simp [K.erase] at a2
    obtain ⟨rfl, rfl⟩ := a2
    subst e1
    obtain ⟨rfl, rfl⟩ := this
    simp only [patHead, Option.some.injEq] at hq
    subst hq
    exact ⟨rfl, ⟨_, .nil⟩, by simp [bindersL], by simp [bindersL]⟩
  · next pq =>
    obtain ⟨pp, hpp, rfl⟩ := Option.map_eq_some_iff.mp hp
    obtain ⟨hh, hk⟩ := he.simple' rfl (fun _ _ => rfl)
    obtain ⟨q1, e1, hq1⟩ := hk.one
    obtain ⟨hh1, hk1⟩ := hq1.simple' rfl (fun _ _ => rfl)
    obtain ⟨q2, e2, hq2⟩ := hk1.one
    obtain ⟨qk, qcs⟩ := q
    obtain ⟨k1, cs1⟩ := q1
    have a1 := headEq_erase hh
    have a2 := headEq_erase hh1
    simp only [N.kind, N.kids] at *
    cases qk <;> simp [K.erase] at a1
    cases k1 <;> simp [K.erase] at a2
    subst e1 e2
    simp only [patHead] at hq
    obtain ⟨pp', hpp', rfl⟩ := Option.map_eq_some_iff.mp hq
    cases hq2.pathKey hb hpp hpp'
    exact ⟨rfl, ⟨_, .nil⟩, by simp [bindersL], by simp [bindersL]⟩
  · next d ps =>
    cases hp
    obtain ⟨hh, hk⟩ := he.simple' rfl (fun _ _ => rfl)
    obtain ⟨qk, qcs⟩ := q
    have a1 := headEq_erase hh
    simp only [N.kind, N.kids] at *
    cases qk <;> simp [K.erase] at a1
    subst a1
    simp only [patHead, Option.some.injEq] at hq
    subst hq
    simp only [hk.length]
    exact ⟨trivial, ⟨_, hk⟩, binders_kids _ _, binders_kids _ _⟩
  · next d pq ps =>
    obtain ⟨pp, hpp, rfl⟩ := Option.map_eq_some_iff.mp hp
    obtain ⟨hh, hk⟩ := he.simple' rfl (fun _ _ => rfl)
    obtain ⟨q1, qs, st1, e1, hq1, hk1⟩ := hk.cons'
    obtain ⟨qk, qcs⟩ := q
    have a1 := headEq_erase hh
    simp only [N.kind, N.kids] at *
    cases qk <;> simp [K.erase] at a1
    subst a1 e1
    simp only [patHead] at hq
    obtain ⟨pp', hpp', rfl⟩ := Option.map_eq_some_iff.mp hq
    cases hq1.pathKey hb hpp hpp'
    simp only [hk1.length]
    refine ⟨trivial, ⟨_, hk1⟩, ?_, ?_⟩ <;>
    · rw [binders_mk rfl, bindersL]; exact List.sublist_append_right _ _
  · next rest pq fs =>
    simp only [Option.bind_eq_bind, Option.bind_eq_some_iff, Option.some.injEq] at hp
    obtain ⟨pp, hpp, xs, hxs, rfl⟩ := hp
    obtain ⟨hh, hk⟩ := he.simple' rfl (fun _ _ => rfl)
    obtain ⟨q1, qs, st1, e1, hq1, hk1⟩ := hk.cons'
    obtain ⟨qk, qcs⟩ := q
    have a1 := headEq_erase hh
    simp only [N.kind, N.kids] at *
    cases qk <;> simp [K.erase] at a1
    subst e1
    simp only [patHead, Option.bind_eq_bind, Option.bind_eq_some_iff, Option.some.injEq] at hq
    obtain ⟨pp', hpp', ys, hys, rfl⟩ := hq
    cases hq1.pathKey hb hpp hpp'
    obtain ⟨f1, f2, f3, f4⟩ := fields_eqv hk1 hxs hys
    simp only [f1, f3, f4]
    refine ⟨trivial, ⟨_, f2⟩, ?_, ?_⟩ <;>
    · rw [binders_mk rfl, bindersL]; exact List.sublist_append_right _ _
  · next a b p1 =>
    cases hp
    obtain ⟨hh, hk⟩ := he.simple' rfl (fun _ _ => rfl)
    obtain ⟨q1, e1, hq1⟩ := hk.one
    obtain ⟨qk, qcs⟩ := q
    have a1 := headEq_erase hh
    simp only [N.kind, N.kids] at *
    cases qk <;> simp [K.erase] at a1
    obtain ⟨rfl, rfl⟩ := a1
    subst e1
    simp only [patHead, Option.some.injEq] at hq
    subst hq
    exact ⟨rfl, ⟨_, hk⟩, binders_kids _ _, binders_kids _ _⟩
  · next p1 =>
    cases hp
    obtain ⟨hh, hk⟩ := he.simple' rfl (fun _ _ => rfl)
    obtain ⟨q1, e1, hq1⟩ := hk.one
    obtain ⟨qk, qcs⟩ := q
    have a1 := headEq_erase hh
    simp only [N.kind, N.kids] at *
    cases qk <;> simp [K.erase] at a1
    subst e1
    simp only [patHead, Option.some.injEq] at hq
    subst hq
    exact ⟨rfl, ⟨_, hk⟩, binders_kids _ _, binders_kids _ _⟩
  · cases hp

theorem SameMatch.none_none {st : St} {xs ys : List Key} : SameMatch (α := α) st xs ys none none := .inl ⟨rfl, rfl⟩

theorem matchAll_same {c : Cfg} {m m' : N → α → Option (Option (Env α))} :
    ∀ {ps qs : List N} {vs : List α} {st st' : St} {R R' : Option (Env α)}, EqvAll c st ps qs st' → (bindersL ps).Nodup →
      (∀ p q st st' v R R', p ∈ ps → Eqv c st p q st' → (binders p).Nodup → m p v = some R → m' q v = some R' →
        SameMatch st' (binders p) (binders q) R R') →
      matchAll m ps vs = some R → matchAll m' qs vs = some R' → SameMatch st' (bindersL ps) (bindersL qs) R R'
  | [], _, vs, st, st', R, R', h, _, _, h1, h2 => by
    obtain ⟨rfl, rfl⟩ := h.nil'
    cases vs with
    | nil =>
      simp only [matchAll, Option.some.injEq] at h1 h2
      subst h1 h2
      exact .inr ⟨[], [], rfl, rfl, .nil, by simp, by simp⟩
    | cons v vs => simp [matchAll] at h1
  | p :: ps, _, vs, st, st', R, R', h, hn, hm, h1, h2 => by
    obtain ⟨q, qs, st1, rfl, hp, hps⟩ := h.cons'
    cases vs with
    | nil => simp [matchAll] at h1
    | cons v vs =>
      rw [bindersL] at hn ⊢
      rw [bindersL]
      simp only [matchAll, Option.bind_eq_bind, Option.bind_eq_some_iff] at h1 h2
      obtain ⟨r, hr, h1⟩ := h1
      obtain ⟨r', hr', h2⟩ := h2
      have hsame := hm p q st st1 v r r' (by simp) hp (List.nodup_append.mp hn).1 hr hr'
      rcases hsame with ⟨rfl, rfl⟩ | ⟨bs, bs', rfl, rfl, ha, s1, s2⟩
      · simp only [Option.some.injEq] at h1 h2
        subst h1 h2
        exact .none_none
      · simp only [Option.bind_eq_some_iff, Option.some.injEq] at h1 h2
        obtain ⟨t, ht, rfl⟩ := h1
        obtain ⟨t', ht', rfl⟩ := h2
        have hrest := matchAll_same hps (List.nodup_append.mp hn).2.1
          (fun p q st st' v R R' hp => hm p q st st' v R R' (List.mem_cons_of_mem _ hp)) ht ht'
        rcases hrest with ⟨rfl, rfl⟩ | ⟨cs, cs', rfl, rfl, ha', s1', s2'⟩
        · exact .none_none
        · refine .inr ⟨bs ++ cs, bs' ++ cs', rfl, rfl, ?_, ?_, ?_⟩
          · refine (ha.frame hps.frame ?_).append ha'
            intro x hx hx'
            exact (List.nodup_append.mp hn).2.2 x (s1.subset hx) x hx' rfl
          · rw [List.map_append]; exact s1.append s1'
          · rw [List.map_append]; exact s2.append s2'

theorem matchPat_wild (I : Interp α) (n : Nat) (cs : List N) (v : α) : matchPat I (n + 1) (.mk .pWild cs) v = some (some []) := by
  rw [matchPat]

theorem matchPat_other (I : Interp α) (n : Nat) {k : K} {cs : List N} (v : α) (h1 : k ≠ .pWild) (h2 : ∀ m x, k ≠ .pBinding m x) :
    matchPat I (n + 1) (.mk k cs) v = (do
      let h ← patHead (.mk k cs)
      let r ← I.split h.1 v
      match r with
      | none => some none
      | some vs => matchAll (matchPat I n) h.2 vs) := by
  unfold matchPat
  split <;> first
    | (rename_i e; cases e; exact absurd rfl h1)
    | (rename_i e; cases e; exact absurd rfl (h2 _ _))
    | rfl

theorem matchPat_simple {I : Interp α} {n : Nat} {p : N} {v : α} {R : Option (Env α)} (h : matchPat I n p v = some R) :
    p.kind.simple = true := by
  cases n with
  | zero => simp [matchPat] at h
  | succ n =>
    obtain ⟨k, cs⟩ := p
    cases k <;> first
      | rfl
      | (rw [matchPat_other I n v (by simp) (by simp)] at h; simp [patHead] at h)

/-- Equal patterns match the same values, and corresponding variables hold the same. -/
theorem matchPat_same {c : Cfg} (hb : c.byRes = false) (I : Interp α) : ∀ (n m : Nat) {p q : N} {v : α} {st st' : St} {R R' : Option (Env α)},
    Eqv c st p q st' → (binders p).Nodup → matchPat I n p v = some R → matchPat I m q v = some R' →
      SameMatch st' (binders p) (binders q) R R'
  | 0, _, _, _, _, _, _, _, _, _, _, h, _ => by simp [matchPat] at h
  | _ + 1, 0, _, _, _, _, _, _, _, _, _, _, h => by simp [matchPat] at h
  | n + 1, m + 1, p, q, v, st, st', R, R', he, hn, h1, h2 => by
    have hs := matchPat_simple h1
    obtain ⟨pk, pcs⟩ := p
    obtain ⟨qk, qcs⟩ := q
    obtain ⟨hh, st1, hk, hd⟩ := he.simple hs
    have hera := headEq_erase hh
    simp only [N.kind, N.kids] at hs hh hk hd hera
    by_cases hw : pk = .pWild
    · subst hw
      have : qk = .pWild := by cases qk <;> simp [K.erase] at hera; rfl
      subst this
      rw [matchPat_wild] at h1 h2
      cases h1; cases h2
      exact .inr ⟨[], [], rfl, rfl, .nil, by simp, by simp⟩
    by_cases hbd : ∃ mode x, pk = .pBinding mode x
    · obtain ⟨mode, x, rfl⟩ := hbd
      have : ∃ y, qk = .pBinding mode y := by
        cases qk <;> simp [K.erase] at hera
        exact ⟨_, by rw [hera]⟩
      obtain ⟨y, rfl⟩ := this
      have hst : st'.get (.var x) = some (.var y) := by
        rw [hd]; simp [declare, look_cons, St.get]
      unfold matchPat at h1
      split at h1
      · next e => cases e
      · next e =>
        cases e
        obtain ⟨q1, rfl, hq1⟩ := hk.one
        obtain ⟨hh1, hk1⟩ := hq1.simple' rfl (fun _ _ => rfl)
        obtain ⟨k1, cs1⟩ := q1
        have a2 := headEq_erase hh1
        simp only [N.kind, N.kids] at a2 hk1
        have : k1 = .optNone := by cases k1 <;> simp [K.erase] at a2; rfl
        subst this
        obtain ⟨rfl, _⟩ := hk1.nil'
        simp only [Option.bind_eq_bind, Option.bind_eq_some_iff, Option.some.injEq] at h1
        obtain ⟨u, hu, rfl⟩ := h1
        simp only [matchPat, Option.bind_eq_bind, Option.bind_eq_some_iff, Option.some.injEq] at h2
        obtain ⟨u', hu', rfl⟩ := h2
        rw [hu] at hu'
        cases hu'
        refine .inr ⟨_, _, rfl, rfl, .cons hst .nil, ?_, ?_⟩ <;> simp [binders, K.binder]
      · next p1 e =>
        cases e
        obtain ⟨q1, rfl, hq1⟩ := hk.one
        obtain ⟨hh1, hk1⟩ := hq1.simple' rfl (fun _ _ => rfl)
        obtain ⟨k1, cs1⟩ := q1
        have a2 := headEq_erase hh1
        simp only [N.kind, N.kids] at a2 hk1
        have : k1 = .optSome := by cases k1 <;> simp [K.erase] at a2; rfl
        subst this
        obtain ⟨q2, rfl, hq2⟩ := hk1.one
        simp only [Option.bind_eq_bind, Option.bind_eq_some_iff, Option.some.injEq] at h1
        obtain ⟨u, hu, r, hr, rfl⟩ := h1
        simp only [matchPat, Option.bind_eq_bind, Option.bind_eq_some_iff, Option.some.injEq] at h2
        obtain ⟨u', hu', r', hr', rfl⟩ := h2
        rw [hu] at hu'
        cases hu'
        have hbp : binders (.mk (.pBinding mode x) [.mk .optSome [p1]]) = .var x :: binders p1 := by simp [binders, bindersL, K.binder]
        have hbq : binders (.mk (.pBinding mode y) [.mk .optSome [q2]]) = .var y :: binders q2 := by simp [binders, bindersL, K.binder]
        rw [hbp] at hn ⊢
        rw [hbq]
        rcases matchPat_same hb I n m hq2 (List.nodup_cons.mp hn).2 hr hr' with ⟨rfl, rfl⟩ | ⟨bs, bs', rfl, rfl, ha, s1, s2⟩
        · exact .none_none
        · refine .inr ⟨_, _, rfl, rfl, .cons hst (ha.frame (xs := [.var x]) ?_ ?_), ?_, ?_⟩
          · rw [hd]
            intro z hz
            simp only [List.mem_singleton] at hz
            cases z with
            | var z =>
              have : x ≠ z := fun e => hz (by rw [e])
              simp [declare, look_cons, St.get, this]
            | item z => rfl
          · intro z hz hz'
            rw [List.mem_singleton.mp hz'] at hz
            exact (List.nodup_cons.mp hn).1 (s1.subset hz)
          · rw [List.map_cons]; exact s1.cons_cons _
          · rw [List.map_cons]; exact s2.cons_cons _
      · next e1 e2 e3 =>
        simp [patHead] at h1
    · have hbq : ∀ m x, qk ≠ .pBinding m x := by
        rintro m x rfl
        cases pk <;> simp [K.erase] at hera
        exact hbd ⟨_, _, rfl⟩
      have hwq : qk ≠ .pWild := by
        rintro rfl
        cases pk <;> simp [K.erase] at hera
        exact hw rfl
      rw [matchPat_other I n v hw (fun m x e => hbd ⟨m, x, e⟩)] at h1
      rw [matchPat_other I m v hwq hbq] at h2
      simp only [Option.bind_eq_bind, Option.bind_eq_some_iff] at h1 h2
      obtain ⟨h, hp, r, hr, h1⟩ := h1
      obtain ⟨h', hp', r', hr', h2⟩ := h2
      obtain ⟨e1, ⟨st0, e2⟩, e3, e4⟩ := patHead_eqv hb he hp hp'
      rw [e1, hr'] at hr
      obtain rfl : r' = r := by simpa using hr
      cases r' with
      | none =>
        simp only [Option.some.injEq] at h1 h2
        subst h1 h2
        exact .none_none
      | some vs =>
        have := matchAll_same (m := matchPat I n) (m' := matchPat I m) e2 (e3.nodup hn)
          (fun p q st st' v R R' _ he hn h1 h2 => matchPat_same hb I n m he hn h1 h2) h1 h2
        rcases this with ⟨rfl, rfl⟩ | ⟨bs, bs', rfl, rfl, ha, s1, s2⟩
        · exact .none_none
        · exact .inr ⟨bs, bs', rfl, rfl, ha, s1.trans e3, s2.trans e4⟩

end Verif.HirEq
