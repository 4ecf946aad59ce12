import Verif.HirEq.PatLemmas

/-!
# Equal expressions have the same value
-/

namespace Verif.HirEq

variable {α : Type}

/-- The variables of two environments fit together: a variable has the same value in both, and mapped variables have the same value. -/
structure Rel (st : St) (ρ ρ' : Env α) : Prop where
  same : ∀ x u u', look ρ x = some u → look ρ' x = some u' → u = u'
  mapped : ∀ x u y, look ρ x = some u → st.get x = some y → look ρ' y = some u

theorem Rel.frame {st st' : St} {ρ ρ' : Env α} {xs : List Key} (h : Rel st ρ ρ') (hf : Frame xs st st')
    (hd : ∀ x ∈ xs, look ρ x = none) : Rel st' ρ ρ' := by
  refine ⟨h.same, ?_⟩
  intro x u y hx hy
  have hn : x ∉ xs := fun hx' => by rw [hd x hx'] at hx; cases hx
  rw [hf x hn] at hy
  exact h.mapped x u y hx hy

theorem Aligned.look {st : St} {bs bs' : Env α} (h : Aligned st bs bs') (hn : (bs'.map Prod.fst).Nodup) {x : Key} {u : α}
    (hx : look bs x = some u) : ∃ y, st.get x = some y ∧ HirEq.look bs' y = some u := by
  induction h with
  | nil => cases hx
  | @cons x1 y1 u1 as as' h1 _ ih =>
    rw [look_cons] at hx
    rw [List.map_cons, List.nodup_cons] at hn
    by_cases he : x1 = x
    · subst he
      rw [if_pos rfl] at hx
      cases hx
      exact ⟨y1, h1, by rw [look_cons, if_pos rfl]⟩
    · rw [if_neg he] at hx
      obtain ⟨y, e1, e2⟩ := ih hn.2 hx
      refine ⟨y, e1, ?_⟩
      rw [look_cons, if_neg]
      · exact e2
      · rintro rfl
        have := look_none.mpr hn.1
        rw [this] at e2; cases e2

theorem look_or {a b : Env α} {x : Key} {u : α} (h : look (a ++ b) x = some u) : look a x = some u ∨ (look a x = none ∧ look b x = some u) := by
  rw [look_append] at h
  cases ha : look a x with
  | none => rw [ha] at h; exact .inr ⟨rfl, by simpa using h⟩
  | some w => rw [ha] at h; exact .inl (by simpa using h)

theorem look_mem {a : Env α} {x : Key} {u : α} (h : look a x = some u) : x ∈ a.map Prod.fst := by
  refine Decidable.byContradiction fun hn => ?_
  rw [look_none.mpr hn] at h; cases h

theorem Rel.extend {st : St} {ρ ρ' bs bs' : Env α} {xs ys : List Key} (h : Rel st ρ ρ') (ha : Aligned st bs bs')
    (s1 : (bs.map Prod.fst).Sublist xs) (s2 : (bs'.map Prod.fst).Sublist ys) (hn : ys.Nodup) (hd : ∀ x ∈ xs, x ∉ ys)
    (hx : ∀ x ∈ xs, look ρ x = none ∧ look ρ' x = none) (hy : ∀ x ∈ ys, look ρ x = none ∧ look ρ' x = none) :
    Rel st (bs ++ ρ) (bs' ++ ρ') := by
  refine ⟨?_, ?_⟩
  · intro x u u' h1 h2
    rcases look_or h1 with h1 | ⟨_, h1⟩
    · rcases look_or h2 with h2 | ⟨_, h2⟩
      · exact absurd (s2.subset (look_mem h2)) (hd x (s1.subset (look_mem h1)))
      · rw [(hx x (s1.subset (look_mem h1))).2] at h2; cases h2
    · rcases look_or h2 with h2 | ⟨_, h2⟩
      · rw [(hy x (s2.subset (look_mem h2))).1] at h1; cases h1
      · exact h.same x u u' h1 h2
  · intro x u y h1 h2
    rcases look_or h1 with h1 | ⟨_, h1⟩
    · obtain ⟨y', e1, e2⟩ := ha.look (s2.nodup hn) h1
      rw [e1] at h2
      cases h2
      rw [look_append, e2]; rfl
    · have h3 := h.mapped x u y h1 h2
      rw [look_append]
      cases hb : look bs' y with
      | none => simpa using h3
      | some w => rw [(hy y (s2.subset (look_mem hb))).2] at h3; cases h3

/-! ### Freshness -/

theorem Fresh.head {ρ ρ' : Env α} {l r : N} {ls rs : List N} (h : Fresh ρ ρ' (l :: ls) (r :: rs)) : Fresh ρ ρ' [l] [r] := by
  have e1 : ∀ x, x ∈ bindersL [l] → x ∈ bindersL (l :: ls) := by
    intro x hx; simp only [bindersL, List.append_nil, List.mem_append] at hx ⊢; exact .inl hx
  have e2 : ∀ x, x ∈ bindersL [r] → x ∈ bindersL (r :: rs) := by
    intro x hx; simp only [bindersL, List.append_nil, List.mem_append] at hx ⊢; exact .inl hx
  refine ⟨?_, ?_, fun x hx hx' => h.both x (e1 x hx) (e2 x hx'), fun x hx => h.leftNew x (e1 x hx), fun x hx => h.rightNew x (e2 x hx)⟩
  · have := h.left; rw [bindersL] at this; simpa [bindersL] using (List.nodup_append.mp this).1
  · have := h.right; rw [bindersL] at this; simpa [bindersL] using (List.nodup_append.mp this).1

theorem Fresh.tail {ρ ρ' : Env α} {l r : N} {ls rs : List N} (h : Fresh ρ ρ' (l :: ls) (r :: rs)) : Fresh ρ ρ' ls rs := by
  have e1 : ∀ x, x ∈ bindersL ls → x ∈ bindersL (l :: ls) := by
    intro x hx; simp only [bindersL, List.mem_append] at hx ⊢; exact .inr hx
  have e2 : ∀ x, x ∈ bindersL rs → x ∈ bindersL (r :: rs) := by
    intro x hx; simp only [bindersL, List.mem_append] at hx ⊢; exact .inr hx
  refine ⟨?_, ?_, fun x hx hx' => h.both x (e1 x hx) (e2 x hx'), fun x hx => h.leftNew x (e1 x hx), fun x hx => h.rightNew x (e2 x hx)⟩
  · have := h.left; rw [bindersL] at this; exact (List.nodup_append.mp this).2.1
  · have := h.right; rw [bindersL] at this; exact (List.nodup_append.mp this).2.1

/-- Freshness only depends on the variables which are declared. -/
theorem Fresh.sub {ρ ρ' : Env α} {ls rs ls' rs' : List N} (h : Fresh ρ ρ' ls rs) (hl : (bindersL ls').Sublist (bindersL ls))
    (hr : (bindersL rs').Sublist (bindersL rs)) : Fresh ρ ρ' ls' rs' :=
  ⟨hl.nodup h.left, hr.nodup h.right, fun x hx hx' => h.both x (hl.subset hx) (hr.subset hx'), fun x hx => h.leftNew x (hl.subset hx),
    fun x hx => h.rightNew x (hr.subset hx)⟩

/-- After the variables of `l` and `r` have got values, the rest is still fresh. -/
theorem Fresh.extend {ρ ρ' bs bs' : Env α} {l r : N} {ls rs : List N} (h : Fresh ρ ρ' (l :: ls) (r :: rs))
    (s1 : (bs.map Prod.fst).Sublist (binders l)) (s2 : (bs'.map Prod.fst).Sublist (binders r)) : Fresh (bs ++ ρ) (bs' ++ ρ') ls rs := by
  have hl := h.left
  have hr := h.right
  rw [bindersL] at hl hr
  have t := h.tail
  refine ⟨t.left, t.right, t.both, ?_, ?_⟩
  · intro x hx
    have n1 : x ∉ bs.map Prod.fst := fun hx' => (List.nodup_append.mp hl).2.2 x (s1.subset hx') x hx rfl
    have n2 : x ∉ bs'.map Prod.fst := by
      intro hx'
      exact h.both x (by rw [bindersL]; exact List.mem_append_right _ hx) (by rw [bindersL]; exact List.mem_append_left _ (s2.subset hx'))
    rw [look_append, look_append, look_none.mpr n1, look_none.mpr n2]
    exact t.leftNew x hx
  · intro x hx
    have n1 : x ∉ bs.map Prod.fst := by
      intro hx'
      exact h.both x (by rw [bindersL]; exact List.mem_append_left _ (s1.subset hx')) (by rw [bindersL]; exact List.mem_append_right _ hx)
    have n2 : x ∉ bs'.map Prod.fst := fun hx' => (List.nodup_append.mp hr).2.2 x (s2.subset hx') x hx rfl
    rw [look_append, look_append, look_none.mpr n1, look_none.mpr n2]
    exact t.rightNew x hx

theorem Ok.kid {I : Interp α} {k cs x} (h : Ok I (.mk k cs)) (hx : x ∈ cs) : Ok I x := by
  intro s hs
  refine h s ?_
  rw [subs]
  exact List.mem_cons_of_mem _ (mem_subsL.mpr ⟨x, hx, hs⟩)

theorem Ok.here {I : Interp α} {k cs} (h : Ok I (.mk k cs)) : okHere I (.mk k cs) := h _ (by simp [subs])

/-! ### The induction -/

/-- The statement about evaluation with the given bound. -/
def Claim (c : Cfg) (I : Interp α) (n : Nat) : Prop :=
  ∀ (m : Nat) (l r : N) (st st' : St) (ρ ρ' : Env α) (v w : α), Eqv c st l r st' → Fresh ρ ρ' [l] [r] → Rel st ρ ρ' → Ok I l → Ok I r →
    eval I n ρ l = some v → eval I m ρ' r = some w → v = w

theorem Rel.step {c : Cfg} {st st' : St} {ρ ρ' : Env α} {l r : N} (h : Rel st ρ ρ') (he : Eqv c st l r st') (hf : Fresh ρ ρ' [l] [r]) :
    Rel st' ρ ρ' :=
  h.frame he.frame (fun x hx => (hf.leftNew x (by simpa [bindersL] using hx)).1)

theorem all_same {c : Cfg} {I : Interp α} {n m : Nat} (hc : Claim c I n) : ∀ {ls rs : List N} {st st' : St} {ρ ρ' : Env α} {vs ws : List α},
    EqvAll c st ls rs st' → Fresh ρ ρ' ls rs → Rel st ρ ρ' → (∀ l ∈ ls, Ok I l) → (∀ r ∈ rs, Ok I r) →
    allSome (eval I n ρ) ls = some vs → allSome (eval I m ρ') rs = some ws → vs = ws
  | [], _, st, st', ρ, ρ', vs, ws, h, _, _, _, _, h1, h2 => by
    obtain ⟨rfl, rfl⟩ := h.nil'
    simp only [allSome, Option.some.injEq] at h1 h2
    rw [← h1, ← h2]
  | l :: ls, _, st, st', ρ, ρ', vs, ws, h, hf, hr, o1, o2, h1, h2 => by
    obtain ⟨r, rs, st1, rfl, hl, hls⟩ := h.cons'
    simp only [allSome, Option.bind_eq_bind, Option.bind_eq_some_iff, Option.some.injEq] at h1 h2
    obtain ⟨v, hv, vs', hvs, rfl⟩ := h1
    obtain ⟨w, hw, ws', hws, rfl⟩ := h2
    have e1 := hc m l r st st1 ρ ρ' v w hl hf.head hr (o1 _ (by simp)) (o2 _ (by simp)) hv hw
    have e2 := all_same hc hls hf.tail (hr.step hl hf.head) (fun l hl => o1 l (List.mem_cons_of_mem _ hl))
      (fun r hr => o2 r (List.mem_cons_of_mem _ hr)) hvs hws
    rw [e1, e2]

theorem Fresh.kids {ρ ρ' : Env α} {k k' : K} {cs cs' : List N} (h : Fresh ρ ρ' [.mk k cs] [.mk k' cs']) : Fresh ρ ρ' cs cs' :=
  h.sub (by rw [bindersL_cons, bindersL_nil, List.append_nil]; exact binders_kids k cs)
    (by rw [bindersL_cons, bindersL_nil, List.append_nil]; exact binders_kids k' cs')

/-- The subtrees of the first pieces in place of them. -/
theorem Fresh.kidsHead {ρ ρ' : Env α} {k k' : K} {cs cs' ls rs : List N} (h : Fresh ρ ρ' (.mk k cs :: ls) (.mk k' cs' :: rs)) :
    Fresh ρ ρ' (cs ++ ls) (cs' ++ rs) :=
  h.sub (by rw [bindersL_cons, bindersL_append]; exact (binders_kids k cs).append (List.Sublist.refl _))
    (by rw [bindersL_cons, bindersL_append]; exact (binders_kids k' cs').append (List.Sublist.refl _))

theorem binders_mem {x : N} {xs : List N} (h : x ∈ xs) : (bindersL [x]).Sublist (bindersL xs) := by
  induction xs with
  | nil => cases h
  | cons y ys ih =>
    rw [bindersL_cons y ys]
    rcases List.mem_cons.mp h with rfl | h
    · rw [bindersL_cons, bindersL_nil, List.append_nil]; exact List.sublist_append_left _ _
    · exact (ih h).trans (List.sublist_append_right _ _)

theorem Fresh.pick {ρ ρ' : Env α} {l r : N} {ls rs : List N} (h : Fresh ρ ρ' ls rs) (hl : l ∈ ls) (hr : r ∈ rs) : Fresh ρ ρ' [l] [r] :=
  h.sub (binders_mem hl) (binders_mem hr)

theorem Rel.stepAll {c : Cfg} {st st' : St} {ρ ρ' : Env α} {ls rs : List N} (h : Rel st ρ ρ') (he : EqvAll c st ls rs st')
    (hf : Fresh ρ ρ' ls rs) : Rel st' ρ ρ' :=
  h.frame he.frame (fun x hx => (hf.leftNew x hx).1)

/-! ### The shape of the right side -/

theorem Eqv.list {c st cs r st'} (h : Eqv c st (.mk .list cs) r st') : ∃ cs', r = .mk .list cs' ∧ EqvAll c st cs cs' st' := by
  obtain ⟨hh, hk⟩ := h.simple' rfl (fun _ _ => rfl)
  obtain ⟨rk, rcs⟩ := r
  have a := headEq_erase hh
  simp only [N.kind, N.kids] at *
  cases rk <;> simp [K.erase] at a
  exact ⟨_, rfl, hk⟩

theorem Eqv.none {c st r st'} (h : Eqv c st (.mk .optNone []) r st') : r = .mk .optNone [] ∧ st' = st := by
  obtain ⟨hh, hk⟩ := h.simple' rfl (fun _ _ => rfl)
  obtain ⟨rk, rcs⟩ := r
  have a := headEq_erase hh
  simp only [N.kind, N.kids] at *
  cases rk <;> simp [K.erase] at a
  obtain ⟨rfl, rfl⟩ := hk.nil'
  exact ⟨rfl, rfl⟩

theorem Eqv.some {c st e r st'} (h : Eqv c st (.mk .optSome [e]) r st') : ∃ e', r = .mk .optSome [e'] ∧ Eqv c st e e' st' := by
  obtain ⟨hh, hk⟩ := h.simple' rfl (fun _ _ => rfl)
  obtain ⟨rk, rcs⟩ := r
  have a := headEq_erase hh
  simp only [N.kind, N.kids] at *
  cases rk <;> simp [K.erase] at a
  obtain ⟨e', rfl, h'⟩ := hk.one
  exact ⟨_, rfl, h'⟩

theorem Eqv.blk {c st u t g cs r st'} (h : Eqv c st (.mk (.blk u t g) cs) r st') : ∃ u' t' g' cs', r = .mk (.blk u' t' g') cs' ∧ EqvAll c st cs cs' st' := by
  obtain ⟨hh, hk⟩ := h.simple' rfl (fun _ _ => rfl)
  obtain ⟨rk, rcs⟩ := r
  have a := headEq_erase hh
  simp only [N.kind, N.kids] at *
  cases rk <;> simp [K.erase] at a
  exact ⟨_, _, _, _, rfl, hk⟩

theorem Eqv.arm {c st cs r st'} (h : Eqv c st (.mk .arm cs) r st') : ∃ cs', r = .mk .arm cs' ∧ EqvAll c st cs cs' st' := by
  obtain ⟨hh, hk⟩ := h.simple' rfl (fun _ _ => rfl)
  obtain ⟨rk, rcs⟩ := r
  have a := headEq_erase hh
  simp only [N.kind, N.kids] at *
  cases rk <;> simp [K.erase] at a
  exact ⟨_, rfl, hk⟩

theorem Eqv.letS {c st t cs r st'} (h : Eqv c st (.mk (.letS t) cs) r st') : ∃ cs', r = .mk (.letS t) cs' ∧ EqvAll c st cs cs' st' := by
  obtain ⟨hh, hk⟩ := h.simple' rfl (fun _ _ => rfl)
  obtain ⟨rk, rcs⟩ := r
  have a := headEq_erase hh
  simp only [N.kind, N.kids] at *
  cases rk <;> simp [K.erase] at a
  subst a
  exact ⟨_, rfl, hk⟩

theorem Eqv.exprS {c st cs r st'} (h : Eqv c st (.mk .exprS cs) r st') : ∃ cs', r = .mk .exprS cs' ∧ EqvAll c st cs cs' st' := by
  obtain ⟨hh, hk⟩ := h.simple' rfl (fun _ _ => rfl)
  obtain ⟨rk, rcs⟩ := r
  have a := headEq_erase hh
  simp only [N.kind, N.kids] at *
  cases rk <;> simp [K.erase] at a
  exact ⟨_, rfl, hk⟩

theorem Eqv.semiS {c st cs r st'} (h : Eqv c st (.mk .semiS cs) r st') : ∃ cs', r = .mk .semiS cs' ∧ EqvAll c st cs cs' st' := by
  obtain ⟨hh, hk⟩ := h.simple' rfl (fun _ _ => rfl)
  obtain ⟨rk, rcs⟩ := r
  have a := headEq_erase hh
  simp only [N.kind, N.kids] at *
  cases rk <;> simp [K.erase] at a
  exact ⟨_, rfl, hk⟩

theorem Eqv.constItem {c st n x cs r st'} (h : Eqv c st (.mk (.constItem n x) cs) r st') :
    ∃ y cs' st1, r = .mk (.constItem n y) cs' ∧ EqvAll c st cs cs' st1 ∧ st' = { st1 with items := (x, y) :: st1.items } := by
  obtain ⟨hh, st1, hk, hd⟩ := h.simple rfl
  obtain ⟨rk, rcs⟩ := r
  have a := headEq_erase hh
  simp only [N.kind, N.kids] at *
  cases rk <;> simp [K.erase] at a
  subst a
  exact ⟨_, _, _, rfl, hk, hd⟩

theorem Eqv.tPath {c st cs r st'} (h : Eqv c st (.mk .tPath cs) r st') : ∃ cs', r = .mk .tPath cs' ∧ EqvAll c st cs cs' st' := by
  obtain ⟨hh, hk⟩ := h.simple' rfl (fun _ _ => rfl)
  obtain ⟨rk, rcs⟩ := r
  have a := headEq_erase hh
  simp only [N.kind, N.kids] at *
  cases rk <;> simp [K.erase] at a
  exact ⟨_, rfl, hk⟩

theorem Eqv.letE {c st i cs r st'} (hc : i.cst = Option.none) (h : Eqv c st (.mk (.expr i .letE) cs) r st') :
    ∃ j cs', r = .mk (.expr j .letE) cs' ∧ EqvAll c st cs cs' st' := by
  have hl : reduce (.mk (.expr i .letE) cs) = .mk (.expr i .letE) cs := by simp [reduce]
  cases h.cases with
  | const h => 
    unfold sameConst at h
    split at h
    · next e1 _ => cases e1; simp [hc] at h
    · cases h
  | bin i j op ll lr rl rr e1 e2 h => rw [hl] at e1; cases e1
  | swap i j lo ro ll lr rl rr e1 e2 hs st1 h1 h => rw [hl] at e1; cases e1
  | var x y _ _ _ _ e1 e2 hv hs => rw [hl] at e1; cases e1
  | path _ _ _ _ _ _ e1 => rw [hl] at e1; cases e1
  | zip b lq rq lcs rcs e1 => rw [hl] at e1; simp [zipOf] at e1
  | plain hh st1 hk hs =>
    rw [hl] at hh hk hs
    obtain ⟨j, f, e1, e2⟩ := erase_expr (headEq_erase hh).symm
    have hf : f = .letE := by
      cases f with
      | matchE s => cases s <;> simp [EK.erase] at e2
      | _ => simp [EK.erase] at e2 <;> rfl
    subst hf
    rcases reduce_cases r with h | ⟨j', h⟩ | ⟨j', cs', h, _⟩
    · rw [h] at hk hs e1
      obtain ⟨rk, rcs⟩ := r
      simp only [N.kind, N.kids] at *
      subst e1
      simp only [declare] at hs
      exact ⟨j, rcs, rfl, hs ▸ hk⟩
    · rw [h] at e1; cases e1
    · rw [h] at e1; cases e1

theorem Eqv.letE_right {c st l j cs st'} (hc : j.cst = Option.none) (h : Eqv c st l (.mk (.expr j .letE) cs) st') :
    ∃ i cs', l = .mk (.expr i .letE) cs' := by
  have hl : reduce (.mk (.expr j .letE) cs) = .mk (.expr j .letE) cs := by simp [reduce]
  cases h.cases with
  | const h =>
    obtain ⟨lk, lcs⟩ := l
    cases lk <;> simp [sameConst, hc] at h
    obtain ⟨⟨_, h1⟩, h2⟩ := h
    rw [h2] at h1; cases h1
  | bin i j op ll lr rl rr e2 e1 h => rw [hl] at e1; cases e1
  | swap i j lo ro ll lr rl rr e2 e1 hs st1 h1 h => rw [hl] at e1; cases e1
  | var x y _ _ _ _ e2 e1 hv hs => rw [hl] at e1; cases e1
  | path _ _ _ _ _ _ e2 e1 => rw [hl] at e1; cases e1
  | zip b lq rq lcs rcs e2 e1 => rw [hl] at e1; simp [zipOf] at e1
  | plain hh st1 hk hs =>
    rw [hl] at hh hk hs
    obtain ⟨i, f, e1, e2⟩ := erase_expr (headEq_erase hh)
    have hf : f = .letE := by
      cases f with
      | matchE s => cases s <;> simp [EK.erase] at e2
      | _ => simp [EK.erase] at e2 <;> rfl
    subst hf
    rcases reduce_cases l with h | ⟨j', h⟩ | ⟨j', cs', h, _⟩
    · rw [h] at e1
      obtain ⟨lk, lcs⟩ := l
      simp only [N.kind] at e1
      subst e1
      exact ⟨_, _, rfl⟩
    · rw [h] at e1; cases e1
    · rw [h] at e1; cases e1

theorem EqvAll.three {c st l l2 l3 rs st'} (h : EqvAll c st [l, l2, l3] rs st') :
    ∃ r r2 r3 st1 st2, rs = [r, r2, r3] ∧ Eqv c st l r st1 ∧ Eqv c st1 l2 r2 st2 ∧ Eqv c st2 l3 r3 st' := by
  obtain ⟨r, rs', st1, rfl, h1, hs⟩ := h.cons'
  obtain ⟨r2, r3, st2, rfl, h2, h3⟩ := hs.two
  exact ⟨_, _, _, _, _, rfl, h1, h2, h3⟩

theorem EqvAll.four {c st l l2 l3 l4 rs st'} (h : EqvAll c st [l, l2, l3, l4] rs st') :
    ∃ r r2 r3 r4 st1 st2 st3, rs = [r, r2, r3, r4] ∧ Eqv c st l r st1 ∧ Eqv c st1 l2 r2 st2 ∧ Eqv c st2 l3 r3 st3 ∧ Eqv c st3 l4 r4 st' := by
  obtain ⟨r, rs', st1, rfl, h1, hs⟩ := h.cons'
  obtain ⟨r2, r3, r4, st2, st3, rfl, h2, h3, h4⟩ := hs.three
  exact ⟨_, _, _, _, _, _, _, rfl, h1, h2, h3, h4⟩

/-! ### Patterns with values: conditions, statements, arms -/

/-- Two equal patterns against the same value: the variables they bind extend both environments. -/
theorem pat_same {c : Cfg} (hb : c.byRes = false) (I : Interp α) {n m : Nat} {p q : N} {v : α} {st st' : St} {ρ ρ' : Env α}
    {R R' : Option (Env α)} {ls rs : List N} (he : Eqv c st p q st') (hf : Fresh ρ ρ' (p :: ls) (q :: rs)) (hr : Rel st ρ ρ')
    (h1 : matchPat I n p v = some R) (h2 : matchPat I m q v = some R') :
    (R = none ∧ R' = none) ∨ ∃ bs bs', R = some bs ∧ R' = some bs' ∧ Fresh (bs ++ ρ) (bs' ++ ρ') ls rs ∧ Rel st' (bs ++ ρ) (bs' ++ ρ') := by
  have hh := hf.head
  have nl : (binders p).Nodup := by simpa [bindersL] using hh.left
  have nr : (binders q).Nodup := by simpa [bindersL] using hh.right
  rcases matchPat_same hb I n m he nl h1 h2 with h | ⟨bs, bs', e1, e2, ha, s1, s2⟩
  · exact .inl h
  · refine .inr ⟨bs, bs', e1, e2, hf.extend s1 s2, ?_⟩
    refine (hr.step he hh).extend ha s1 s2 nr ?_ ?_ ?_
    · intro x hx; have := hh.both x; simp only [bindersL, List.append_nil] at this; exact this hx
    · intro x hx; have := hh.leftNew x; simp only [bindersL, List.append_nil] at this; exact this hx
    · intro x hx; have := hh.rightNew x; simp only [bindersL, List.append_nil] at this; exact this hx

theorem eval_letE (I : Interp α) (n : Nat) (ρ : Env α) (i : Info) (cs : List N) : eval I n ρ (.mk (.expr i .letE) cs) = none := by
  cases n with
  | zero => rfl
  | succ n => simp [eval, strictOp]

theorem cond_other (I : Interp α) (n : Nat) (ev : Env α → N → Option α) (ρ : Env α) {x : N} (h : ∀ i cs, x ≠ .mk (.expr i .letE) cs) :
    cond I n ev ρ x = (do let v ← ev ρ x; let b ← I.asBool v; some (b, ρ)) := by
  unfold cond
  split
  · exact absurd rfl (h _ _)
  · rfl

theorem cond_let {I : Interp α} {n k : Nat} {ρ : Env α} {i : Info} {cs : List N} {y : Bool × Env α}
    (h : cond I n (eval I k) ρ (.mk (.expr i .letE) cs) = some y) : ∃ p t e v R, cs = [p, t, e] ∧ eval I k ρ e = some v ∧
      matchPat I n p v = some R ∧ y = (match R with | none => (false, ρ) | some bs => (true, bs ++ ρ)) := by
  unfold cond at h
  split at h
  · next he =>
    cases he
    simp only [Option.bind_eq_bind, Option.bind_eq_some_iff] at h
    obtain ⟨v, hv, R, hR, h⟩ := h
    refine ⟨_, _, _, v, R, rfl, hv, hR, ?_⟩
    cases R <;> simp at h <;> exact h.symm
  · rw [eval_letE] at h; simp at h

theorem cond_same {c : Cfg} (hb : c.byRes = false) {I : Interp α} {n m : Nat} (hc : Claim c I n) {l r : N} {ls rs : List N} {st st' : St}
    {ρ ρ' : Env α} {x y : Bool × Env α} (he : Eqv c st l r st') (hf : Fresh ρ ρ' (l :: ls) (r :: rs)) (hr : Rel st ρ ρ') (ol : Ok I l)
    (or : Ok I r) (h1 : cond I n (eval I n) ρ l = some x) (h2 : cond I m (eval I m) ρ' r = some y) :
    x.1 = y.1 ∧ Fresh x.2 y.2 ls rs ∧ Rel st' x.2 y.2 := by
  by_cases hl : ∃ i cs, l = .mk (.expr i .letE) cs
  · obtain ⟨i, cs, rfl⟩ := hl
    have hi : i.cst = Option.none := ol.here.2.1 rfl
    obtain ⟨j, cs', rfl, hk⟩ := Eqv.letE hi he
    obtain ⟨p, t, e, v, R, rfl, hv, hR, rfl⟩ := cond_let h1
    obtain ⟨p', t', e', v', R', rfl, hv', hR', rfl⟩ := cond_let h2
    obtain ⟨_, _, _, st1, st2, hcs, k1, k2, k3⟩ := hk.three
    cases hcs
    have f1 := hf.head.kids
    have r1 := hr.step k1 f1.head
    have r2 := r1.step k2 f1.tail.head
    have e1 := hc m e e' st2 st' ρ ρ' v v' k3 f1.tail.tail.head r2 (ol.kid (by simp)) (or.kid (by simp)) hv hv'
    subst e1
    rcases pat_same hb I k1 hf.kidsHead hr hR hR' with ⟨rfl, rfl⟩ | ⟨bs, bs', rfl, rfl, hF, hr'⟩
    · exact ⟨rfl, hf.tail, r2.step k3 f1.tail.tail.head⟩
    · exact ⟨rfl, hF.tail.tail, (hr'.step k2 hF.head).step k3 hF.tail.head⟩
  · have hr' : ∀ i cs, r ≠ .mk (.expr i .letE) cs := by
      rintro i cs rfl
      exact hl (he.letE_right (or.here.2.1 rfl))
    have hl' : ∀ i cs, l ≠ .mk (.expr i .letE) cs := fun i cs h => hl ⟨i, cs, h⟩
    rw [cond_other _ _ _ _ hl'] at h1
    rw [cond_other _ _ _ _ hr'] at h2
    simp only [Option.bind_eq_bind, Option.bind_eq_some_iff, Option.some.injEq] at h1 h2
    obtain ⟨v, hv, b, hb, rfl⟩ := h1
    obtain ⟨w, hw, b', hb', rfl⟩ := h2
    have e1 := hc m l r st st' ρ ρ' v w he hf.head hr ol or hv hw
    subst e1
    rw [hb] at hb'
    cases hb'
    exact ⟨rfl, hf.tail, hr.step he hf.head⟩

theorem stmts_same {c : Cfg} (hb : c.byRes = false) {I : Interp α} {n m : Nat} (hc : Claim c I n) {es es' : List N} :
    ∀ {ss ss' : List N} {st st' : St} {ρ ρ' ρ1 ρ1' : Env α}, EqvAll c st ss ss' st' → Fresh ρ ρ' (ss ++ es) (ss' ++ es') → Rel st ρ ρ' →
      (∀ l ∈ ss, Ok I l) → (∀ r ∈ ss', Ok I r) → evalStmts I n (eval I n) ρ ss = some ρ1 → evalStmts I m (eval I m) ρ' ss' = some ρ1' →
      Fresh ρ1 ρ1' es es' ∧ Rel st' ρ1 ρ1'
  | [], _, st, st', ρ, ρ', ρ1, ρ1', h, hf, hr, _, _, h1, h2 => by
    obtain ⟨rfl, rfl⟩ := h.nil'
    simp only [evalStmts, Option.some.injEq] at h1 h2
    subst h1 h2
    exact ⟨hf, hr⟩
  | s :: ss, _, st, st', ρ, ρ', ρ1, ρ1', h, hf, hr, o1, o2, h1, h2 => by
    obtain ⟨s', ss', st1, rfl, hs, hss⟩ := h.cons'
    have ol := o1 s (by simp)
    have or := o2 s' (by simp)
    have ols : ∀ l ∈ ss, Ok I l := fun l hl => o1 l (List.mem_cons_of_mem _ hl)
    have ors : ∀ l ∈ ss', Ok I l := fun l hl => o2 l (List.mem_cons_of_mem _ hl)
    rw [List.cons_append, List.cons_append] at hf
    unfold evalStmts at h1
    split at h1
    · next he => cases he
    · next he =>
      cases he
      obtain ⟨cs', rfl, hk⟩ := hs.letS
      obtain ⟨oi, t', l', p', s1, s2, s3, rfl, k1, k2, k3, k4⟩ := hk.four
      obtain ⟨i', rfl, k1'⟩ := k1.some
      have e2 : ∀ ty i t l p ss, evalStmts I m (eval I m) ρ' (.mk (.letS ty) [.mk .optSome [i], t, l, p] :: ss) = (do
          let v ← eval I m ρ' i
          let r ← matchPat I m p v
          match r with
          | none => none
          | some bs => evalStmts I m (eval I m) (bs ++ ρ') ss) := by intros; rw [evalStmts]; rfl
      rw [e2] at h2
      simp only [Option.bind_eq_bind, Option.bind_eq_some_iff] at h1 h2
      obtain ⟨v, hv, R, hR, h1⟩ := h1
      obtain ⟨w, hw, R', hR', h2⟩ := h2
      have f0 := hf.kidsHead
      have f1 := f0.kidsHead
      have e := hc m _ _ _ _ _ ρ' v w k1' f1.head hr ((ol.kid List.mem_cons_self).kid List.mem_cons_self)
        ((or.kid List.mem_cons_self).kid List.mem_cons_self) hv hw
      subst e
      have r1 := hr.step k1' f1.head
      have r2 := r1.step k2 f1.tail.head
      have r3 := r2.step k3 f1.tail.tail.head
      rcases pat_same hb I k4 f1.tail.tail.tail r3 hR hR' with ⟨rfl, rfl⟩ | ⟨bs, bs', rfl, rfl, hF, hr'⟩
      · simp at h1
      · exact stmts_same hb hc hss hF hr' ols ors h1 h2
    · next he =>
      cases he
      obtain ⟨cs', rfl, hk⟩ := hs.exprS
      obtain ⟨e', rfl, hk⟩ := hk.one
      rw [evalStmts] at h2
      simp only [Option.bind_eq_bind, Option.bind_eq_some_iff] at h1 h2
      obtain ⟨v, hv, h1⟩ := h1
      obtain ⟨w, hw, h2⟩ := h2
      exact stmts_same hb hc hss hf.tail (hr.step hs hf.head) ols ors h1 h2
    · next he =>
      cases he
      obtain ⟨cs', rfl, hk⟩ := hs.semiS
      obtain ⟨e', rfl, hk⟩ := hk.one
      rw [evalStmts] at h2
      simp only [Option.bind_eq_bind, Option.bind_eq_some_iff] at h1 h2
      obtain ⟨v, hv, h1⟩ := h1
      obtain ⟨w, hw, h2⟩ := h2
      exact stmts_same hb hc hss hf.tail (hr.step hs hf.head) ols ors h1 h2
    · next x _ _ _ he =>
      cases he
      obtain ⟨y, cs', st2, rfl, hk, hst⟩ := hs.constItem
      obtain ⟨t', b', s1, rfl, k1, k2⟩ := hk.two
      rw [evalStmts] at h2
      simp only [Option.bind_eq_bind, Option.bind_eq_some_iff] at h1 h2
      obtain ⟨v, hv, h1⟩ := h1
      obtain ⟨w, hw, h2⟩ := h2
      have f1 := hf.head.kids
      have e := hc m _ _ _ _ _ ρ' v w k2 f1.tail.head (hr.step k1 f1.head) (ol.kid (List.mem_cons_of_mem _ List.mem_cons_self))
        (or.kid (List.mem_cons_of_mem _ List.mem_cons_self)) hv hw
      subst e
      have r1 := hr.step hs hf.head
      have ha : Aligned st1 [(Key.item x, v)] [(Key.item y, v)] := .cons (by rw [hst]; simp [St.get, look_cons]) .nil
      have sub : ∀ (nm x : Nat) (cs : List N), ([(Key.item x, v)].map Prod.fst).Sublist (binders (.mk (.constItem nm x) cs)) := by
        intro nm x cs; rw [binders]; exact List.sublist_append_left _ _
      have hh := hf.head
      have hr' := r1.extend ha (sub _ _ _) (sub _ _ _) (by simpa [bindersL_cons, bindersL_nil] using hh.right) (by simpa [bindersL_cons, bindersL_nil] using hh.both)
        (by simpa [bindersL_cons, bindersL_nil] using hh.leftNew) (by simpa [bindersL_cons, bindersL_nil] using hh.rightNew)
      exact stmts_same hb hc hss (hf.extend (sub _ _ _) (sub _ _ _)) hr' ols ors h1 h2
    · cases h1

theorem arms_same {c : Cfg} (hb : c.byRes = false) {I : Interp α} {n m : Nat} (hc : Claim c I n) {v : α} :
    ∀ {as as' : List N} {st st' : St} {ρ ρ' : Env α} {a b : α}, EqvAll c st as as' st' → Fresh ρ ρ' as as' → Rel st ρ ρ' →
      (∀ l ∈ as, Ok I l) → (∀ r ∈ as', Ok I r) → evalArms I n (eval I n) ρ v as = some a → evalArms I m (eval I m) ρ' v as' = some b → a = b
  | [], _, st, st', ρ, ρ', a, b, h, _, _, _, _, h1, _ => by simp [evalArms] at h1
  | x :: as, _, st, st', ρ, ρ', a, b, h, hf, hr, o1, o2, h1, h2 => by
    obtain ⟨x', as', st1, rfl, hx, has⟩ := h.cons'
    have ol := o1 x (by simp)
    have or := o2 x' (by simp)
    have ols : ∀ l ∈ as, Ok I l := fun l hl => o1 l (List.mem_cons_of_mem _ hl)
    have ors : ∀ l ∈ as', Ok I l := fun l hl => o2 l (List.mem_cons_of_mem _ hl)
    unfold evalArms at h1
    split at h1
    · next he =>
      cases he
      obtain ⟨cs', rfl, hk⟩ := hx.arm
      obtain ⟨p', g', b', s1, s2, rfl, k1, k2, k3⟩ := hk.three
      rw [evalArms] at h2
      simp only [Option.bind_eq_bind, Option.bind_eq_some_iff] at h1 h2
      obtain ⟨R, hR, h1⟩ := h1
      obtain ⟨R', hR', h2⟩ := h2
      rcases pat_same hb I k1 hf.kidsHead hr hR hR' with ⟨rfl, rfl⟩ | ⟨bs, bs', rfl, rfl, hF, hr'⟩
      · exact arms_same hb hc has hf.tail (hr.step hx hf.head) ols ors h1 h2
      · simp only at h1 h2
        split at h1
        · obtain ⟨rfl, rfl⟩ := k2.none
          exact hc m _ _ _ _ _ _ _ _ k3 hF.tail.head hr' (ol.kid (by simp)) (or.kid (by simp)) h1 h2
        · obtain ⟨g2, rfl, k2'⟩ := k2.some
          simp only [Option.bind_eq_some_iff] at h1 h2
          obtain ⟨y, hy, h1⟩ := h1
          obtain ⟨y', hy', h2⟩ := h2
          obtain ⟨e1, f1, r1⟩ := cond_same hb hc k2' hF.kidsHead hr'
            ((ol.kid (List.mem_cons_of_mem _ List.mem_cons_self)).kid List.mem_cons_self)
            ((or.kid (List.mem_cons_of_mem _ List.mem_cons_self)).kid List.mem_cons_self) hy hy'
          rw [← e1] at h2
          cases hy1 : y.1 with
          | true =>
            rw [hy1] at h1 h2
            exact hc m _ _ _ _ _ _ _ _ k3 f1.head r1 (ol.kid (by simp)) (or.kid (by simp)) h1 h2
          | false =>
            rw [hy1] at h1 h2
            exact arms_same hb hc has hf.tail (hr.step hx hf.head) ols ors h1 h2
        · cases h1
    · cases h1

/-! ### Expressions -/

/-- A block which is compared as `()` has the value `()`; one which is compared as `return` has none. -/
theorem reduce_eval {I : Interp α} {n : Nat} {ρ : Env α} {e : N} {v : α} (h : eval I n ρ e = some v) :
    reduce e = e ∨ ∃ i, reduce e = .mk (.expr i .tup) [] ∧ I.tup [] = some v := by
  have hret : ∀ n ρ i cs, eval I n ρ (.mk (.expr i .ret) cs) = Option.none := by
    intro n ρ i cs
    cases n with
    | zero => rfl
    | succ n => simp [eval, strictOp]
  cases n with
  | zero => simp [eval] at h
  | succ n =>
    unfold reduce
    split
    · split
      · exact .inl rfl
      · simp only [eval, evalStmts] at h
        exact .inr ⟨_, rfl, h⟩
    · simp [eval, evalStmts, hret] at h
    · simp [eval, evalStmts, hret] at h
    · simp [eval, evalStmts, hret] at h
    · exact .inl rfl

/-- Kinds whose value is an operation on the values of all subexpressions. -/
def EK.strict : EK → Bool
  | .unary _ | .addrOf .. | .field _ | .index | .dropTemps | .tup | .array => true
  | _ => false

theorem strictOp_strict {I : Interp α} {k : EK} {vs : List α} {v : α} (h : strictOp I k vs = some v) : k.strict = true := by
  unfold strictOp at h
  split at h <;> first | rfl | cases h

theorem eval_strict (I : Interp α) (n : Nat) (ρ : Env α) (i : Info) {k : EK} (cs : List N) (h : k.strict = true) :
    eval I (n + 1) ρ (.mk (.expr i k) cs) = (do let vs ← allSome (eval I n ρ) cs; strictOp I k vs) := by
  cases k <;> simp [EK.strict] at h <;> rw [eval] <;> simp

theorem strict_erase {k k' : EK} (h : k.strict = true) (he : k.erase = k'.erase) : k' = k := by
  cases k <;> simp [EK.strict] at h <;> (cases k' with
    | matchE s => cases s <;> simp [EK.erase] at he
    | _ => simp [EK.erase] at he <;> simp [he])

theorem asBool_bind {I : Interp α} {o : Option α} {P : Bool → Option α} {v : α} (h : (do let x ← (← o) |> I.asBool; P x) = some v) :
    ∃ u x, o = some u ∧ I.asBool u = some x ∧ P x = some v := by
  cases o with
  | none => simp at h
  | some u =>
    cases hx : I.asBool u with
    | none => simp [hx] at h
    | some x => exact ⟨u, x, rfl, hx, by simpa [hx] using h⟩

theorem evalBin_and {I : Interp α} {ev : N → Option α} {a b : N} {v : α} (h : evalBin I ev .and a b = some v) :
    ∃ u x, ev a = some u ∧ I.asBool u = some x ∧ ((x = false ∧ v = I.ofBool false) ∨
      (x = true ∧ ∃ w y, ev b = some w ∧ I.asBool w = some y ∧ v = I.ofBool y)) := by
  unfold evalBin at h
  obtain ⟨u, x, h1, h2, h3⟩ := asBool_bind h
  refine ⟨u, x, h1, h2, ?_⟩
  cases x with
  | false => simp at h3; exact .inl ⟨rfl, h3.symm⟩
  | true =>
    simp only [if_true] at h3
    obtain ⟨w, y, h4, h5, h6⟩ := asBool_bind h3
    simp at h6
    exact .inr ⟨rfl, w, y, h4, h5, h6.symm⟩

theorem evalBin_or {I : Interp α} {ev : N → Option α} {a b : N} {v : α} (h : evalBin I ev .or a b = some v) :
    ∃ u x, ev a = some u ∧ I.asBool u = some x ∧ ((x = true ∧ v = I.ofBool true) ∨
      (x = false ∧ ∃ w y, ev b = some w ∧ I.asBool w = some y ∧ v = I.ofBool y)) := by
  unfold evalBin at h
  obtain ⟨u, x, h1, h2, h3⟩ := asBool_bind h
  refine ⟨u, x, h1, h2, ?_⟩
  cases x with
  | true => simp at h3; exact .inl ⟨rfl, h3.symm⟩
  | false =>
    simp only [Bool.false_eq_true, if_false] at h3
    obtain ⟨w, y, h4, h5, h6⟩ := asBool_bind h3
    simp at h6
    exact .inr ⟨rfl, w, y, h4, h5, h6.symm⟩

theorem evalBin_strict {I : Interp α} {ev : N → Option α} {op : BinOp} {a b : N} {v : α} (h1 : op ≠ .and) (h2 : op ≠ .or)
    (h : evalBin I ev op a b = some v) : ∃ u w, ev a = some u ∧ ev b = some w ∧ I.bin op u w = some v := by
  unfold evalBin at h
  split at h
  · exact absurd rfl h1
  · exact absurd rfl h2
  · simp only [Option.bind_eq_bind, Option.bind_eq_some_iff] at h
    obtain ⟨u, hu, w, hw, h⟩ := h
    exact ⟨u, w, hu, hw, h⟩

theorem bin_same {I : Interp α} {ev ev' : N → Option α} {op : BinOp} {a b a' b' : N} {v w : α}
    (ha : ∀ v w, ev a = some v → ev' a' = some w → v = w) (hb : ∀ v w, ev b = some v → ev' b' = some w → v = w)
    (h1 : evalBin I ev op a b = some v) (h2 : evalBin I ev' op a' b' = some w) : v = w := by
  by_cases o1 : op = .and
  · subst o1
    obtain ⟨u, x, e1, e2, h1⟩ := evalBin_and h1
    obtain ⟨u', x', e1', e2', h2⟩ := evalBin_and h2
    have := ha u u' e1 e1'
    subst this
    rw [e2] at e2'; cases e2'
    rcases h1 with ⟨rfl, rfl⟩ | ⟨rfl, z, y, e3, e4, rfl⟩
    · rcases h2 with ⟨_, rfl⟩ | ⟨h, _⟩
      · rfl
      · cases h
    · rcases h2 with ⟨h, _⟩ | ⟨_, z', y', e3', e4', rfl⟩
      · cases h
      · have := hb z z' e3 e3'
        subst this
        rw [e4] at e4'; cases e4'; rfl
  by_cases o2 : op = .or
  · subst o2
    obtain ⟨u, x, e1, e2, h1⟩ := evalBin_or h1
    obtain ⟨u', x', e1', e2', h2⟩ := evalBin_or h2
    have := ha u u' e1 e1'
    subst this
    rw [e2] at e2'; cases e2'
    rcases h1 with ⟨rfl, rfl⟩ | ⟨rfl, z, y, e3, e4, rfl⟩
    · rcases h2 with ⟨_, rfl⟩ | ⟨h, _⟩
      · rfl
      · cases h
    · rcases h2 with ⟨h, _⟩ | ⟨_, z', y', e3', e4', rfl⟩
      · cases h
      · have := hb z z' e3 e3'
        subst this
        rw [e4] at e4'; cases e4'; rfl
  obtain ⟨u, z, e1, e2, h1⟩ := evalBin_strict o1 o2 h1
  obtain ⟨u', z', e1', e2', h2⟩ := evalBin_strict o1 o2 h2
  have := ha u u' e1 e1'
  have := hb z z' e2 e2'
  subst_vars
  rw [h1] at h2
  exact Option.some.inj h2

/-- The operands of `a op b` and `b' op' a'` in exchanged order. -/
theorem swap_same {I : Interp α} {ev ev' : N → Option α} {op op' : BinOp} {p : Bool} {a b a' b' : N} {v w : α} (hs : swapOp p op = some op')
    (hI : Lawful I) (hp : ∀ u z, p = true → op ∈ [.add, .mul, .bitAnd, .bitXor, .bitOr] → ev a = some u → ev b = some z →
      I.bin op u z = I.bin op z u)
    (ha : ∀ v w, ev a = some v → ev' a' = some w → v = w) (hb : ∀ v w, ev b = some v → ev' b' = some w → v = w)
    (h1 : evalBin I ev op a b = some v) (h2 : evalBin I ev' op' b' a' = some w) : v = w := by
  by_cases o1 : op = .and
  · subst o1
    have : op' = .and := by
      cases p <;> simp [swapOp] at hs
      exact hs.symm
    subst this
    obtain ⟨u, x, e1, e2, h1⟩ := evalBin_and h1
    obtain ⟨u', x', e1', e2', h2⟩ := evalBin_and h2
    rcases h1 with ⟨rfl, rfl⟩ | ⟨rfl, z, y, e3, e4, rfl⟩
    · rcases h2 with ⟨_, rfl⟩ | ⟨_, z', y', e3', e4', rfl⟩
      · rfl
      · have := ha u z' e1 e3'
        subst this
        rw [e2] at e4'; cases e4'; rfl
    · have := hb z u' e3 e1'
      subst this
      rw [e4] at e2'; cases e2'
      rcases h2 with ⟨rfl, rfl⟩ | ⟨rfl, z', y', e3', e4', rfl⟩
      · rfl
      · have := ha u z' e1 e3'
        subst this
        rw [e2] at e4'; cases e4'; rfl
  by_cases o2 : op = .or
  · subst o2
    have : op' = .or := by
      cases p <;> simp [swapOp] at hs
      exact hs.symm
    subst this
    obtain ⟨u, x, e1, e2, h1⟩ := evalBin_or h1
    obtain ⟨u', x', e1', e2', h2⟩ := evalBin_or h2
    rcases h1 with ⟨rfl, rfl⟩ | ⟨rfl, z, y, e3, e4, rfl⟩
    · rcases h2 with ⟨_, rfl⟩ | ⟨_, z', y', e3', e4', rfl⟩
      · rfl
      · have := ha u z' e1 e3'
        subst this
        rw [e2] at e4'; cases e4'; rfl
    · have := hb z u' e3 e1'
      subst this
      rw [e4] at e2'; cases e2'
      rcases h2 with ⟨rfl, rfl⟩ | ⟨rfl, z', y', e3', e4', rfl⟩
      · rfl
      · have := ha u z' e1 e3'
        subst this
        rw [e2] at e4'; cases e4'; rfl
  have o3 : op' ≠ .and ∧ op' ≠ .or := by
    cases op <;> cases p <;> simp_all [swapOp] <;> (subst hs; simp)
  obtain ⟨u, z, e1, e2, h1⟩ := evalBin_strict o1 o2 h1
  obtain ⟨z', u', e2', e1', h2⟩ := evalBin_strict o3.1 o3.2 h2
  have := ha u u' e1 e1'
  have := hb z z' e2 e2'
  subst_vars
  cases hf : swapOp false op with
  | some op2 =>
    have : op2 = op' := by
      cases op <;> cases p <;> simp_all [swapOp]
    subst this
    have hl : I.bin op u' z' = I.bin op2 z' u' := by
      obtain ⟨a1, a2, a3, a4⟩ := hI u' z'
      obtain ⟨_, _, b3, b4⟩ := hI z' u'
      cases op <;> simp [swapOp] at hf <;> subst hf
      · exact a1
      · exact a3
      · exact a4
      · exact a2
      · exact b4.symm
      · exact b3.symm
    rw [hl, h2] at h1
    exact (Option.some.inj h1).symm
  | none =>
    have hp1 : p = true := by
      cases p
      · rw [hf] at hs; cases hs
      · rfl
    subst hp1
    have : op ∈ [BinOp.add, .mul, .bitAnd, .bitXor, .bitOr] ∧ op' = op := by
      cases op <;> simp_all [swapOp]
    obtain ⟨hm, rfl⟩ := this
    rw [hp _ _ rfl hm e1 e2, h2] at h1
    exact (Option.some.inj h1).symm

theorem key_some {res : Res} {x : Key} (h : res.key = some x) :
    (∃ i, res = .locl i ∧ x = .var i) ∨ ∃ k i, res = .defn k i ∧ res.item = some (k, i) ∧ k.checked = true ∧ x = .item i := by
  cases res with
  | locl i => simp only [Res.key, Option.some.injEq] at h; exact .inl ⟨i, rfl, h.symm⟩
  | defn k i => cases k <;> simp [Res.key, Res.item] at h <;> exact .inr ⟨_, i, rfl, rfl, rfl, h.symm⟩
  | err => simp [Res.key, Res.item] at h
  | other n => simp [Res.key, Res.item] at h

theorem key_none_item {res : Res} (h : res.key = none) : res.item = none := by
  cases res <;> simp [Res.key, Res.item] at h ⊢
  exact h

/-- Variables, constants, and other names. -/
theorem path_same {c : Cfg} (hb : c.byRes = false) {I : Interp α} {q q' : N} {st st' : St} {ρ ρ' : Env α} {v w : α} (he : Eqv c st q q' st')
    (oq : Ok I q) (oq' : Ok I q') (hr : Rel st ρ ρ')
    (h1 : (match localOf q with | some x => look ρ x | none => (pathKey q).bind I.item) = some v)
    (h2 : (match localOf q' with | some x => look ρ' x | none => (pathKey q').bind I.item) = some w) : v = w := by
  have names : ∀ {ls rs : List Seg}, (c.byRes = false → segsEq c ls rs = true) → ls.map Seg.name = rs.map Seg.name :=
    fun h => segs_names hb (h hb)
  cases hq : localOf q with
  | some x =>
    rw [hq] at h1
    simp only at h1
    obtain ⟨res, ss, cs, rfl, hx⟩ := localOf_some hq
    have k1 := (oq.kid (List.mem_cons_of_mem _ List.mem_cons_self)).here
    cases hq' : localOf q' with
    | some y =>
      rw [hq'] at h2
      simp only at h2
      obtain ⟨res', ss', cs', rfl, hy⟩ := localOf_some hq'
      have k2 := (oq'.kid (List.mem_cons_of_mem _ List.mem_cons_self)).here
      obtain ⟨st1, e1, e2⟩ := he.qResolved
      obtain ⟨_, rfl⟩ := e1.none
      rcases e2.pathNode with ⟨a, b, rfl, rfl, e3, _⟩ | ⟨n, n', ho, hs⟩
      · cases hx; cases hy
        rcases e3 with rfl | e3
        · exact hr.same _ _ _ h1 h2
        · have := hr.mapped _ _ (.var b) h1 (by simp [St.get, e3])
          rw [h2] at this
          exact (Option.some.inj this).symm
      · have k1 := k1 n
        have k2 := k2 n'
        rcases key_some hx with ⟨i, rfl, _⟩ | ⟨k, i, rfl, hi, hc, rfl⟩
        · exact absurd rfl (n i)
        rcases key_some hy with ⟨i, rfl, _⟩ | ⟨k', i', rfl, hi', hc', rfl⟩
        · exact absurd rfl (n' i)
        rw [names hs, ← k2, hi, hi'] at k1
        cases k1
        simp only [resOk, BEq.rfl, hc, Bool.and_self, if_true, Bool.or_eq_true, beq_iff_eq] at ho
        rcases ho with rfl | ho
        · exact hr.same _ _ _ h1 h2
        · have := hr.mapped _ _ (.item i') h1 (by simp [St.get, ho])
          rw [h2] at this
          exact (Option.some.inj this).symm
    | none =>
      rw [hq'] at h2
      simp only [Option.bind_eq_some_iff] at h2
      obtain ⟨p', hp', _⟩ := h2
      obtain ⟨res', ss', cs', rfl, hy, _⟩ := pathKey_some hp'
      have k2 := (oq'.kid (List.mem_cons_of_mem _ List.mem_cons_self)).here
      obtain ⟨st1, _, e2⟩ := he.qResolved
      rcases e2.pathNode with ⟨a, b, _, rfl, _⟩ | ⟨n, n', _, hs⟩
      · exact absurd rfl (key_none hy b)
      · have k1 := k1 n
        have k2 := k2 n'
        rcases key_some hx with ⟨i, rfl, _⟩ | ⟨k, i, rfl, hi, hc, rfl⟩
        · exact absurd rfl (n i)
        rw [names hs, ← k2, hi, key_none_item hy] at k1
        cases k1
  | none =>
    rw [hq] at h1
    simp only [Option.bind_eq_some_iff] at h1
    obtain ⟨p, hp, h1⟩ := h1
    obtain ⟨res, ss, cs, rfl, hx, _⟩ := pathKey_some hp
    have k1 := (oq.kid (List.mem_cons_of_mem _ List.mem_cons_self)).here
    cases hq' : localOf q' with
    | some y =>
      obtain ⟨res', ss', cs', rfl, hy⟩ := localOf_some hq'
      have k2 := (oq'.kid (List.mem_cons_of_mem _ List.mem_cons_self)).here
      obtain ⟨st1, _, e2⟩ := he.qResolved
      rcases e2.pathNode with ⟨a, b, rfl, _⟩ | ⟨n, n', _, hs⟩
      · exact absurd rfl (key_none hx a)
      · have k1 := k1 n
        have k2 := k2 n'
        rcases key_some hy with ⟨i, rfl, _⟩ | ⟨k, i, rfl, hi, hc, rfl⟩
        · exact absurd rfl (n' i)
        rw [names hs, ← k2, hi, key_none_item hx] at k1
        cases k1
    | none =>
      rw [hq'] at h2
      simp only [Option.bind_eq_some_iff] at h2
      obtain ⟨p', hp', h2⟩ := h2
      have := he.pathKey hb hp hp'
      subst this
      rw [h1] at h2
      exact Option.some.inj h2

theorem cast_same {c : Cfg} (hb : c.byRes = false) {t t' : N} {st st' : St} {p p' : List Nat} (he : Eqv c st t t' st')
    (h1 : castTarget t = some p) (h2 : castTarget t' = some p') : p = p' := by
  unfold castTarget at h1
  split at h1
  · obtain ⟨cs', rfl, hk⟩ := he.tPath
    obtain ⟨q', rfl, hq⟩ := hk.one
    exact hq.pathKey hb h1 h2
  · cases h1

theorem match_erase {f : EK} {s : MatchSrc} (h : f.erase = (EK.matchE s).erase) : ∃ s', f = .matchE s' := by
  cases f with
  | matchE s' => exact ⟨s', rfl⟩
  | _ => cases s <;> simp [EK.erase] at h

theorem eval_ifte (I : Interp α) (n : Nat) (ρ : Env α) (i : Info) (c t o : N) : eval I (n + 1) ρ (.mk (.expr i .ifte) [c, t, o]) = (do
      let x ← cond I n (eval I n) ρ c
      if x.1 then eval I n x.2 t
      else match o with
        | .mk .optNone [] => I.tup []
        | .mk .optSome [e] => eval I n ρ e
        | _ => none) := rfl

/-- Two expressions of the same kind with equal subtrees. -/
theorem plain_same {c : Cfg} (hb : c.byRes = false) {I : Interp α} {n m : Nat} (hc : Claim c I n) {lk rk : K} {lcs rcs : List N} {st st' : St}
    {ρ ρ' : Env α} {v w : α} (hh : headEq c lk rk = true) (he : EqvAll c st lcs rcs st') (hf : Fresh ρ ρ' lcs rcs) (hr : Rel st ρ ρ')
    (ol : ∀ x ∈ lcs, Ok I x) (or : ∀ x ∈ rcs, Ok I x) (h1 : eval I (n + 1) ρ (.mk lk lcs) = some v)
    (h2 : eval I (m + 1) ρ' (.mk rk rcs) = some w) : v = w := by
  have ha := headEq_erase hh
  unfold eval at h1
  split at h1
  · next heq =>
    cases heq
    obtain ⟨j, f, rfl, e⟩ := erase_expr ha.symm
    obtain ⟨rfl, rfl⟩ := he.nil'
    obtain ⟨rfl⟩ : f = .lit _ := by
      cases f with
      | matchE s => cases s <;> simp [EK.erase] at e
      | _ => simp [EK.erase] at e <;> (subst e; rfl)
    simp only [eval] at h2
    rw [h1] at h2
    exact Option.some.inj h2
  · next heq =>
    cases heq
    obtain ⟨j, f, rfl, e⟩ := erase_expr ha.symm
    obtain ⟨q', rfl, hq⟩ := he.one
    obtain ⟨rfl⟩ : f = .path := by
      cases f with
      | matchE s => cases s <;> simp [EK.erase] at e
      | _ => simp [EK.erase] at e <;> rfl
    rw [eval] at h2
    exact path_same hb hq (ol _ (by simp)) (or _ (by simp)) hr h1 h2
  · next heq =>
    cases heq
    obtain ⟨j, f, rfl, e⟩ := erase_expr ha.symm
    obtain ⟨a', b', st1, rfl, k1, k2⟩ := he.two
    obtain ⟨rfl⟩ : f = .binary _ := by
      cases f with
      | matchE s => cases s <;> simp [EK.erase] at e
      | _ => simp [EK.erase] at e <;> (subst e; rfl)
    simp only [eval] at h2
    refine bin_same ?_ ?_ h1 h2
    · intro v w hv hw
      exact hc m _ _ _ _ _ _ _ _ k1 hf.head hr (ol _ (by simp)) (or _ (by simp)) hv hw
    · intro v w hv hw
      exact hc m _ _ _ _ _ _ _ _ k2 hf.tail.head (hr.step k1 hf.head) (ol _ (by simp)) (or _ (by simp)) hv hw
  · next heq =>
    cases heq
    obtain ⟨j, f, rfl, e⟩ := erase_expr ha.symm
    obtain ⟨e', t', st1, rfl, k1, k2⟩ := he.two
    obtain ⟨rfl⟩ : f = .cast := by
      cases f with
      | matchE s => cases s <;> simp [EK.erase] at e
      | _ => simp [EK.erase] at e <;> rfl
    simp only [eval] at h2
    simp only [Option.bind_eq_bind, Option.bind_eq_some_iff] at h1 h2
    obtain ⟨u, hu, p, hp, h1⟩ := h1
    obtain ⟨u', hu', p', hp', h2⟩ := h2
    have := hc m _ _ _ _ _ _ _ _ k1 hf.head hr (ol _ (by simp)) (or _ (by simp)) hu hu'
    subst this
    have := cast_same hb k2 hp hp'
    subst this
    rw [h1] at h2
    exact Option.some.inj h2
  · next heq =>
    cases heq
    obtain ⟨j, f, rfl, e⟩ := erase_expr ha.symm
    obtain ⟨b', rfl, k⟩ := he.one
    obtain ⟨lbl, rfl⟩ : ∃ lbl, f = .block lbl := by
      cases f with
      | matchE s => cases s <;> simp [EK.erase] at e
      | _ => simp [EK.erase] at e <;> exact ⟨_, rfl⟩
    obtain ⟨u', t', g', cs', rfl, kb⟩ := k.blk
    obtain ⟨a', o', st1, rfl, k1, k2⟩ := kb.two
    obtain ⟨ss', rfl, k1'⟩ := k1.list
    obtain ⟨rfl, _⟩ := k2.none
    simp only [eval] at h2
    simp only [Option.bind_eq_bind, Option.bind_eq_some_iff] at h1 h2
    obtain ⟨_, _, h1⟩ := h1
    obtain ⟨_, _, h2⟩ := h2
    rw [h1] at h2
    exact Option.some.inj h2
  · next heq =>
    cases heq
    obtain ⟨j, f, rfl, e⟩ := erase_expr ha.symm
    obtain ⟨b', rfl, k⟩ := he.one
    obtain ⟨lbl, rfl⟩ : ∃ lbl, f = .block lbl := by
      cases f with
      | matchE s => cases s <;> simp [EK.erase] at e
      | _ => simp [EK.erase] at e <;> exact ⟨_, rfl⟩
    obtain ⟨u', t', g', cs', rfl, kb⟩ := k.blk
    obtain ⟨a', o', st1, rfl, k1, k2⟩ := kb.two
    obtain ⟨ss', rfl, k1'⟩ := k1.list
    obtain ⟨e2, rfl, k2'⟩ := k2.some
    simp only [eval] at h2
    simp only [Option.bind_eq_bind, Option.bind_eq_some_iff] at h1 h2
    obtain ⟨ρ1, hs1, h1⟩ := h1
    obtain ⟨ρ1', hs2, h2⟩ := h2
    have o1 := ol _ List.mem_cons_self
    have o2 := or _ List.mem_cons_self
    obtain ⟨f1, r1⟩ := stmts_same hb hc k1' hf.kids.kidsHead hr (fun x hx => (o1.kid List.mem_cons_self).kid hx)
      (fun x hx => (o2.kid List.mem_cons_self).kid hx) hs1 hs2
    exact hc m _ _ _ _ _ _ _ _ k2' f1.kids r1 ((o1.kid (List.mem_cons_of_mem _ List.mem_cons_self)).kid List.mem_cons_self)
      ((o2.kid (List.mem_cons_of_mem _ List.mem_cons_self)).kid List.mem_cons_self) h1 h2
  · next heq =>
    cases heq
    obtain ⟨j, f, rfl, e⟩ := erase_expr ha.symm
    obtain ⟨c', t', o', st1, st2, rfl, k1, k2, k3⟩ := he.three
    obtain ⟨rfl⟩ : f = .ifte := by
      cases f with
      | matchE s => cases s <;> simp [EK.erase] at e
      | _ => simp [EK.erase] at e <;> rfl
    rw [eval_ifte] at h2
    simp only [Option.bind_eq_bind, Option.bind_eq_some_iff] at h1 h2
    obtain ⟨x, hx, h1⟩ := h1
    obtain ⟨y, hy, h2⟩ := h2
    obtain ⟨e1, f1, r1⟩ := cond_same hb hc k1 hf hr (ol _ (by simp)) (or _ (by simp)) hx hy
    rw [← e1] at h2
    cases hx1 : x.1 with
    | true =>
      rw [hx1] at h1 h2
      exact hc m _ _ _ _ _ _ _ _ k2 f1.head r1 (ol _ (by simp)) (or _ (by simp)) h1 h2
    | false =>
      rw [hx1] at h1 h2
      simp only [Bool.false_eq_true, if_false] at h1 h2
      have r2 := (hr.step k1 hf.head).step k2 hf.tail.head
      split at h1
      · obtain ⟨rfl, _⟩ := k3.none
        simp only at h2
        rw [h1] at h2
        exact Option.some.inj h2
      · obtain ⟨e3, rfl, k3'⟩ := k3.some
        simp only at h2
        have o1 := ol _ (List.mem_cons_of_mem _ (List.mem_cons_of_mem _ List.mem_cons_self))
        have o2 := or _ (List.mem_cons_of_mem _ (List.mem_cons_of_mem _ List.mem_cons_self))
        exact hc m _ _ _ _ _ _ _ _ k3' hf.tail.tail.kids r2 (o1.kid List.mem_cons_self) (o2.kid List.mem_cons_self) h1 h2
      · cases h1
  · next heq =>
    cases heq
    obtain ⟨j, f, rfl, e⟩ := erase_expr ha.symm
    obtain ⟨s', arms', st1, rfl, k1, k2⟩ := he.cons'
    obtain ⟨src, rfl⟩ := match_erase e
    rw [eval] at h2
    simp only [Option.bind_eq_bind, Option.bind_eq_some_iff] at h1 h2
    obtain ⟨u, hu, h1⟩ := h1
    obtain ⟨u', hu', h2⟩ := h2
    have := hc m _ _ _ _ _ _ _ _ k1 hf.head hr (ol _ (by simp)) (or _ (by simp)) hu hu'
    subst this
    exact arms_same hb hc k2 hf.tail (hr.step k1 hf.head) (fun x hx => ol x (List.mem_cons_of_mem _ hx))
      (fun x hx => or x (List.mem_cons_of_mem _ hx)) h1 h2
  · next heq =>
    cases heq
    obtain ⟨j, f, rfl, e⟩ := erase_expr ha.symm
    simp only [Option.bind_eq_bind, Option.bind_eq_some_iff] at h1
    obtain ⟨vs, hvs, h1⟩ := h1
    have hk := strictOp_strict h1
    have := strict_erase hk e.symm
    subst this
    rw [eval_strict _ _ _ _ _ hk] at h2
    simp only [Option.bind_eq_bind, Option.bind_eq_some_iff] at h2
    obtain ⟨ws, hws, h2⟩ := h2
    have := all_same hc he hf hr ol or hvs hws
    subst this
    rw [h1] at h2
    exact Option.some.inj h2
  · cases h1

theorem claim_all {c : Cfg} (hb : c.byRes = false) {I : Interp α} (hI : Lawful I) : ∀ n, Claim c I n
  | 0 => by intro m l r st st' ρ ρ' v w _ _ _ _ _ h _; simp [eval] at h
  | n + 1 => by
    intro m l r st st' ρ ρ' v w he hf hr ol or h1 h2
    cases m with
    | zero => simp [eval] at h2
    | succ m =>
    have hc := claim_all hb hI n
    have hl := reduce_eval h1
    have hr' := reduce_eval h2
    have fr : Fresh ρ ρ' [reduce l] [reduce r] := by
      refine hf.sub ?_ ?_ <;> (rw [bindersL_cons, bindersL_cons, bindersL_nil, List.append_nil, List.append_nil]; exact binders_reduce _)
    have evl : eval I (n + 1) ρ (reduce l) = some v := by
      rcases hl with e | ⟨i, e, ht⟩
      · rw [e]; exact h1
      · rw [e]; simp [eval, allSome, strictOp, ht]
    have evr : eval I (m + 1) ρ' (reduce r) = some w := by
      rcases hr' with e | ⟨i, e, ht⟩
      · rw [e]; exact h2
      · rw [e]; simp [eval, allSome, strictOp, ht]
    have okl : ∀ x ∈ (reduce l).kids, Ok I x := by
      rcases hl with e | ⟨i, e, ht⟩
      · rw [e]; intro x hx; obtain ⟨k, cs⟩ := l; exact ol.kid hx
      · rw [e]; intro x hx; cases hx
    have okr : ∀ x ∈ (reduce r).kids, Ok I x := by
      rcases hr' with e | ⟨i, e, ht⟩
      · rw [e]; intro x hx; obtain ⟨k, cs⟩ := r; exact or.kid hx
      · rw [e]; intro x hx; cases hx
    cases he.cases with
    | const h hs =>
      obtain ⟨lk, lcs⟩ := l
      obtain ⟨rk, rcs⟩ := r
      cases lk <;> cases rk <;> simp [sameConst] at h
      obtain ⟨⟨e1, e2⟩, e3⟩ := h
      obtain ⟨x, hx⟩ := Option.isSome_iff_exists.mp e2
      have a1 := ol.here.1 x hx _ _ _ h1
      have a2 := or.here.1 x (e3 ▸ hx) _ _ _ h2
      rw [a1, a2, e1]
    | bin i j op ll lr rl rr e1 e2 h =>
      rw [e1] at evl okl fr
      rw [e2] at evr okr fr
      simp only [eval] at evl evr
      obtain ⟨_, _, st1, e3, k1, k2⟩ := h.two
      cases e3
      have f1 := fr.kids
      refine bin_same ?_ ?_ evl evr
      · intro v w hv hw
        exact hc m _ _ _ _ _ _ _ _ k1 f1.head hr (okl _ (by simp [N.kids])) (okr _ (by simp [N.kids])) hv hw
      · intro v w hv hw
        exact hc m _ _ _ _ _ _ _ _ k2 f1.tail.head (hr.step k1 f1.head) (okl _ (by simp [N.kids])) (okr _ (by simp [N.kids])) hv hw
    | swap i j lo ro ll lr rl rr e1 e2 hs st1 hfr h =>
      have e1' := e1
      rw [e1] at evl okl fr
      rw [e2] at evr okr fr
      simp only [eval] at evl evr
      obtain ⟨_, _, st2, e3, k1, k2⟩ := h.two
      cases e3
      have f1 := fr.kids
      have r1 : Rel st1 ρ ρ' := hr.frame hfr (fun x hx => (f1.leftNew x hx).1)
      have r2 := r1.step k1 (f1.pick (by simp) (by simp))
      have hll : l = .mk (.expr i (.binary lo)) [ll, lr] := by
        rcases hl with e | ⟨i', e, _⟩
        · rw [← e1']; exact e.symm
        · rw [e1'] at e; cases e
      subst hll
      refine swap_same hs hI ?_ ?_ ?_ evl evr
      · intro u z hp hm hu hz
        exact ol.here.2.2 lo ll lr rfl rfl hp hm n n ρ ρ u z hu hz
      · intro v w hv hw
        exact hc m _ _ _ _ _ _ _ _ k2 (f1.pick (by simp) (by simp)) r2 (okl _ (by simp [N.kids])) (okr _ (by simp [N.kids])) hv hw
      · intro v w hv hw
        exact hc m _ _ _ _ _ _ _ _ k1 (f1.pick (by simp) (by simp)) r1 (okl _ (by simp [N.kids])) (okr _ (by simp [N.kids])) hv hw
    | var x y _ _ _ _ e1 => rw [e1] at evl; simp [eval] at evl
    | path _ _ _ _ _ _ e1 => rw [e1] at evl; simp [eval] at evl
    | zip b lq rq lcs rcs e1 =>
      rcases zipOf_some e1 with ⟨ns, e⟩ | e <;> (rw [e] at evl; simp [eval] at evl)
    | plain hh st1 hk hs =>
      generalize reduce l = l1 at *
      generalize reduce r = r1 at *
      obtain ⟨lk, lcs⟩ := l1
      obtain ⟨rk, rcs⟩ := r1
      exact plain_same hb hc hh hk fr.kids hr okl okr evl evr

/-- Two expressions which are found equal, with the names compared as they are written, have the same value whenever both have one: in every
interpretation of literals, constants and operators in which comparisons are symmetric and what is known about constants and primitive types
holds, and for all values of the variables.

Partial: expressions without side effects as in `eval`; that one of them has a value doesn't mean that the other has one
(`Witness.equal_not_defined`). -/
theorem equal_value_partial (c : Cfg) (hb : c.byRes = false) (I : Interp α) (hI : Lawful I) (l r : N) (ρ : Env α)
    (he : Equal c l r) (ol : Ok I l) (or : Ok I r) (hf : Fresh ρ ρ [l] [r]) (n m : Nat) (v w : α)
    (h1 : eval I n ρ l = some v) (h2 : eval I m ρ r = some w) : v = w := by
  obtain ⟨k, hk⟩ := he
  refine claim_all hb hI n m l r St.init (eqN c k St.init l r).2 ρ ρ v w ⟨k, Prod.ext hk rfl⟩ hf ⟨?_, ?_⟩ ol or h1 h2
  · intro x u u' e1 e2; rw [e1] at e2; exact Option.some.inj e2
  · intro x u y _ e; cases x <;> simp [St.get, St.init, look_nil] at e

end Verif.HirEq
