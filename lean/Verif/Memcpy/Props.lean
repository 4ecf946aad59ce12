import Verif.Memcpy.Lists

/-!
# The suggestion does what the loop does
-/

namespace Verif.Memcpy

/-! ### Counters are incremented once, after their last use -/

theorem foldl_dont : ∀ os : List Occ, os.foldl VarState.step .dontWarn = .dontWarn
  | [] => rfl
  | o :: os => by cases o <;> exact foldl_dont os

theorem foldl_once : ∀ (os : List Occ) (s : VarState), os.foldl VarState.step s = .incrOnce →
    (s = .incrOnce ∧ os = []) ∨ (s = .initial ∧ ∃ us x, os = us ++ [.inc x] ∧ ∀ o ∈ us, ∃ y, o = .use y)
  | [], s, h => by simp only [List.foldl_nil] at h; exact .inl ⟨h, rfl⟩
  | o :: os, s, h => by
    simp only [List.foldl_cons] at h
    rcases foldl_once os _ h with ⟨h1, rfl⟩ | ⟨h1, us, x, rfl, h3⟩
    · cases s <;> cases o <;> simp [VarState.step] at h1
      exact .inr ⟨rfl, [], _, rfl, by simp⟩
    · cases s <;> cases o <;> simp [VarState.step] at h1
      rename_i y
      refine .inr ⟨rfl, .use y :: us, x, rfl, ?_⟩
      intro o ho
      rcases List.mem_cons.mp ho with rfl | ho
      · exact ⟨y, rfl⟩
      · exact h3 o ho

/-- How often `x += 1` occurs. -/
def cnt (x : Nat) (b : List Stmt) : Nat := b.count (.incr x)

theorem occs_inc (x : Nat) : ∀ b : List Stmt, (b.flatMap Stmt.occs).count (.inc x) = cnt x b
  | [] => rfl
  | s :: b => by
    rw [List.flatMap_cons, List.count_append, occs_inc x b]
    simp only [cnt, List.count_cons]
    cases s with
    | assign l r =>
      have : List.count (Occ.inc x) (Stmt.occs (.assign l r)) = 0 := by
        rw [List.count_eq_zero]
        simp [Stmt.occs]
      simp [this]
    | incr y => simp [Stmt.occs, List.count_cons]; omega
    | _ => simp [Stmt.occs, List.count_cons]

theorem counter_occs {L : Loop} {x : Nat} {a : A} (h : L.counter x = some a) :
    L.init x = some a ∧ ∃ us y, (L.body.flatMap Stmt.occs).filter (fun o => o.var == x) = us ++ [.inc y] ∧ ∀ o ∈ us, ∃ y, o = .use y := by
  simp only [Loop.counter] at h
  split at h
  · next hv =>
    refine ⟨h, ?_⟩
    rcases foldl_once _ _ hv with ⟨h1, _⟩ | ⟨_, h2⟩
    · cases h1
    · exact h2
  · cases h

theorem counter_once {L : Loop} {x : Nat} {a : A} (h : L.counter x = some a) : cnt x L.body = 1 := by
  obtain ⟨_, us, y, hf, hu⟩ := counter_occs h
  have hy : y = x := by
    have : Occ.inc y ∈ (L.body.flatMap Stmt.occs).filter (fun o => o.var == x) := by rw [hf]; simp
    have := (List.mem_filter.mp this).2
    simpa [Occ.var] using this
  subst hy
  rw [← occs_inc, ← List.count_filter (p := fun o => o.var == y) (by simp [Occ.var]), hf, List.count_append]
  have : us.count (.inc y) = 0 := by
    rw [List.count_eq_zero]
    intro hm
    obtain ⟨z, hz⟩ := hu _ hm
    cases hz
  simp [this]

/-- A counter isn't used after it has been incremented. -/
theorem counter_unused {L : Loop} {x : Nat} {a : A} (h : L.counter x = some a) {b1 b2 : List Stmt} {l r : Place}
    (hb : L.body = b1 ++ .assign l r :: b2) (hx : x ∈ l.vars ∨ x ∈ r.vars) : cnt x b1 = 0 := by
  obtain ⟨_, us, y, hf, hu⟩ := counter_occs h
  rw [hb, List.flatMap_append, List.flatMap_cons, List.filter_append, List.filter_append] at hf
  have hmem : Occ.use x ∈ (Stmt.occs (.assign l r)).filter (fun o => o.var == x) := by
    rw [List.mem_filter]
    refine ⟨?_, by simp [Occ.var]⟩
    simp only [Stmt.occs, List.mem_map, List.mem_append]
    exact ⟨x, hx.symm, rfl⟩
  have hpre : ∀ o ∈ (b1.flatMap Stmt.occs).filter (fun o => o.var == x), ∃ y, o = Occ.use y := by
    obtain ⟨t, ht⟩ := List.append_of_mem hmem
    obtain ⟨t2, ht⟩ := ht
    rw [ht] at hf
    intro o ho
    rcases List.append_eq_append_iff.mp hf with ⟨c, hc1, hc2⟩ | ⟨c, hc1, hc2⟩
    · exact hu o (by rw [hc1]; simp [ho])
    · cases c with
      | nil => exact hu o (by rw [List.append_nil] at hc1; rw [← hc1]; exact ho)
      | cons z c =>
        have := congrArg List.length hc2
        simp at this
  rw [← occs_inc, List.count_eq_zero]
  intro hm
  obtain ⟨z, hz⟩ := hpre (.inc x) (List.mem_filter.mpr ⟨hm, by simp [Occ.var]⟩)
  cases hz

/-! ### Evaluation -/

theorem at_congr {α : Type} {σ σ' : St α} : ∀ b : Base, (∀ x ∈ b.vars, σ'.vars x = σ.vars x) → b.at σ' = b.at σ
  | .loc _, _ => rfl
  | .other k xs, h => by
    simp only [Base.at, Loc.other.injEq, true_and]
    exact List.map_congr_left h

/-- An expression has the same value if variables and lengths are the same. -/
theorem eval_congr {α : Type} {E : Env} {σ σ' : St α} (hv : σ'.vars = σ.vars) (hl : ∀ l, (σ'.mem l).length = (σ.mem l).length) :
    ∀ a : A, a.eval E σ' = a.eval E σ
  | .lit _ | .const _ | .atom _ | .neg _ => rfl
  | .var x => by simp only [A.eval, hv]
  | .len b => by simp only [A.eval, hl, at_congr b (fun x _ => congrFun hv x)]
  | .add a b => by simp only [A.eval, eval_congr hv hl a, eval_congr hv hl b]
  | .sub a b => by simp only [A.eval, eval_congr hv hl a, eval_congr hv hl b]

theorem isZero_eval {α : Type} {E : Env} {σ : St α} {a : A} (h : a.isZero = true) : a.eval E σ = some 0 := by
  cases a <;> simp_all [A.isZero, A.eval]

theorem eval_add {α : Type} {E : Env} {σ : St α} {a b : A} {v : Nat} (h : (A.add a b).eval E σ = some v) :
    ∃ x y, a.eval E σ = some x ∧ b.eval E σ = some y ∧ v = x + y := by
  simp only [A.eval, Option.bind_eq_bind, Option.bind_eq_some_iff] at h
  obtain ⟨x, hx, y, hy, h⟩ := h
  split at h
  · cases h; exact ⟨x, y, hx, hy, rfl⟩
  · cases h

theorem eval_sub {α : Type} {E : Env} {σ : St α} {a b : A} {v : Nat} (h : (A.sub a b).eval E σ = some v) :
    ∃ x y, a.eval E σ = some x ∧ b.eval E σ = some y ∧ v + y = x := by
  simp only [A.eval, Option.bind_eq_bind, Option.bind_eq_some_iff] at h
  obtain ⟨x, hx, y, hy, h⟩ := h
  split at h
  · next hle => cases h; exact ⟨x, y, hx, hy, by omega⟩
  · cases h

theorem eval_mAdd {α : Type} {E : Env} {σ : St α} {a b : A} {v : Nat} (h : (mAdd a b).eval E σ = some v) :
    ∃ x y, a.eval E σ = some x ∧ b.eval E σ = some y ∧ v = x + y := by
  unfold mAdd at h
  split at h
  · next hz => exact ⟨0, v, isZero_eval hz, h, by omega⟩
  · split at h
    · next hz => exact ⟨v, 0, h, isZero_eval hz, by omega⟩
    · exact eval_add h

theorem eval_mSub {α : Type} {E : Env} {σ : St α} {a b : A} {v y : Nat} (h : (mSub a b).eval E σ = some v) (hb : b.eval E σ = some y) :
    a.eval E σ = some (v + y) := by
  unfold mSub at h
  split at h
  · next hz => rw [isZero_eval hz] at hb; cases hb; simpa using h
  · split at h
    · simp [A.eval] at h
    · split at h
      · next he => subst he; simp only [A.eval, Option.some.injEq] at h; subst h; simpa using hb
      · obtain ⟨x, y', hx, hy, rfl⟩ := eval_sub h
        rw [hb] at hy; cases hy
        exact hx

/-! ### First indices -/

/-- Where a start is in the first round. -/
def Start.val {α : Type} (σ : St α) (s : Nat) : Start → Nat
  | .range => s
  | .counter x _ => σ.vars x

/-- The first index. -/
def Idx.first {α : Type} (E : Env) (σ : St α) (s : Nat) (i : Idx) : Nat :=
  if i.offset.neg then i.start.val σ s - (i.offset.value.eval E σ).getD 0 else i.start.val σ s + (i.offset.value.eval E σ).getD 0

/-- The first index isn't negative. -/
def Idx.Ok {α : Type} (E : Env) (σ : St α) (s : Nat) (i : Idx) : Prop :=
  i.offset.neg = true → (i.offset.value.eval E σ).getD 0 ≤ i.start.val σ s

/-- The copy of an assignment. -/
def toP {α : Type} (E : Env) (σ : St α) (s : Nat) (q : Idx × Idx) : P :=
  ⟨q.1.base.at σ, q.2.base.at σ, q.1.first E σ s, q.2.first E σ s⟩

/-- Variables after some rounds and a part of the body. -/
structure Rel {α : Type} (L : Loop) (σ : St α) (s j : Nat) (b1 : List Stmt) (σ' : St α) : Prop where
  iv : σ'.vars L.var = s + j
  cnt : ∀ x a, L.counter x = some a → σ'.vars x = σ.vars x + j + cnt x b1
  other : ∀ x, x ≠ L.var → L.counter x = none → σ'.vars x = σ.vars x
  log : σ'.log = σ.log

theorem details_start {L : Loop} {a : A} {st : Start} {o : Offset} (h : L.details a = some (st, o)) :
    ∃ x, x ∈ a.vars ∧ L.getStart (.var x) = some st ∧ L.getOffset o.value = some o.value ∧
      ((o.neg = false ∧ (a = .add (.var x) o.value ∨ a = .add o.value (.var x) ∨ (a = .var x ∧ o.value = .lit 0))) ∨
       (o.neg = true ∧ a = .sub (.var x) o.value)) := by
  have hs : ∀ {a : A} {st : Start}, L.getStart a = some st → ∃ x, a = .var x := by
    intro a st h
    cases a <;> simp [Loop.getStart] at h
    exact ⟨_, rfl⟩
  have ho : ∀ {a o : A}, L.getOffset a = some o → o = a := by
    intro a o h
    cases a <;> simp [Loop.getOffset] at h
    · exact h.symm
    · exact h.2.symm
    · exact h.symm
  unfold Loop.details at h
  split at h
  · next l r =>
    split at h
    · next s' o' e1 e2 =>
      cases h
      obtain ⟨x, rfl⟩ := hs e1
      have := ho e2; subst this
      exact ⟨x, by simp [A.vars], e1, e2, .inl ⟨rfl, .inl rfl⟩⟩
    · split at h
      · next s' o' e1 e2 =>
        cases h
        obtain ⟨x, rfl⟩ := hs e1
        have := ho e2; subst this
        exact ⟨x, by simp [A.vars], e1, e2, .inl ⟨rfl, .inr (.inl rfl)⟩⟩
      · cases h
  · next l r =>
    split at h
    · next s' o' e1 e2 =>
      cases h
      obtain ⟨x, rfl⟩ := hs e1
      have := ho e2; subst this
      exact ⟨x, by simp [A.vars], e1, e2, .inr ⟨rfl, rfl⟩⟩
    · cases h
  · next x =>
    cases hst : L.getStart (.var x) with
    | none => rw [hst] at h; cases h
    | some s' =>
      rw [hst] at h; cases h
      exact ⟨x, by simp [A.vars], hst, rfl, .inl ⟨rfl, .inr (.inr ⟨rfl, rfl⟩)⟩⟩
  · cases h

/-- An offset has the same value in all rounds. -/
theorem offset_eval {α : Type} {L : Loop} {E : Env} {σ σ' : St α} {s j : Nat} {b1 : List Stmt} (hR : Rel L σ s j b1 σ') {a : A}
    (h : L.getOffset a = some a) : ∃ o, a.eval E σ = some o ∧ a.eval E σ' = some o := by
  cases a <;> simp [Loop.getOffset] at h
  · exact ⟨_, rfl, rfl⟩
  · next x =>
    simp only [Loop.getStart] at h
    split at h
    · cases h
    · next hx =>
      simp only [Option.map_eq_none_iff] at h
      exact ⟨_, rfl, by simp only [A.eval, hR.other x hx h]⟩
  · exact ⟨_, rfl, rfl⟩

/-- The index in a round. -/
theorem details_eval {α : Type} {L : Loop} {E : Env} {σ σ' : St α} {s j : Nat} {b1 : List Stmt} (hR : Rel L σ s j b1 σ') {a : A} {b : Base}
    {st : Start} {o : Offset} (h : L.details a = some (st, o)) (hu : ∀ x c, x ∈ a.vars → L.counter x = some c → cnt x b1 = 0) {v : Nat}
    (hv : a.eval E σ' = some v) :
    (j ≥ 1 → Idx.Ok E σ s ⟨b, st, o⟩) → Idx.Ok E σ s ⟨b, st, o⟩ ∧ v = Idx.first E σ s ⟨b, st, o⟩ + j := by
  obtain ⟨x, hx, hst, hof, hc⟩ := details_start h
  obtain ⟨k, hk1, hk2⟩ := offset_eval (E := E) hR hof
  have hval : σ'.vars x = st.val σ s + j := by
    simp only [Loop.getStart] at hst
    split at hst
    · next he => cases hst; rw [he]; exact hR.iv
    · obtain ⟨c, hc1, hc2⟩ := Option.map_eq_some_iff.mp hst
      subst hc2
      rw [hR.cnt x c hc1, hu x c hx hc1]
      rfl
  intro hok
  simp only [Idx.Ok, Idx.first, hk1, Option.getD_some] at hok ⊢
  rcases hc with ⟨hn, hc⟩ | ⟨hn, rfl⟩
  · simp only [hn, Bool.false_eq_true, if_false, false_implies, true_and]
    rcases hc with rfl | rfl | ⟨rfl, h0⟩
    · obtain ⟨p, q, hp, hq, rfl⟩ := eval_add hv
      simp only [A.eval, Option.some.injEq] at hp
      rw [hk2] at hq; cases hq
      omega
    · obtain ⟨p, q, hp, hq, rfl⟩ := eval_add hv
      simp only [A.eval, Option.some.injEq] at hq
      rw [hk2] at hp; cases hp
      omega
    · rw [h0] at hk1
      simp only [A.eval, Option.some.injEq] at hv hk1
      omega
  · simp only [hn, forall_const, if_true] at hok ⊢
    obtain ⟨p, q, hp, hq, hpq⟩ := eval_sub hv
    simp only [A.eval, Option.some.injEq] at hp
    rw [hk2] at hq; cases hq
    by_cases hj : j ≥ 1
    · have := hok hj
      exact ⟨this, by omega⟩
    · have : j = 0 := by omega
      subst this
      omega

/-! ### The loop -/

/-- What is known about a copy of which `n` elements have been copied. -/
def Good {α : Type} (E : Env) (σ : St α) (s : Nat) (q : Idx × Idx) (n : Nat) : Prop :=
  n ≥ 1 → q.1.Ok E σ s ∧ q.2.Ok E σ s ∧ q.1.first E σ s + n ≤ (σ.mem (q.1.base.at σ)).length ∧ q.2.first E σ s + n ≤ (σ.mem (q.2.base.at σ)).length

/-- The memory when `n` elements of the first copies and `m` of the others have been copied. -/
def mix {α : Type} (E : Env) (σ : St α) (s : Nat) (qs1 : List (Idx × Idx)) (n : Nat) (qs2 : List (Idx × Idx)) (m : Nat) : Loc → List α :=
  eff σ.mem ((qs1.map (toP E σ s)).map (fun p => (p, n)) ++ (qs2.map (toP E σ s)).map (fun p => (p, m)))

theorem mix_next {α : Type} (E : Env) (σ : St α) (s : Nat) (qs1 qs2 : List (Idx × Idx)) (q : Idx × Idx) (n m : Nat)
    (hi : Indep ((qs1 ++ q :: qs2).map (toP E σ s))) :
    mix E σ s qs1 n (q :: qs2) m (q.2.base.at σ) = σ.mem (q.2.base.at σ) ∧
    mix E σ s qs1 n (q :: qs2) m (q.1.base.at σ) =
      splice (σ.mem (q.1.base.at σ)) (q.1.first E σ s) (σ.mem (q.2.base.at σ)) (q.2.first E σ s) m ∧
    setMem (mix E σ s qs1 n (q :: qs2) m) (q.1.base.at σ)
      (splice (σ.mem (q.1.base.at σ)) (q.1.first E σ s) (σ.mem (q.2.base.at σ)) (q.2.first E σ s) n) =
      mix E σ s (qs1 ++ [q]) n qs2 m := by
  rw [List.map_append, List.map_cons] at hi
  obtain ⟨h1, h2, h3⟩ := hi.split
  have h2' : ∀ p ∈ (qs1.map (toP E σ s)).map (fun p => (p, n)), p.1.dst ≠ (toP E σ s q).dst := fun p hp => h2 _ (map_fst_mem hp)
  refine ⟨?_, ?_, ?_⟩
  · apply eff_other
    intro p hp
    rcases List.mem_append.mp hp with hp | hp
    · exact h1 p.1 (by simp [map_fst_mem hp])
    · refine h1 p.1 (List.mem_append_right _ ?_)
      have := map_fst_mem hp
      simpa using this
  · simp only [mix, List.map_cons]
    exact eff_at σ.mem (toP E σ s q) m _ _ h2'
  · have := eff_set σ.mem (toP E σ s q) m ((qs2.map (toP E σ s)).map (fun p => (p, m))) n _ h2'
    simp only [mix, List.map_cons, List.map_append, List.append_assoc, List.map_nil, List.cons_append, List.nil_append]
    exact this

theorem pairs_incr {L : Loop} : ∀ {ss : List Stmt} {qs : List (Idx × Idx)}, L.pairs ss = some qs → ∀ x, .incr x ∈ ss → (L.counter x).isSome = true
  | [], _, _, _, hx => by simp at hx
  | s :: ss, qs, h, x, hx => by
    cases s with
    | letS k => exact pairs_incr (ss := ss) h x (by simpa using hx)
    | opPlace k => exact pairs_incr (ss := ss) h x (by simpa using hx)
    | other k => simp [Loop.pairs] at h
    | opLocal y =>
      simp only [Loop.pairs] at h
      split at h
      · exact pairs_incr (ss := ss) h x (by simpa using hx)
      · cases h
    | incr y =>
      simp only [Loop.pairs] at h
      split at h
      · next hc =>
        rcases List.mem_cons.mp hx with e | hx
        · cases e; exact hc
        · exact pairs_incr (ss := ss) h x hx
      · cases h
    | assign l r =>
      simp only [Loop.pairs] at h
      split at h
      · next e1 e2 => exact pairs_incr (ss := ss) e2 x (by simpa using hx)
      · cases h

theorem pair_inv {L : Loop} {l r : Place} {q : Idx × Idx} (h : L.pair l r = some q) :
    ∃ il ir, l = .index q.1.base il ∧ r = .index q.2.base ir ∧ L.details il = some (q.1.start, q.1.offset) ∧
      L.details ir = some (q.2.start, q.2.offset) ∧ L.var ∉ q.1.base.vars ∧ L.var ∉ q.2.base.vars ∧ q.1.base.resLocal ≠ q.2.base.resLocal := by
  unfold Loop.pair at h
  split at h
  · next bl il br ir =>
    split at h
    · next sl ol sr or e1 e2 =>
      split at h
      · cases h
      · next hn =>
        cases h
        simp only [not_or] at hn
        exact ⟨il, ir, rfl, rfl, e1, e2, hn.1, hn.2.1, hn.2.2⟩
    · cases h
  · cases h

/-- One round, from the middle of the body on. -/
theorem body_run {α : Type} {L : Loop} {E : Env} {σ : St α} {s j : Nat} {all : List (Idx × Idx)} (hp : L.pairs L.body = some all)
    (hv : L.init L.var = none) (hf : L.FixedBases) (ho : L.OnlyCopies) (hi : Indep (all.map (toP E σ s))) :
    ∀ (b2 b1 : List Stmt) (qs1 qs2 : List (Idx × Idx)) (σ' σ'' : St α), L.body = b1 ++ b2 → L.pairs b2 = some qs2 → all = qs1 ++ qs2 →
    Rel L σ s j b1 σ' → σ'.mem = mix E σ s qs1 (j + 1) qs2 j → (∀ q ∈ qs1, Good E σ s q (j + 1)) → (∀ q ∈ qs2, Good E σ s q j) →
    runBody E b2 σ' = some σ'' →
    Rel L σ s j L.body σ'' ∧ σ''.mem = mix E σ s all (j + 1) [] 0 ∧ ∀ q ∈ all, Good E σ s q (j + 1)
  | [], b1, qs1, qs2, σ', σ'', hb, hq, ha, hR, hm, hg1, hg2, hrun => by
    simp only [Loop.pairs, Option.some.injEq] at hq
    subst hq
    rw [List.append_nil] at hb ha
    subst ha
    cases hrun
    rw [hb]
    refine ⟨hR, ?_, hg1⟩
    rw [hm]; rfl
  | .letS k :: b2, b1, qs1, qs2, σ', σ'', hb, _, _, _, _, _, _, _ => by
    rcases ho (.letS k) (by rw [hb]; simp) with ⟨l, r, e⟩ | ⟨x, e⟩ <;> cases e
  | .opPlace k :: b2, b1, qs1, qs2, σ', σ'', hb, _, _, _, _, _, _, _ => by
    rcases ho (.opPlace k) (by rw [hb]; simp) with ⟨l, r, e⟩ | ⟨x, e⟩ <;> cases e
  | .opLocal k :: b2, b1, qs1, qs2, σ', σ'', hb, _, _, _, _, _, _, _ => by
    rcases ho (.opLocal k) (by rw [hb]; simp) with ⟨l, r, e⟩ | ⟨x, e⟩ <;> cases e
  | .other k :: b2, b1, qs1, qs2, σ', σ'', hb, _, _, _, _, _, _, _ => by
    rcases ho (.other k) (by rw [hb]; simp) with ⟨l, r, e⟩ | ⟨x, e⟩ <;> cases e
  | .incr x :: b2, b1, qs1, qs2, σ', σ'', hb, hq, ha, hR, hm, hg1, hg2, hrun => by
    have hc := pairs_incr hp x (by rw [hb]; simp)
    have hxv : x ≠ L.var := by
      rintro rfl
      obtain ⟨c, hc⟩ := Option.isSome_iff_exists.mp hc
      rw [(counter_occs hc).1] at hv
      cases hv
    simp only [Loop.pairs, hc, if_true] at hq
    simp only [runBody, Stmt.run, Option.bind_eq_bind] at hrun
    split at hrun
    · simp only [Option.bind_some] at hrun
      refine body_run hp hv hf ho hi b2 (b1 ++ [.incr x]) qs1 qs2 _ σ'' (by simp [hb]) hq ha ?_ ?_ hg1 hg2 hrun
      · refine ⟨?_, ?_, ?_, hR.log⟩
        · simp only [if_neg (Ne.symm hxv)]; exact hR.iv
        · intro y a hy
          have := hR.cnt y a hy
          simp only [cnt, List.count_append, List.count_cons, List.count_nil] at this ⊢
          by_cases hyx : y = x
          · subst hyx; simp [this]; omega
          · rw [if_neg hyx, this]
            have hne : ((Stmt.incr x == Stmt.incr y) = true) = False := by
              simp only [beq_iff_eq, Stmt.incr.injEq, eq_iff_iff, iff_false]; exact fun h => hyx h.symm
            simp [hne]
        · intro y hy hn
          have hyx : y ≠ x := by rintro rfl; rw [hn] at hc; cases hc
          simp only [if_neg hyx]; exact hR.other y hy hn
      · exact hm
    · cases hrun
  | .assign l r :: b2, b1, qs1, qs2, σ', σ'', hb, hq, ha, hR, hm, hg1, hg2, hrun => by
    simp only [Loop.pairs] at hq
    split at hq
    · next q qs e1 e2 =>
      cases hq
      obtain ⟨il, ir, rfl, rfl, d1, d2, v1, v2, _⟩ := pair_inv e1
      have hmem : Stmt.assign (.index q.1.base il) (.index q.2.base ir) ∈ L.body := by rw [hb]; simp
      have hfix := hf _ hmem (q.1.base, q.2.base) (by simp [Stmt.sides])
      have hcnt : ∀ y a, L.counter y = some a → Stmt.incr y ∈ L.body := by
        intro y a hy
        have := counter_once hy
        exact List.count_pos_iff.mp (by simp only [cnt] at this; omega)
      have hat : ∀ b : Base, L.var ∉ b.vars → (∀ x, .incr x ∈ L.body → x ∉ b.vars) → b.at σ' = b.at σ := by
        intro b hb1 hb2
        apply at_congr
        intro y hy
        refine hR.other y (fun e => hb1 (e ▸ hy)) ?_
        cases hcy : L.counter y with
        | none => rfl
        | some a => exact absurd hy (hb2 y (hcnt y a hcy))
      have hat1 := hat q.1.base v1 (fun x hx => (hfix x hx).1)
      have hat2 := hat q.2.base v2 (fun x hx => (hfix x hx).2)
      rw [ha] at hi
      obtain ⟨m1, m2, m3⟩ := mix_next E σ s qs1 qs q (j + 1) j hi
      simp only [runBody, Stmt.run, Option.bind_eq_bind, Option.bind_eq_some_iff] at hrun
      obtain ⟨σ1, ⟨vr, hvr, w, hw, vl, hvl, hrun1⟩, hrun2⟩ := hrun
      split at hrun1
      · next hlt =>
        cases hrun1
        rw [hat1, hm, m2] at hlt
        rw [hat2, hm, m1] at hw
        have hgq := hg2 q (by simp)
        have huse : ∀ (x : Nat) (c : A), x ∈ il.vars ∨ x ∈ ir.vars → L.counter x = some c → cnt x b1 = 0 := by
          intro x c hx hc
          refine counter_unused hc hb ?_
          simp only [Place.vars, List.mem_append]
          rcases hx with h | h
          · exact .inl (.inr h)
          · exact .inr (.inr h)
        obtain ⟨ok1, rfl⟩ := details_eval (b := q.1.base) hR d1 (fun x c hx hc => huse x c (.inl hx) hc) hvl (fun hj => (hgq hj).1)
        obtain ⟨ok2, rfl⟩ := details_eval (b := q.2.base) hR d2 (fun x c hx hc => huse x c (.inr hx) hc) hvr (fun hj => (hgq hj).2.1)
        change q.1.Ok E σ s at ok1
        change q.2.Ok E σ s at ok2
        change (σ.mem (q.2.base.at σ))[q.2.first E σ s + j]? = some w at hw
        have hw' := (List.getElem?_eq_some_iff.mp hw).1
        have hlen : (splice (σ.mem (q.1.base.at σ)) (q.1.first E σ s) (σ.mem (q.2.base.at σ)) (q.2.first E σ s) j).length =
            (σ.mem (q.1.base.at σ)).length := by
          by_cases hj : j ≥ 1
          · exact splice_length (hgq hj).2.2.1 (hgq hj).2.2.2
          · have : j = 0 := by omega
            subst this; rw [splice_zero]
        rw [hlen] at hlt
        change q.1.first E σ s + j < _ at hlt
        have hset := splice_set (xs := σ.mem (q.1.base.at σ)) hlt hw
        refine body_run hp hv hf ho (ha ▸ hi) b2 (b1 ++ [.assign (.index q.1.base il) (.index q.2.base ir)]) (qs1 ++ [q]) qs _ σ''
          (by simp [hb]) e2 (by simp [ha]) ?_ ?_ ?_ (fun q' hq' => hg2 q' (by simp [hq'])) hrun2
        · refine ⟨hR.iv, ?_, hR.other, hR.log⟩
          intro y a hy
          have := hR.cnt y a hy
          simp only [cnt, List.count_append, List.count_cons, List.count_nil] at this ⊢
          simp [this]
        · rw [← m3, ← hset]
          simp only [hat1, hm, m2]
        · intro q' hq'
          rcases List.mem_append.mp hq' with hq' | hq'
          · exact hg1 q' hq'
          · rw [List.mem_singleton] at hq'
            subst hq'
            intro _
            exact ⟨ok1, ok2, by omega, by omega⟩
      · cases hrun1
    · cases hq

/-- All rounds. -/
theorem rounds_run {α : Type} {L : Loop} {E : Env} {σ : St α} {s : Nat} {all : List (Idx × Idx)} (hp : L.pairs L.body = some all)
    (hv : L.init L.var = none) (hf : L.FixedBases) (ho : L.OnlyCopies) (hi : Indep (all.map (toP E σ s))) :
    ∀ (n j : Nat) (σ' σ'' : St α), (∀ x a, L.counter x = some a → σ'.vars x = σ.vars x + j) →
    (∀ x, x ≠ L.var → L.counter x = none → σ'.vars x = σ.vars x) → σ'.log = σ.log → σ'.mem = mix E σ s all j [] 0 →
    (∀ q ∈ all, Good E σ s q j) → L.rounds E n (s + j) σ' = some σ'' →
    σ''.log = σ.log ∧ σ''.mem = mix E σ s all (j + n) [] 0 ∧ ∀ q ∈ all, Good E σ s q (j + n)
  | 0, j, σ', σ'', _, _, hl, hm, hg, hrun => by
    cases hrun
    exact ⟨hl, hm, hg⟩
  | n + 1, j, σ', σ'', hc, hn, hl, hm, hg, hrun => by
    simp only [Loop.rounds, Option.bind_eq_bind, Option.bind_eq_some_iff] at hrun
    obtain ⟨σ1, h1, h2⟩ := hrun
    have hcv : ∀ x a, L.counter x = some a → x ≠ L.var := by
      rintro x a hx rfl
      rw [(counter_occs hx).1] at hv
      cases hv
    obtain ⟨r1, r2, r3⟩ := body_run (j := j) hp hv hf ho hi L.body [] [] all
      { σ' with vars := fun y => if y = L.var then s + j else σ'.vars y } σ1 rfl hp rfl
      ⟨by simp, fun x a hx => by simp [hcv x a hx, hc x a hx, cnt], fun x hx hx' => by simp [hx, hn x hx hx'], hl⟩
      (by simpa [mix] using hm) (by simp) hg h1
    have h3 := rounds_run hp hv hf ho hi n (j + 1) σ1 σ''
      (fun x a hx => by have h4 := r1.cnt x a hx; have h5 := counter_once hx; omega) r1.other r1.log r2 r3 h2
    have e : j + 1 + n = j + (n + 1) := by omega
    rw [e] at h3
    exact h3

/-! ### The suggestion -/

/-- What is known about an index. -/
structure Facts {α : Type} (L : Loop) (E : Env) (σ : St α) (i : Idx) : Prop where
  offset : ∃ o, i.offset.value.eval E σ = some o
  counter : ∀ x c, i.start = .counter x c → c.eval E σ = some (σ.vars x)

theorem details_facts {α : Type} {L : Loop} {E : Env} {σ : St α} (hr : L.Right E σ) {a : A} {i : Idx} (h : L.details a = some (i.start, i.offset)) :
    Facts L E σ i := by
  obtain ⟨x, _, hst, hof, _⟩ := details_start h
  constructor
  · cases hv : i.offset.value <;> rw [hv] at hof <;> simp [Loop.getOffset] at hof <;> exact ⟨_, rfl⟩
  · intro y c hy
    rw [hy] at hst
    simp only [Loop.getStart] at hst
    split at hst
    · cases hst
    · obtain ⟨c', hc1, hc2⟩ := Option.map_eq_some_iff.mp hst
      cases hc2
      exact hr.init _ _ (counter_occs hc1).1

theorem applyOffset_eval {α : Type} {E : Env} {σ : St α} {a : A} {o : Offset} {k v : Nat} (hk : o.value.eval E σ = some k)
    (h : (applyOffset a o).eval E σ = some v) : ∃ x, a.eval E σ = some x ∧ (if o.neg then v + k = x else v = x + k) := by
  unfold applyOffset at h
  split at h
  · next hn => exact ⟨v + k, eval_mSub h hk, by simp [hn]⟩
  · next hn =>
    obtain ⟨x, y, hx, hy, rfl⟩ := eval_mAdd h
    rw [hk] at hy; cases hy
    exact ⟨x, hx, by simp [hn]⟩

theorem slice_inv {α : Type} {E : Env} {σ : St α} {xs : List α} {lo hi : Option A} {l h : Nat} (hs : slice E σ xs (some (lo, hi)) = some (l, h)) :
    boundVal E σ 0 lo = some l ∧ boundVal E σ xs.length hi = some h ∧ l ≤ h ∧ h ≤ xs.length := by
  simp only [slice, Option.bind_eq_bind, Option.bind_eq_some_iff] at hs
  obtain ⟨l', h1, h', h2, h3⟩ := hs
  split at h3
  · next hle => cases h3; exact ⟨h1, h2, hle⟩
  · cases h3

theorem printOffset_val {α : Type} {E : Env} {σ : St α} {a : A} {l : Nat} (h : boundVal E σ 0 (printOffset a) = some l) : a.eval E σ = some l := by
  unfold printOffset at h
  split at h
  · next hz => rw [isZero_eval hz]; exact h
  · exact h

/-- Whether the limit is written down. -/
def Loop.Exact (L : Loop) (b : Base) : Prop := ∀ b', L.stop = .len b' → b'.resLocal ≠ b.resLocal

theorem printLimit_val {α : Type} {L : Loop} {E : Env} {σ : St α} {b : Base} {a : A} {len h : Nat} (hx : L.Exact b)
    (hv : boundVal E σ len (L.printLimit b a) = some h) : ∃ v, a.eval E σ = some v ∧ h = if L.closed then v + 1 else v := by
  have hp : L.printLimit b a = some (if L.closed then mAdd a (.lit 1) else a) := by
    unfold Loop.printLimit
    cases hs : L.stop with
    | len b' => simp only [if_neg (hx b' hs)]
    | _ => rfl
  rw [hp] at hv
  simp only [boundVal] at hv
  split at hv
  · next hc =>
    obtain ⟨x, y, hx', hy, rfl⟩ := eval_mAdd hv
    simp only [A.eval, Option.some.injEq] at hy
    exact ⟨x, hx', by simp [hc, hy]⟩
  · next hc => exact ⟨h, hv, by simp [hc]⟩

/-- The bounds are right, if they can be evaluated. -/
theorem bounds_right {α : Type} {L : Loop} {E : Env} {σ : St α} {i : Idx} {s e : Nat} (hf : Facts L E σ i) (hs : L.start.eval E σ = some s)
    (he : L.stop.eval E σ = some e) {xs : List α} {l h : Nat} (hsl : slice E σ xs (some (L.bounds i)) = some (l, h)) :
    l = i.first E σ s ∧ l ≤ h ∧ h ≤ xs.length ∧ (L.Exact i.base → h - l = if L.closed then e + 1 - s else e - s) := by
  obtain ⟨k, hk⟩ := hf.offset
  unfold Loop.bounds at hsl
  cases hst : i.start with
  | range =>
    simp only [hst] at hsl
    obtain ⟨h1, h2, h3, h4⟩ := slice_inv hsl
    have h1' := printOffset_val h1
    obtain ⟨x, hx, hx'⟩ := applyOffset_eval hk h1'
    rw [hs] at hx; cases hx
    have hfirst : l = i.first E σ s := by
      simp only [Idx.first, hst, hk, Option.getD_some, Start.val]
      split <;> simp_all <;> omega
    refine ⟨hfirst, h3, h4, fun hex => ?_⟩
    obtain ⟨v, hv, hh⟩ := printLimit_val hex h2
    obtain ⟨y, hy, hy'⟩ := applyOffset_eval hk hv
    rw [he] at hy; cases hy
    cases hn : i.offset.neg <;> cases hc : L.closed <;> simp_all <;> omega
  | counter x c =>
    simp only [hst] at hsl
    obtain ⟨h1, h2, h3, h4⟩ := slice_inv hsl
    have h1' := printOffset_val h1
    have hcv := hf.counter x c hst
    obtain ⟨x', hx, hx'⟩ := applyOffset_eval hk h1'
    rw [hcv] at hx; cases hx
    have hfirst : l = i.first E σ s := by
      simp only [Idx.first, hst, hk, Option.getD_some, Start.val]
      split <;> simp_all <;> omega
    refine ⟨hfirst, h3, h4, fun hex => ?_⟩
    obtain ⟨v, hv, hh⟩ := printLimit_val hex h2
    have hv1 := eval_mSub hv hs
    obtain ⟨p, q, hp, hq, hpq⟩ := eval_mAdd hv1
    rw [hcv] at hq; cases hq
    obtain ⟨y, hy, hy'⟩ := applyOffset_eval hk hp
    rw [he] at hy; cases hy
    cases hn : i.offset.neg <;> cases hc : L.closed <;> simp_all <;> omega

/-- The whole of an array is right. -/
theorem whole_right {α : Type} {L : Loop} {E : Env} {σ : St α} (hr : L.Right E σ) {b : Base} {s e : Nat} (hs : L.start.eval E σ = some s)
    (he : L.stop.eval E σ = some e) (hw : L.wholeArray b = true)
    (hfit : (if L.closed then e + 1 - s else e - s) ≤ (σ.mem (b.at σ)).length) :
    (σ.mem (b.at σ)).length = if L.closed then e + 1 - s else e - s := by
  unfold Loop.wholeArray at hw
  split at hw
  · next n s' e' ha hs' he' =>
    simp only [beq_iff_eq] at hw
    have hl := hr.arr _ _ ha
    have hm := hr.max (b.at σ)
    have hW := hr.word
    have h1 := hr.lit s' (.inl hs')
    have h2 := hr.lit e' (.inr he')
    rw [hs'] at hs; rw [he'] at he
    simp only [A.eval, Option.some.injEq] at hs he
    subst hs he
    rw [hl] at hm hfit ⊢
    by_cases hle : s' ≤ e'
    · have : (e' + 2 ^ 128 - s') % 2 ^ 128 = e' - s' := by
        have : e' + 2 ^ 128 - s' = (e' - s') + 2 ^ 128 := by omega
        rw [this, Nat.add_mod_right, Nat.mod_eq_of_lt (by omega)]
      rw [this] at hw
      split at hfit
      · omega
      · next hc => simp [hc, hw]
    · have : (e' + 2 ^ 128 - s') % 2 ^ 128 = e' + 2 ^ 128 - s' := Nat.mod_eq_of_lt (by omega)
      omega
  · cases hw

/-- One side of a suggested copy. -/
theorem side_right {α : Type} {L : Loop} {E : Env} {σ : St α} (hr : L.Right E σ) {i : Idx} {s e n : Nat} (hf : Facts L E σ i)
    (hs : L.start.eval E σ = some s) (he : L.stop.eval E σ = some e) (hn : n = if L.closed then e + 1 - s else e - s)
    (hgood : n ≥ 1 → i.first E σ s + n ≤ (σ.mem (i.base.at σ)).length) {xs : List α} (hxs : xs.length = (σ.mem (i.base.at σ)).length) {l h : Nat}
    {rg : Option (Option A × Option A)} (hrg : rg = some (L.bounds i) ∨ (rg = none ∧ (L.bounds i = (none, none) ∨ L.wholeArray i.base = true)))
    (hsl : slice E σ xs rg = some (l, h)) :
    l ≤ h ∧ h ≤ xs.length ∧ (h - l = n → n ≥ 1 → l = i.first E σ s) ∧ (L.Exact i.base → h - l = n) := by
  have hb : slice E σ xs (some (L.bounds i)) = some (l, h) → l ≤ h ∧ h ≤ xs.length ∧ (h - l = n → n ≥ 1 → l = i.first E σ s) ∧
      (L.Exact i.base → h - l = n) := by
    intro hsl
    obtain ⟨h1, h2, h3, h4⟩ := bounds_right hf hs he hsl
    exact ⟨h2, h3, fun _ _ => h1, fun hx => (h4 hx).trans hn.symm⟩
  rcases hrg with rfl | ⟨rfl, hrg | hrg⟩
  · exact hb hsl
  · apply hb
    rw [hrg]
    simp only [slice, Option.some.injEq, Prod.mk.injEq] at hsl ⊢
    obtain ⟨rfl, rfl⟩ := hsl
    simp [boundVal]
  · simp only [slice, Option.some.injEq, Prod.mk.injEq] at hsl
    obtain ⟨rfl, rfl⟩ := hsl
    have hfit : n ≤ (σ.mem (i.base.at σ)).length := by
      by_cases h1 : n ≥ 1
      · have := hgood h1; omega
      · omega
    have := whole_right hr hs he hrg (hn ▸ hfit)
    rw [← hn, ← hxs] at this
    refine ⟨by omega, by omega, fun _ h1 => ?_, fun _ => by omega⟩
    have := hgood h1
    omega

/-- One suggested copy. -/
theorem copy_right {α : Type} {L : Loop} {E : Env} {σ : St α} (hr : L.Right E σ) {q : Idx × Idx} {s e n : Nat} (hf1 : Facts L E σ q.1)
    (hf2 : Facts L E σ q.2) (hne : q.1.base.resLocal ≠ q.2.base.resLocal)
    (hs : L.start.eval E σ = some s) (he : L.stop.eval E σ = some e) (hn : n = if L.closed then e + 1 - s else e - s)
    (hg : Good E σ s q n) {σ' σ'' : St α} (hv : σ'.vars = σ.vars) (hl : ∀ l, (σ'.mem l).length = (σ.mem l).length)
    (hrun : (L.build q).run E σ' = some σ'') :
    σ''.vars = σ'.vars ∧ σ''.log = σ'.log ∧ σ''.mem = setMem σ'.mem (q.1.base.at σ)
      (splice (σ'.mem (q.1.base.at σ)) (q.1.first E σ s) (σ'.mem (q.2.base.at σ)) (q.2.first E σ s) n) := by
  have hev := eval_congr (E := E) hv hl
  have hsl : ∀ (xs : List α) rg, slice E σ' xs rg = slice E σ xs rg := by
    intro xs rg
    cases rg with
    | none => rfl
    | some p => obtain ⟨lo, hi⟩ := p; cases lo <;> cases hi <;> simp only [slice, boundVal, hev]
  have hat : ∀ b : Base, b.at σ' = b.at σ := fun b => at_congr b (fun x _ => congrFun hv x)
  simp only [Copy.run, Option.bind_eq_bind, Option.bind_eq_some_iff, hsl, hat] at hrun
  obtain ⟨⟨dl, dh⟩, h1, ⟨sl, sh⟩, h2, h3⟩ := hrun
  simp only at h3
  split at h3
  · next heq =>
    cases h3
    refine ⟨rfl, rfl, ?_⟩
    obtain ⟨a1, a2, a3, a4⟩ := side_right hr hf1 hs he hn (fun h => (hg h).2.2.1) (hl _) (rg := (L.build q).dstRange) (by
      simp only [Loop.build]
      split
      · next h => exact .inr ⟨rfl, h⟩
      · exact .inl rfl) h1
    obtain ⟨b1, b2, b3, b4⟩ := side_right hr hf2 hs he hn (fun h => (hg h).2.2.2) (hl _) (rg := (L.build q).srcRange) (by
      simp only [Loop.build]
      split
      · next h => exact .inr ⟨rfl, .inr h⟩
      · exact .inl rfl) h2
    have hlen : dh - dl = n := by
      by_cases hx : L.Exact q.1.base
      · exact a4 hx
      · rw [heq]
        apply b4
        intro b' hb' hb
        apply hx
        intro b'' hb'' hc
        rw [hb'] at hb''
        cases hb''
        exact hne (hc.symm.trans hb)
    have hlen' : sh - sl = n := by omega
    have hdst : (L.build q).dst = q.1.base := rfl
    have hsrc : (L.build q).src = q.2.base := rfl
    rw [hdst, hsrc, hlen']
    by_cases h0 : n ≥ 1
    · have e1 := a3 hlen h0
      have e2 := b3 hlen' h0
      have e3 : dh = q.1.first E σ s + n := by omega
      rw [e1, e2, e3]
      rfl
    · have : n = 0 := by omega
      subst this
      have : dh = dl := by omega
      rw [splice_zero, this]
      simp
  · cases h3

theorem mix_length {α : Type} {E : Env} {σ : St α} {s n : Nat} {qs2 : List (Idx × Idx)} : ∀ {qs1 : List (Idx × Idx)}, (∀ q ∈ qs1, Good E σ s q n) →
    ∀ l, (mix E σ s qs1 n qs2 0 l).length = (σ.mem l).length
  | [], _, l => by
    have : mix E σ s [] n qs2 0 = σ.mem := by simp only [mix, List.map_nil, List.nil_append]; exact eff_zero σ.mem _
    rw [this]
  | q :: qs1, hg, l => by
    simp only [mix, List.map_cons, List.cons_append, eff]
    split
    · next hl =>
      by_cases h0 : n ≥ 1
      · have := hg q (by simp) h0
        subst hl
        exact splice_length this.2.2.1 this.2.2.2
      · have : n = 0 := by omega
        subst this; rw [splice_zero]
    · exact mix_length (qs1 := qs1) (fun q' hq => hg q' (by simp [hq])) l

theorem copies_run {α : Type} {L : Loop} {E : Env} {σ : St α} (hr : L.Right E σ) {s e n : Nat} {all : List (Idx × Idx)}
    (hf : ∀ q ∈ all, Facts L E σ q.1 ∧ Facts L E σ q.2 ∧ q.1.base.resLocal ≠ q.2.base.resLocal)
    (hs : L.start.eval E σ = some s) (he : L.stop.eval E σ = some e) (hn : n = if L.closed then e + 1 - s else e - s)
    (hg : ∀ q ∈ all, Good E σ s q n) (hi : Indep (all.map (toP E σ s))) :
    ∀ (qs2 qs1 : List (Idx × Idx)) (σ' σ'' : St α), all = qs1 ++ qs2 → σ'.vars = σ.vars → σ'.log = σ.log → σ'.mem = mix E σ s qs1 n qs2 0 →
    runCopies E (qs2.map L.build) σ' = some σ'' → σ''.log = σ.log ∧ σ''.mem = mix E σ s all n [] 0
  | [], qs1, σ', σ'', ha, _, hlog, hm, hrun => by
    cases hrun
    rw [List.append_nil] at ha
    exact ⟨hlog, by rw [hm, ha]⟩
  | q :: qs2, qs1, σ', σ'', ha, hv, hlog, hm, hrun => by
    simp only [List.map_cons, runCopies, Option.bind_eq_bind, Option.bind_eq_some_iff] at hrun
    obtain ⟨σ1, h1, h2⟩ := hrun
    have hq : q ∈ all := by rw [ha]; simp
    have hlen : ∀ l, (σ'.mem l).length = (σ.mem l).length := by
      rw [hm]; exact mix_length (fun q' hq' => hg q' (by rw [ha]; simp [hq']))
    obtain ⟨f1, f2, f3⟩ := hf q hq
    have h3 := copy_right hr f1 f2 f3 hs he hn (hg q hq) hv hlen h1
    obtain ⟨m1, m2, m3⟩ := mix_next E σ s qs1 qs2 q n 0 (ha ▸ hi)
    refine copies_run hr hf hs he hn hg hi qs2 (qs1 ++ [q]) σ1 σ'' (by simp [ha]) (h3.1.trans hv) (h3.2.1.trans hlog) ?_ h2
    rw [h3.2.2, ← m3]
    simp only [hm, m1, m2, splice_zero]

/-! ### The assignments -/

theorem pairs_sides {L : Loop} : ∀ {ss : List Stmt} {qs : List (Idx × Idx)}, L.pairs ss = some qs →
    ss.flatMap Stmt.sides = qs.map (fun q => (q.1.base, q.2.base))
  | [], qs, h => by cases h; rfl
  | s :: ss, qs, h => by
    cases s with
    | letS k => exact pairs_sides (ss := ss) h
    | opPlace k => exact pairs_sides (ss := ss) h
    | other k => simp [Loop.pairs] at h
    | opLocal y =>
      simp only [Loop.pairs] at h
      split at h
      · exact pairs_sides (ss := ss) h
      · cases h
    | incr y =>
      simp only [Loop.pairs] at h
      split at h
      · exact pairs_sides (ss := ss) h
      · cases h
    | assign l r =>
      simp only [Loop.pairs] at h
      split at h
      · next e1 e2 =>
        cases h
        obtain ⟨il, ir, rfl, rfl, _⟩ := pair_inv e1
        simp only [List.flatMap_cons, List.map_cons, pairs_sides (ss := ss) e2]
        rfl
      · cases h

theorem pairs_all {L : Loop} : ∀ {ss : List Stmt} {qs : List (Idx × Idx)}, L.pairs ss = some qs → ∀ q ∈ qs, ∃ l r, L.pair l r = some q
  | [], qs, h, q, hq => by cases h; simp at hq
  | s :: ss, qs, h, q, hq => by
    cases s with
    | letS k => exact pairs_all (ss := ss) h q hq
    | opPlace k => exact pairs_all (ss := ss) h q hq
    | other k => simp [Loop.pairs] at h
    | opLocal y =>
      simp only [Loop.pairs] at h
      split at h
      · exact pairs_all (ss := ss) h q hq
      · cases h
    | incr y =>
      simp only [Loop.pairs] at h
      split at h
      · exact pairs_all (ss := ss) h q hq
      · cases h
    | assign l r =>
      simp only [Loop.pairs] at h
      split at h
      · next e1 e2 =>
        cases h
        rcases List.mem_cons.mp hq with rfl | hq
        · exact ⟨l, r, e1⟩
        · exact pairs_all (ss := ss) e2 q hq
      · cases h

theorem at_ne {α : Type} {σ : St α} {b b' : Base} (h : b.resLocal ≠ b'.resLocal) : b.at σ ≠ b'.at σ := by
  cases b <;> cases b' <;> simp_all [Base.at, Base.resLocal]

/-- If neither the loop nor the suggestion panics, both do the same: every element ends up the same, and nothing else is done. The loop has only
assignments and increments of counters, no assignment uses what another one writes to, and what is indexed is the same in all rounds.

What is missing: the loops with other statements which are dropped, with dependent assignments and with bases that mention a counter, for which it
is false (`Witness`), as is that the suggestion never panics. -/
theorem suggestion_partial {α : Type} {L : Loop} {E : Env} {σ σ1 σ2 : St α} {cs : List Copy} (h : L.suggest = some cs) (hr : L.Right E σ)
    (ho : L.OnlyCopies) (hi : L.Independent σ) (hf : L.FixedBases) (h1 : L.run E σ = some σ1) (h2 : runCopies E cs σ = some σ2) :
    σ2.mem = σ1.mem ∧ σ2.log = σ1.log := by
  unfold Loop.suggest at h
  split at h
  · next all hp =>
    split at h
    · cases h
    · cases h
      simp only [Loop.run, Option.bind_eq_bind, Option.bind_eq_some_iff] at h1
      obtain ⟨s, hs, e, he, h1⟩ := h1
      have hpair : ∀ q ∈ all, Facts L E σ q.1 ∧ Facts L E σ q.2 ∧ q.1.base.resLocal ≠ q.2.base.resLocal := by
        intro q hq
        obtain ⟨l, r, hlr⟩ := pairs_all hp q hq
        obtain ⟨il, ir, _, _, d1, d2, _, _, hne⟩ := pair_inv hlr
        exact ⟨details_facts hr d1, details_facts hr d2, hne⟩
      have hind : Indep (all.map (toP E σ s)) := by
        constructor
        · intro p hp
          obtain ⟨q, hq, rfl⟩ := List.mem_map.mp hp
          exact at_ne (hpair q hq).2.2
        · rw [List.pairwise_map]
          unfold Loop.Independent at hi
          rw [pairs_sides hp, List.pairwise_map] at hi
          exact hi
      have h0 : σ.mem = mix E σ s all 0 [] 0 := by
        simp only [mix, List.map_nil, List.append_nil]
        exact (eff_zero σ.mem _).symm
      obtain ⟨r1, r2, r3⟩ := rounds_run hp hr.var hf ho hind _ 0 σ σ1 (fun _ _ _ => rfl) (fun _ _ _ => rfl) rfl h0
        (fun q _ hz => absurd hz (by omega)) h1
      rw [Nat.zero_add] at r2 r3
      obtain ⟨c1, c2⟩ := copies_run hr hpair hs he rfl r3 hind all [] σ σ2 rfl rfl rfl (by
        simp only [mix, List.map_nil, List.nil_append]
        exact (eff_zero σ.mem _).symm) h2
      exact ⟨by rw [c2, r2], by rw [c1, r1]⟩
  · cases h

/-! ### Panics -/

theorem eval_mAdd_of {α : Type} {E : Env} {σ : St α} {a b : A} {x y : Nat} (ha : a.eval E σ = some x) (hb : b.eval E σ = some y) (h : x + y ≤ E.W) :
    (mAdd a b).eval E σ = some (x + y) := by
  unfold mAdd
  split
  · next hz => rw [isZero_eval hz] at ha; cases ha; simpa using hb
  · split
    · next hz => rw [isZero_eval hz] at hb; cases hb; simpa using ha
    · simp [A.eval, ha, hb, h]

theorem eval_mSub_of {α : Type} {E : Env} {σ : St α} {a b : A} {x y : Nat} (ha : a.eval E σ = some x) (hb : b.eval E σ = some y) (h : y ≤ x)
    (hz : b.isZero = true ∨ a.isZero = false) : (mSub a b).eval E σ = some (x - y) := by
  unfold mSub
  split
  · next hz => rw [isZero_eval hz] at hb; cases hb; simpa using ha
  · next hb0 =>
    have ha0 : a.isZero = false := hz.resolve_left hb0
    rw [if_neg (by simp [ha0])]
    split
    · next he => subst he; rw [ha] at hb; cases hb; simp [A.eval]
    · simp [A.eval, ha, hb, h]

theorem isZero_false {a : A} (h : a ≠ .lit 0) : a.isZero = false := by
  cases a <;> simp_all [A.isZero]

theorem applyOffset_of {α : Type} {E : Env} {σ : St α} {a : A} {o : Offset} {x k : Nat} (ha : a.eval E σ = some x)
    (hk : o.value.eval E σ = some k) (h : if o.neg then k ≤ x else x + k ≤ E.W) (hz : o.neg = true → o.value ≠ .lit 0 → a ≠ .lit 0) :
    (applyOffset a o).eval E σ = some (if o.neg then x - k else x + k) := by
  unfold applyOffset
  cases hn : o.neg with
  | true =>
    simp only [hn, if_true] at h ⊢
    refine eval_mSub_of ha hk h ?_
    by_cases h0 : o.value = .lit 0
    · left; rw [h0]; rfl
    · right; exact isZero_false (hz hn h0)
  | false =>
    simp only [hn, Bool.false_eq_true, if_false] at h ⊢
    exact eval_mAdd_of ha hk h

theorem printOffset_of {α : Type} {E : Env} {σ : St α} {a : A} {l : Nat} (h : a.eval E σ = some l) : boundVal E σ 0 (printOffset a) = some l := by
  unfold printOffset
  split
  · next hz => rw [isZero_eval hz] at h; exact h
  · exact h

theorem printLimit_of {α : Type} {L : Loop} {E : Env} {σ : St α} {i : Idx} {s e : Nat} (hc : L.Calm E σ i s e) (he : L.stop.eval E σ = some e) {a : A} {v : Nat}
    (h : a.eval E σ = some v) (hW : (if L.closed then v + 1 else v) ≤ E.W) :
    boundVal E σ (σ.mem (i.base.at σ)).length (L.printLimit i.base a) = some (if L.closed then v + 1 else v) := by
  have other : boundVal E σ (σ.mem (i.base.at σ)).length (some (if L.closed then mAdd a (.lit 1) else a)) = some (if L.closed then v + 1 else v) := by
    simp only [boundVal]
    cases hcl : L.closed with
    | true => simp only [hcl, if_true] at hW ⊢; exact eval_mAdd_of h rfl hW
    | false => simpa using h
  unfold Loop.printLimit
  cases hs : L.stop with
  | len b =>
    simp only
    split
    · next hb =>
      obtain ⟨rfl, hcl⟩ := hc.len b hs hb
      simp only [hcl, Bool.false_eq_true, if_false]
      split
      · next ha =>
        rw [hs] at he
        rw [ha, he] at h
        cases h
        simp only [A.eval, Option.some.injEq] at he
        simp [boundVal, he]
      · exact h
    · exact other
  | _ => exact other

/-- The bounds can be evaluated. -/
theorem bounds_of {α : Type} {L : Loop} {E : Env} {σ : St α} (hr : L.Right E σ) {i : Idx} {s e n : Nat} (hf : Facts L E σ i)
    (hs : L.start.eval E σ = some s) (he : L.stop.eval E σ = some e) (hn : n = if L.closed then e + 1 - s else e - s) (h1 : n ≥ 1)
    (hok : i.Ok E σ s) (hfit : i.first E σ s + n ≤ (σ.mem (i.base.at σ)).length) (hc : L.Calm E σ i s e) {xs : List α}
    (hxs : xs.length = (σ.mem (i.base.at σ)).length) :
    slice E σ xs (some (L.bounds i)) = some (i.first E σ s, i.first E σ s + n) := by
  obtain ⟨k, hk⟩ := hf.offset
  have hW := hr.max (i.base.at σ)
  have fin : ∀ lo hi, boundVal E σ 0 lo = some (i.first E σ s) → boundVal E σ (σ.mem (i.base.at σ)).length hi = some (i.first E σ s + n) →
      slice E σ xs (some (lo, hi)) = some (i.first E σ s, i.first E σ s + n) := by
    intro lo hi h1 h2
    simp only [slice, hxs, h1, h2, Option.bind_eq_bind, Option.bind_some]
    rw [if_pos ⟨by omega, hfit⟩]
  simp only [Idx.Ok, hk, Option.getD_some] at hok
  have hz := hc.zero
  unfold Loop.bounds
  cases hst : i.start with
  | range =>
    simp only [hst] at hz
    have hfirst : i.first E σ s = if i.offset.neg then s - k else s + k := by simp only [Idx.first, hst, Start.val, hk, Option.getD_some]
    simp only [hst, Start.val] at hok
    simp only
    apply fin
    · apply printOffset_of
      rw [hfirst]
      refine applyOffset_of hs hk ?_ (fun h1 h2 => (hz h1 h2).2)
      split
      · next h => exact hok h
      · next h => simp only [h, Bool.false_eq_true, if_false] at hfirst; omega
    · have hsum : (if i.offset.neg then e - k else e + k) + (if L.closed then 1 else 0) = i.first E σ s + n := by
        rw [hfirst]
        cases hneg : i.offset.neg with
        | true => have := hok hneg; cases hcl : L.closed <;> simp_all <;> omega
        | false => cases hcl : L.closed <;> simp_all <;> omega
      have hv : (applyOffset L.stop i.offset).eval E σ = some (if i.offset.neg then e - k else e + k) := by
        refine applyOffset_of he hk ?_ (fun h1 h2 => (hz h1 h2).1)
        split
        · next h => have := hok h; cases hcl : L.closed <;> simp_all <;> omega
        · next h => simp only [h, Bool.false_eq_true, if_false] at hsum; omega
      have heq : (if L.closed then (if i.offset.neg then e - k else e + k) + 1 else (if i.offset.neg then e - k else e + k)) = i.first E σ s + n := by
        rw [← hsum]
        cases L.closed <;> rfl
      rw [printLimit_of hc he hv (by rw [heq]; omega), heq]
  | counter x c =>
    simp only [hst] at hz
    have hcv := hf.counter x c hst
    have hfirst : i.first E σ s = if i.offset.neg then σ.vars x - k else σ.vars x + k := by
      simp only [Idx.first, hst, Start.val, hk, Option.getD_some]
    simp only [hst, Start.val] at hok
    simp only
    have hcc := hc.counter x c k hst hk
    apply fin
    · apply printOffset_of
      rw [hfirst]
      refine applyOffset_of hcv hk ?_ (fun h1 h2 => (hz h1 h2).2)
      split
      · next h => exact hok h
      · next h => simp only [h, Bool.false_eq_true, if_false] at hfirst; omega
    · have hv1 : (applyOffset L.stop i.offset).eval E σ = some (if i.offset.neg then e - k else e + k) := by
        refine applyOffset_of he hk ?_ (fun h1 h2 => (hz h1 h2).1)
        split
        · next h => simp only [h, if_true] at hcc; exact hcc.1
        · next h => simp only [h, Bool.false_eq_true, if_false] at hcc; omega
      have hv2 := eval_mAdd_of hv1 hcv (by
        cases hneg : i.offset.neg <;> simp only [hneg, Bool.false_eq_true, if_false, if_true] at hcc ⊢ <;> omega)
      have hge : (if i.offset.neg then e - k else e + k) + σ.vars x + (if L.closed then 1 else 0) = i.first E σ s + n + s := by
        rw [hfirst]
        cases hneg : i.offset.neg with
        | true =>
          have := hok hneg
          simp only [hneg, if_true] at hcc
          cases hcl : L.closed <;> simp_all <;> omega
        | false => cases hcl : L.closed <;> simp_all <;> omega
      have hle : s ≤ (if i.offset.neg then e - k else e + k) + σ.vars x := by
        cases hcl : L.closed <;> simp only [hcl, Bool.false_eq_true, if_false, if_true] at hge <;> omega
      have hv3 := eval_mSub_of hv2 hs hle (by
        cases hz0 : (mAdd (applyOffset L.stop i.offset) c).isZero with
        | false => exact .inr rfl
        | true =>
          rw [isZero_eval hz0] at hv2
          have h0 := Option.some.inj hv2
          rw [← h0] at hle hge
          cases hcl : L.closed with
          | false => simp only [hcl, Bool.false_eq_true, if_false] at hge; omega
          | true =>
            rcases hc.start x c hst hcl with h | h
            · left; rw [h]; rfl
            · omega)
      have heq : (if L.closed then (if i.offset.neg then e - k else e + k) + σ.vars x - s + 1
          else (if i.offset.neg then e - k else e + k) + σ.vars x - s) = i.first E σ s + n := by
        cases hcl : L.closed <;> simp only [hcl, Bool.false_eq_true, if_false, if_true] at hge ⊢ <;> omega
      rw [printLimit_of hc he hv3 (by rw [heq]; omega), heq]

theorem side_of {α : Type} {L : Loop} {E : Env} {σ : St α} (hr : L.Right E σ) {i : Idx} {s e n : Nat} (hf : Facts L E σ i)
    (hs : L.start.eval E σ = some s) (he : L.stop.eval E σ = some e) (hn : n = if L.closed then e + 1 - s else e - s) (h1 : n ≥ 1)
    (hok : i.Ok E σ s) (hfit : i.first E σ s + n ≤ (σ.mem (i.base.at σ)).length) (hc : L.Calm E σ i s e) {xs : List α}
    (hxs : xs.length = (σ.mem (i.base.at σ)).length)
    {rg : Option (Option A × Option A)} (hrg : rg = some (L.bounds i) ∨ (rg = none ∧ (L.bounds i = (none, none) ∨ L.wholeArray i.base = true))) :
    ∃ l h, slice E σ xs rg = some (l, h) ∧ h - l = n := by
  have hb := bounds_of hr hf hs he hn h1 hok hfit hc hxs
  rcases hrg with rfl | ⟨rfl, hrg | hrg⟩
  · exact ⟨_, _, hb, by omega⟩
  · rw [hrg] at hb
    simp only [slice, boundVal, Option.bind_eq_bind, Option.bind_some] at hb
    split at hb
    · simp only [Option.some.injEq, Prod.mk.injEq] at hb
      exact ⟨0, xs.length, rfl, by omega⟩
    · cases hb
  · refine ⟨0, xs.length, rfl, ?_⟩
    have := whole_right hr hs he hrg (hn ▸ (by omega))
    rw [hxs, this, ← hn, Nat.sub_zero]

theorem copies_of {α : Type} {L : Loop} {E : Env} {σ : St α} (hr : L.Right E σ) {s e n : Nat} {all : List (Idx × Idx)}
    (hf : ∀ q ∈ all, Facts L E σ q.1 ∧ Facts L E σ q.2 ∧ q.1.base.resLocal ≠ q.2.base.resLocal)
    (hs : L.start.eval E σ = some s) (he : L.stop.eval E σ = some e) (hn : n = if L.closed then e + 1 - s else e - s) (h1 : n ≥ 1)
    (hg : ∀ q ∈ all, Good E σ s q n) (hc : ∀ q ∈ all, L.Calm E σ q.1 s e ∧ L.Calm E σ q.2 s e) :
    ∀ (qs2 : List (Idx × Idx)) (σ' : St α), (∀ q ∈ qs2, q ∈ all) → σ'.vars = σ.vars → (∀ l, (σ'.mem l).length = (σ.mem l).length) →
    ∃ σ'', runCopies E (qs2.map L.build) σ' = some σ''
  | [], σ', _, _, _ => ⟨σ', rfl⟩
  | q :: qs2, σ', hall, hv, hl => by
    have hq := hall q (by simp)
    obtain ⟨f1, f2, f3⟩ := hf q hq
    obtain ⟨c1, c2⟩ := hc q hq
    obtain ⟨o1, o2, g1, g2⟩ := hg q hq h1
    have hev := eval_congr (E := E) hv hl
    have hsl : ∀ (xs : List α) rg, slice E σ' xs rg = slice E σ xs rg := by
      intro xs rg
      cases rg with
      | none => rfl
      | some p => obtain ⟨lo, hi⟩ := p; cases lo <;> cases hi <;> simp only [slice, boundVal, hev]
    have hat : ∀ b : Base, b.at σ' = b.at σ := fun b => at_congr b (fun x _ => congrFun hv x)
    obtain ⟨dl, dh, d1, d2⟩ := side_of hr f1 hs he hn h1 o1 g1 c1 (hl (q.1.base.at σ)) (rg := (L.build q).dstRange) (by
      simp only [Loop.build]
      split
      · next h => exact .inr ⟨rfl, h⟩
      · exact .inl rfl)
    obtain ⟨sl, sh, s1, s2⟩ := side_of hr f2 hs he hn h1 o2 g2 c2 (hl (q.2.base.at σ)) (rg := (L.build q).srcRange) (by
      simp only [Loop.build]
      split
      · next h => exact .inr ⟨rfl, .inr h⟩
      · exact .inl rfl)
    have hrun : ∃ σ1, (L.build q).run E σ' = some σ1 := by
      have hdst : (L.build q).dst = q.1.base := rfl
      have hsrc : (L.build q).src = q.2.base := rfl
      simp only [Copy.run, hsl, hat, hdst, hsrc, d1, s1, Option.bind_eq_bind, Option.bind_some]
      rw [if_pos (by omega)]
      exact ⟨_, rfl⟩
    obtain ⟨σ1, hrun⟩ := hrun
    obtain ⟨r1, _, r3⟩ := copy_right hr f1 f2 f3 hs he hn (hg q hq) hv hl hrun
    obtain ⟨σ2, h2⟩ := copies_of hr hf hs he hn h1 hg hc qs2 σ1 (fun q' hq' => hall q' (by simp [hq'])) (r1.trans hv) (by
      intro l
      rw [r3]
      simp only [setMem]
      split
      · next h =>
        subst h
        rw [splice_length (by rw [hl]; exact g1) (by rw [hl]; exact g2), hl]
      · exact hl l)
    exact ⟨σ2, by simp only [List.map_cons, runCopies, hrun, Option.bind_eq_bind, Option.bind_some, h2]⟩

/-- If the loop does at least one round and doesn't panic, then the suggestion doesn't panic either, provided that its bounds can be computed.

What is missing: the loops without a round and the bounds which can't be computed, for which it is false (`Witness`). -/
theorem no_panic_partial {α : Type} {L : Loop} {E : Env} {σ σ1 : St α} {cs : List Copy} {s e : Nat} (h : L.suggest = some cs) (hr : L.Right E σ)
    (ho : L.OnlyCopies) (hi : L.Independent σ) (hf : L.FixedBases) (h1 : L.run E σ = some σ1) (hs : L.start.eval E σ = some s)
    (he : L.stop.eval E σ = some e) (hn : if L.closed then s ≤ e else s < e)
    (hc : ∀ qs, L.pairs L.body = some qs → ∀ q ∈ qs, L.Calm E σ q.1 s e ∧ L.Calm E σ q.2 s e) :
    ∃ σ2, runCopies E cs σ = some σ2 ∧ σ2.mem = σ1.mem ∧ σ2.log = σ1.log := by
  suffices hex : ∃ σ2, runCopies E cs σ = some σ2 by
    obtain ⟨σ2, h2⟩ := hex
    exact ⟨σ2, h2, suggestion_partial h hr ho hi hf h1 h2⟩
  unfold Loop.suggest at h
  split at h
  · next all hp =>
    split at h
    · cases h
    · cases h
      simp only [Loop.run, hs, he, Option.bind_eq_bind, Option.bind_some] at h1
      have hpair : ∀ q ∈ all, Facts L E σ q.1 ∧ Facts L E σ q.2 ∧ q.1.base.resLocal ≠ q.2.base.resLocal := by
        intro q hq
        obtain ⟨l, r, hlr⟩ := pairs_all hp q hq
        obtain ⟨il, ir, _, _, d1, d2, _, _, hne⟩ := pair_inv hlr
        exact ⟨details_facts hr d1, details_facts hr d2, hne⟩
      have hind : Indep (all.map (toP E σ s)) := by
        constructor
        · intro p hp
          obtain ⟨q, hq, rfl⟩ := List.mem_map.mp hp
          exact at_ne (hpair q hq).2.2
        · rw [List.pairwise_map]
          unfold Loop.Independent at hi
          rw [pairs_sides hp, List.pairwise_map] at hi
          exact hi
      have h0 : σ.mem = mix E σ s all 0 [] 0 := by
        simp only [mix, List.map_nil, List.append_nil]
        exact (eff_zero σ.mem _).symm
      obtain ⟨r1, r2, r3⟩ := rounds_run hp hr.var hf ho hind _ 0 σ σ1 (fun _ _ _ => rfl) (fun _ _ _ => rfl) rfl h0
        (fun q _ hz => absurd hz (by omega)) h1
      rw [Nat.zero_add] at r3
      exact copies_of hr hpair hs he rfl (by split at hn <;> simp_all <;> omega) r3 (hc all hp) all σ (fun _ h => h) rfl (fun _ => rfl)
  · cases h

end Verif.Memcpy
