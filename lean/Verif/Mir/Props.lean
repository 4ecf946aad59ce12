import Verif.Mir.Counts

/-! The uses of locals in all executions. -/

namespace Verif.Mir

open Model

/-- A way to a block ends with a jump. -/
theorem leads_last {m : Body} {b c : Nat} (h : Spec.Leads m b c) :
    ∃ d, (d = b ∨ Spec.Leads m b d) ∧ c ∈ m.succs d := by
  induction h with
  | one s => exact ⟨_, .inl rfl, s⟩
  | more s _ ih =>
    obtain ⟨d, h1, h2⟩ := ih
    refine ⟨d, .inr ?_, h2⟩
    rcases h1 with rfl | h1
    · exact .one s
    · exact .more s h1

/-- A position is executed again if and only if its block is on a cycle. -/
theorem again_iff {m : Body} {l : Loc} (hl : l.idx ≤ (m.block l.block).stmts.length) :
    Spec.After m l l ↔ Spec.Leads m l.block l.block := by
  constructor
  · intro h
    rcases (after_cases h).1 with ⟨-, h1⟩ | h1
    · omega
    · exact h1
  · intro h
    have h1 := after_leads h hl
    rcases Nat.eq_zero_or_pos l.idx with h0 | h0
    · rwa [← h0] at h1
    · exact after_trans h1 (after_lt h0 hl)

/-- **C109**, cycles.  A block is said to be in a cycle if and only if an execution can come to it
again. -/
theorem in_cycle {m : Body} (hm : Spec.Closed m) (b : Nat) :
    blockInCycle m b = true ↔ Spec.After m ⟨b, 0⟩ ⟨b, 0⟩ := by
  rw [blockInCycle_iff hm, again_iff (l := ⟨b, 0⟩) (Nat.zero_le _)]

theorem counts_iff (c : Ctx) : (!ignored c) = decide (Spec.IsUse c) := by cases c <;> rfl

theorem consumes_iff (c : Ctx) : consuming c = decide (Spec.Consumes c) := by cases c <;> rfl

/-- When the search for uses is given up. -/
theorem any_iff {m : Body} {at_ : Loc} {order : List Nat} (ho : Spec.Lists m at_.block order) :
    order.any (fun b => (m.succs b).any (· == at_.block)) = true ↔
      Spec.Leads m at_.block at_.block := by
  simp only [List.any_eq_true, beq_iff_eq]
  constructor
  · rintro ⟨b, hb, s, hs, rfl⟩
    rcases (ho.2 b).1 hb with rfl | h
    · exact .one hs
    · exact leads_trans h (.one hs)
  · intro h
    obtain ⟨d, h1, h2⟩ := leads_last h
    exact ⟨d, (ho.2 d).2 h1, _, h2, rfl⟩

/-- **C109**, giving up.  The uses after a position are not collected if and only if the position
can be executed again. -/
theorem given_up {m : Body} {at_ : Loc} {order : List Nat} (ho : Spec.Lists m at_.block order)
    (hl : at_.idx ≤ (m.block at_.block).stmts.length) (xs : List Local) :
    visitUsage xs m at_ order = none ↔ Spec.After m at_ at_ := by
  rw [again_iff hl, ← any_iff ho, visitUsage_eq]
  split
  · rename_i h; simp [h]
  · rename_i h; simp only [reduceCtorEq, false_iff]; exact h

/-- **C109**, uses.  Otherwise each position that is executed after the given one is listed once for
each place there that is about the local and is a use (or consumes it), and no other position is
listed. -/
theorem usage_exact {m : Body} {at_ : Loc} {order : List Nat} (ho : Spec.Lists m at_.block order)
    (hl : at_.idx ≤ (m.block at_.block).stmts.length) {xs : List Local} {r : List Usage}
    (h : visitUsage xs m at_ order = some r) :
    r.length = xs.length ∧ ∀ (k : Nat) (x : Local) (u : Usage), xs[k]? = some x → r[k]? = some u → ∀ l,
      (Spec.After m at_ l →
        u.uses.count l = Spec.mentions m (fun c => decide (Spec.IsUse c)) x l ∧
        u.consumes.count l = Spec.mentions m (fun c => decide (Spec.Consumes c)) x l) ∧
      (¬ Spec.After m at_ l → l ∉ u.uses ∧ l ∉ u.consumes) := by
  rw [visitUsage_eq] at h
  split at h
  · cases h
  · rename_i hno
    have hc : ¬ Spec.Leads m at_.block at_.block := fun hh => hno ((any_iff ho).2 hh)
    cases h
    refine ⟨by simp, ?_⟩
    intro k x u hx hu l
    rw [List.getElem?_map, hx] at hu
    simp only [Option.map_some, Option.some.injEq] at hu
    subst hu
    have hcond : (l.block ∈ order ∧ l.idx ≤ (m.block l.block).stmts.length ∧
        ¬ (l.block = at_.block ∧ l.idx ≤ at_.idx)) ↔ Spec.After m at_ l := by
      rw [after_iff hc hl, ho.2]
    simp only
    constructor
    · intro ha
      rw [count_hits m at_ _ ho.1, count_hits m at_ _ ho.1, if_pos (hcond.2 ha), if_pos (hcond.2 ha)]
      simp only [counts_iff, show consuming = fun c => decide (Spec.Consumes c) from funext consumes_iff]
      exact ⟨trivial, trivial⟩
    · intro ha
      rw [← List.count_eq_zero, ← List.count_eq_zero, count_hits m at_ _ ho.1, count_hits m at_ _ ho.1,
        if_neg (fun hh => ha (hcond.1 hh)), if_neg (fun hh => ha (hcond.1 hh))]
      exact ⟨rfl, rfl⟩

/-- The parts of `isLocal`. -/
theorem isLocal_iff (p : Place) (x : Local) : isLocal p x = true ↔ p = ⟨x, []⟩ := by
  obtain ⟨b, r⟩ := p
  simp [isLocal, and_comm]

/-- What is taken for an assignment is one. -/
theorem isAssignment_sound {m : Body} {x : Local} {l : Loc}
    (hl : l.idx ≤ (m.block l.block).stmts.length) (h : isAssignment m x l = true) :
    Spec.Assigned m x l := by
  simp only [isAssignment] at h
  split at h
  · rename_i d r hd
    refine ⟨(d, .store), ?_, (isLocal_iff d x).1 h, .inl rfl⟩
    simp [Body.places, hd, Stmt.places]
  · cases h
  · rename_i hn
    have he : l.idx = (m.block l.block).stmts.length := by
      have := List.getElem?_eq_none_iff.1 hn
      omega
    have hp : m.places l = (m.block l.block).term.places := by
      simp only [Body.places, hn]; rw [if_pos he]
    rw [Spec.Assigned, hp]
    generalize (m.block l.block).term = t at h
    cases t with
    | call d r s => exact ⟨(d, .call), by simp [Term.places], (isLocal_iff d x).1 h, .inr (.inl rfl)⟩
    | asm ops s =>
      simp only [termAssigns, List.any_eq_true] at h
      obtain ⟨o, ho, hx⟩ := h
      cases o with
      | input p c => cases hx
      | out p =>
        cases p with
        | none => cases hx
        | some p =>
          refine ⟨(p, .asmOutput), ?_, (isLocal_iff p x).1 hx, .inr (.inr rfl)⟩
          exact List.mem_flatMap.2 ⟨_, ho, by simp [AsmOp.places]⟩
      | inout p c o => cases hx
    | other r s => cases h

theorem not_overwrites {x : Local} {a : Place × Ctx} (h : Spec.Operand a.2) : ¬ Spec.Overwrites x a := by
  rintro ⟨-, h1 | h1 | h1⟩
  · exact h.1 h1
  · exact h.2.1 h1
  · exact h.2.2 h1

/-- A block which is not there is empty. -/
theorem block_mem (m : Body) (b : Nat) : m.block b ∈ m ∨ m.block b = ⟨[], .other [] []⟩ := by
  simp only [Body.block]
  cases h : m[b]? with
  | none => exact .inr rfl
  | some d => exact .inl (List.mem_of_getElem? h)

/-- Assignments are taken for such. -/
theorem isAssignment_complete {m : Body} {x : Local} {l : Loc} (hs : Spec.Sane m) (hx : Spec.NoInout m x)
    (h : Spec.Assigned m x l) : isAssignment m x l = true := by
  obtain ⟨a, ha, ho⟩ := h
  simp only [Body.places] at ha
  rcases block_mem m l.block with hb | hb
  · obtain ⟨s1, s2⟩ := hs _ hb
    have hx' := hx _ hb
    simp only [isAssignment]
    cases hst : (m.block l.block).stmts[l.idx]? with
    | some s =>
      rw [hst] at ha
      have hs1 := s1 s (List.mem_of_getElem? hst)
      cases s with
      | assign d r =>
        simp only [Stmt.places, List.mem_cons] at ha
        rcases ha with rfl | ha
        · exact (isLocal_iff d x).2 ho.1
        · exact absurd ho (not_overwrites (hs1 a ha))
      | other r => exact absurd ho (not_overwrites (hs1 a ha))
    | none =>
      rw [hst] at ha
      simp only at ha ⊢
      split at ha
      · generalize (m.block l.block).term = t at ha s2 hx'
        cases t with
        | call d r s =>
          simp only [Term.places, List.mem_append, List.mem_singleton] at ha
          rcases ha with ha | rfl
          · exact absurd ho (not_overwrites (s2 a ha))
          · exact (isLocal_iff d x).2 ho.1
        | asm ops s =>
          obtain ⟨o, hm, hp⟩ := List.mem_flatMap.1 ha
          simp only [termAssigns, List.any_eq_true]
          refine ⟨o, hm, ?_⟩
          have hso := s2 o hm
          cases o with
          | input p c =>
            simp only [AsmOp.places, List.mem_singleton] at hp
            subst hp
            exact absurd ho (not_overwrites hso)
          | out p =>
            cases p with
            | none => cases hp
            | some p =>
              simp only [AsmOp.places, List.mem_singleton] at hp
              subst hp
              exact (isLocal_iff p x).2 ho.1
          | inout p c q =>
            cases q with
            | none =>
              simp only [AsmOp.places, List.mem_singleton] at hp
              subst hp
              exact absurd ho (not_overwrites hso)
            | some q =>
              simp only [AsmOp.places, List.mem_cons, List.not_mem_nil, or_false] at hp
              rcases hp with rfl | rfl
              · exact absurd ho (not_overwrites hso)
              · have : q = ⟨x, []⟩ := ho.1
                subst this
                exact absurd hm (hx' ops s rfl p c)
        | other r s => exact absurd ho (not_overwrites (s2 a ha))
      · cases ha
  · rw [hb] at ha
    simp only [List.getElem?_nil, List.length_nil, Term.places] at ha
    split at ha <;> cases ha

/-- **C109**, assignments.  The positions where a local is given a new value as a whole, each of them
once.  Missing: outputs of inline assembly that are inputs too (see `inout_missed`). -/
theorem assignments_partial {m : Body} (hs : Spec.Sane m) {x : Local} (hx : Spec.NoInout m x) :
    (assignments m x).Nodup ∧ ∀ l, l ∈ assignments m x ↔ Spec.Assigned m x l := by
  constructor
  · rw [assignments, List.Nodup, List.pairwise_flatMap]
    constructor
    · intro b _
      refine List.Pairwise.filter _ ?_
      rw [List.pairwise_map]
      exact List.nodup_range.imp fun h he => h (congrArg Loc.idx he)
    · refine List.nodup_range.imp ?_
      intro b c hbc l hl k hk he
      simp only [List.mem_filter, List.mem_map] at hl hk
      obtain ⟨⟨i, -, rfl⟩, -⟩ := hl
      obtain ⟨⟨j, -, rfl⟩, -⟩ := hk
      exact hbc (congrArg Loc.block he)
  · intro l
    simp only [assignments, List.mem_flatMap, List.mem_range, List.mem_filter, List.mem_map]
    constructor
    · rintro ⟨b, hb, ⟨i, hi, rfl⟩, ha⟩
      exact isAssignment_sound (Nat.le_of_lt_succ hi) ha
    · intro h
      have ha := isAssignment_complete hs hx h
      obtain ⟨a, hm, -⟩ := h
      have hb : l.block < m.length := by
        apply Classical.byContradiction
        intro hb
        have : m[l.block]? = none := List.getElem?_eq_none_iff.2 (by omega)
        simp [Body.places, Body.block, this, Term.places] at hm
      refine ⟨l.block, hb, ⟨l.idx, ?_, rfl⟩, ha⟩
      apply Classical.byContradiction
      intro hi
      have : (m.block l.block).stmts[l.idx]? = none := List.getElem?_eq_none_iff.2 (by omega)
      simp only [Body.places, this] at hm
      rw [if_neg (by omega)] at hm
      cases hm

/-- The positions of an execution come after its first one. -/
theorem walk_after {m : Body} : ∀ {w : List Loc} {a k : Loc}, Spec.Walk m (a :: w) → k ∈ w →
    Spec.After m a k := by
  intro w
  induction w with
  | nil => intro a k _ h; cases h
  | cons b w ih =>
    intro a k hw hk
    obtain ⟨h1, h2⟩ := hw
    rcases List.mem_cons.1 hk with rfl | hk
    · exact .one h1
    · exact .more h1 (ih h2 hk)

/-- There is an execution to each later position. -/
theorem after_walk {m : Body} {a k : Loc} (h : Spec.After m a k) : ∃ w, Spec.Walk m (a :: w) ∧ k ∈ w := by
  induction h with
  | @one a k s => exact ⟨[k], ⟨s, trivial⟩, by simp⟩
  | @more a b k s _ ih =>
    obtain ⟨w, h1, h2⟩ := ih
    exact ⟨b :: w, ⟨s, h1⟩, List.mem_cons_of_mem _ h2⟩

/-- A sum over an execution that passes a position once. -/
theorem walk_sum {m : Body} {f : Loc → Nat} {l : Loc} (hl : ¬ Spec.After m l l) : ∀ {w : List Loc} {a : Loc},
    Spec.Walk m (a :: w) → (∀ k ∈ w, k ≠ l → f k = 0) → f l ≤ 1 → (w.map f).sum ≤ 1 := by
  intro w
  induction w with
  | nil => intro a _ _ _; simp
  | cons k w ih =>
    intro a hw hf h1
    obtain ⟨-, hw2⟩ := hw
    rw [List.map_cons, List.sum_cons]
    by_cases hk : k = l
    · subst hk
      have h0 : ∀ x ∈ w, f x = 0 := by
        intro x hx
        apply hf x (List.mem_cons_of_mem _ hx)
        rintro rfl
        exact hl (walk_after hw2 hx)
      have : (w.map f).sum = 0 := by
        clear ih hw2 hf
        induction w with
        | nil => rfl
        | cons y w ih' =>
          rw [List.map_cons, List.sum_cons, h0 y (by simp), ih' fun x hx => h0 x (List.mem_cons_of_mem _ hx)]
      omega
    · rw [hf k (by simp) hk]
      have := ih hw2 (fun x hx => hf x (List.mem_cons_of_mem _ hx)) h1
      omega

/-- When a local is said to be used exactly once. -/
theorem usedOnce_cases {m : Body} (hm : Spec.Closed m) {order : List Nat} (ho : Spec.Lists m 0 order)
    {x : Local} : usedOnce m x order = some true ↔
      ¬ Spec.After m ⟨0, 0⟩ ⟨0, 0⟩ ∧ ∃ l, Spec.After m ⟨0, 0⟩ l ∧ isAssignment m x l = false ∧
        Spec.mentions m (fun c => decide (Spec.IsUse c)) x l = 1 ∧ ¬ Spec.After m l l ∧
        ∀ k, Spec.After m ⟨0, 0⟩ k → k ≠ l → isAssignment m x k = false →
          Spec.mentions m (fun c => decide (Spec.IsUse c)) x k = 0 := by
  have hgu := given_up (at_ := ⟨0, 0⟩) ho (Nat.zero_le _) [x]
  cases hv : visitUsage [x] m ⟨0, 0⟩ order with
  | none =>
    simp only [usedOnce, hv, reduceCtorEq, false_iff]
    exact fun h => h.1 (hgu.1 hv)
  | some r =>
    have hna : ¬ Spec.After m ⟨0, 0⟩ ⟨0, 0⟩ := fun h => by
      have := hgu.2 h
      rw [hv] at this
      cases this
    obtain ⟨hlen, hex⟩ := usage_exact (at_ := ⟨0, 0⟩) ho (Nat.zero_le _) hv
    obtain ⟨u, rfl⟩ : ∃ u, r = [u] := List.length_eq_one_iff.1 hlen
    have hu := hex 0 x u rfl rfl
    simp only [usedOnce, hv, Option.some.injEq, hna, not_false_iff, true_and]
    have hafter : ∀ l ∈ u.uses, Spec.After m ⟨0, 0⟩ l := by
      intro l hl
      apply Classical.byContradiction
      intro hh
      exact ((hu l).2 hh).1 hl
    have hcyc : ∀ l, Spec.After m ⟨0, 0⟩ l → (blockInCycle m l.block = true ↔ Spec.After m l l) := by
      intro l hl
      rw [blockInCycle_iff hm, again_iff (after_cases hl).2]
    constructor
    · intro h
      simp only [once] at h
      split at h
      · cases h
      · rename_i l rest hf
        simp only [Bool.and_eq_true, List.isEmpty_iff, Bool.not_eq_true'] at h
        obtain ⟨rfl, hcy⟩ := h
        have hmem : l ∈ u.uses.filter fun l => !isAssignment m x l := by rw [hf]; simp
        obtain ⟨hl, hla⟩ := List.mem_filter.1 hmem
        have hal := hafter l hl
        have hcount : ∀ k, isAssignment m x k = false → u.uses.count k = [l].count k := by
          intro k hk
          rw [← hf, List.count_filter (by simp [hk])]
        refine ⟨l, hal, by simpa using hla, ?_, ?_, ?_⟩
        · rw [← ((hu l).1 hal).1, hcount l (by simpa using hla)]
          simp
        · intro hh
          have := (hcyc l hal).2 hh
          rw [hcy] at this
          cases this
        · intro k hk hne hka
          rw [← ((hu k).1 hk).1, hcount k hka]
          have hlk : l ≠ k := fun h => hne h.symm
          simp [hlk]
    · rintro ⟨l, hal, hla, h1, hn, hothers⟩
      have hcount : ∀ k, (u.uses.filter fun l => !isAssignment m x l).count k = [l].count k := by
        intro k
        by_cases hka : isAssignment m x k = true
        · have h0 : (u.uses.filter fun l => !isAssignment m x l).count k = 0 := by
            rw [List.count_eq_zero]
            intro hm'
            have := (List.mem_filter.1 hm').2
            simp [hka] at this
          have : l ≠ k := by
            rintro rfl
            rw [hla] at hka
            cases hka
          rw [h0]
          simp [this]
        · have hka' : isAssignment m x k = false := by simpa using hka
          rw [List.count_filter (by simp [hka'])]
          by_cases hkl : k = l
          · subst hkl
            rw [((hu k).1 hal).1, h1]
            simp
          · have : l ≠ k := fun h => hkl h.symm
            by_cases hk : Spec.After m ⟨0, 0⟩ k
            · rw [((hu k).1 hk).1, hothers k hk hkl hka']
              simp [this]
            · rw [List.count_eq_zero.2 ((hu k).2 hk).1]
              simp [this]
      have hperm : (u.uses.filter fun l => !isAssignment m x l).Perm [l] := List.perm_iff_count.2 hcount
      have heq := List.perm_singleton.1 hperm
      simp only [once, heq, List.isEmpty_nil, Bool.true_and]
      cases hb : blockInCycle m l.block with
      | false => rfl
      | true => exact absurd ((hcyc l hal).1 hb) hn

/-- Uses that are counted by the analysis, and others. -/
theorem reads_le (m : Body) (x : Local) (l : Loc) (h : Spec.indices m x l = 0) :
    Spec.reads m x l ≤ Spec.mentions m (fun c => decide (Spec.IsUse c)) x l := by
  rw [Spec.reads, h, Nat.add_zero, Spec.mentions]
  refine List.countP_mono_left ?_
  intro a _ ha
  simp only [Bool.and_eq_true] at ha ⊢
  exact ⟨ha.1, ha.2.1⟩

/-- **C109**, used once.  If a local is said to be used exactly once, no execution uses its value, or
a part of it, more than once.  Missing: uses at the very first position of the body, uses as an
index, and uses by a statement which gives the local a new value (see `first_missed`,
`index_missed`, `update_missed`). -/
theorem used_once_partial {m : Body} (hm : Spec.Closed m) {order : List Nat} (ho : Spec.Lists m 0 order)
    {x : Local} (hfirst : Spec.reads m x ⟨0, 0⟩ = 0) (hindex : ∀ l, Spec.indices m x l = 0)
    (hupdate : ∀ l, Spec.Assigned m x l → Spec.reads m x l = 0)
    (h : usedOnce m x order = some true) {w : List Loc} (hw : Spec.Walk m (⟨0, 0⟩ :: w)) :
    ((⟨0, 0⟩ :: w).map (Spec.reads m x)).sum ≤ 1 := by
  obtain ⟨-, l, -, -, h1, hn, hothers⟩ := (usedOnce_cases hm ho).1 h
  rw [List.map_cons, List.sum_cons, hfirst, Nat.zero_add]
  refine walk_sum hn hw ?_ ?_
  · intro k hk hne
    have ha := walk_after hw hk
    cases hka : isAssignment m x k with
    | true => exact hupdate k (isAssignment_sound (after_cases ha).2 hka)
    | false =>
      have := reads_le m x k (hindex k)
      rw [hothers k ha hne hka] at this
      omega
  · have := reads_le m x l (hindex l)
    omega

/-- **C109**, used at all.  If a local is said to be used exactly once, some execution uses it. -/
theorem used_at_all {m : Body} (hm : Spec.Closed m) {order : List Nat} (ho : Spec.Lists m 0 order)
    (hs : Spec.Sane m) {x : Local} (hx : Spec.NoInout m x) (h : usedOnce m x order = some true) :
    ∃ w, Spec.Walk m (⟨0, 0⟩ :: w) ∧ 1 ≤ ((⟨0, 0⟩ :: w).map (Spec.reads m x)).sum := by
  obtain ⟨-, l, ha, hla, h1, -, -⟩ := (usedOnce_cases hm ho).1 h
  obtain ⟨w, hw, hl⟩ := after_walk ha
  refine ⟨w, hw, ?_⟩
  have hr : 1 ≤ Spec.reads m x l := by
    have : 0 < Spec.mentions m (fun c => decide (Spec.IsUse c)) x l := by omega
    rw [Spec.mentions, List.countP_pos_iff] at this
    obtain ⟨a, hm', ha'⟩ := this
    have hno : ¬ Spec.Overwrites x a := by
      intro hov
      rw [isAssignment_complete hs hx ⟨a, hm', hov⟩] at hla
      cases hla
    have : 0 < (m.places l).countP fun a => decide (a.1.base = x) &&
        (decide (Spec.IsUse a.2) && !decide (Spec.Overwrites x a)) := by
      rw [List.countP_pos_iff]
      refine ⟨a, hm', ?_⟩
      simp only [Bool.and_eq_true] at ha' ⊢
      exact ⟨ha'.1, ha'.2, by simp [hno]⟩
    rw [Spec.reads]
    omega
  have hmem : Spec.reads m x l ∈ (⟨0, 0⟩ :: w).map (Spec.reads m x) :=
    List.mem_map.2 ⟨l, List.mem_cons_of_mem _ hl, rfl⟩
  have : ∀ (ns : List Nat) (n : Nat), n ∈ ns → n ≤ ns.sum := by
    intro ns
    induction ns with
    | nil => intro n h; cases h
    | cons y ns ih =>
      intro n h
      rw [List.sum_cons]
      rcases List.mem_cons.1 h with rfl | h
      · omega
      · have := ih n h
        omega
  have := this _ _ hmem
  omega

/-- **C109**, not too often.  If the first block can't be come to again, and just one place that is
executed later is a use of the local, by a statement which doesn't give the local a new value and
can't be executed twice, the local is said to be used exactly once. -/
theorem used_once_found {m : Body} (hm : Spec.Closed m) {order : List Nat} (ho : Spec.Lists m 0 order)
    {x : Local} (h0 : ¬ Spec.After m ⟨0, 0⟩ ⟨0, 0⟩) {l : Loc} (hl : Spec.After m ⟨0, 0⟩ l)
    (ha : ¬ Spec.Assigned m x l) (h1 : Spec.mentions m (fun c => decide (Spec.IsUse c)) x l = 1)
    (hn : ¬ Spec.After m l l) (hs : Spec.Sane m) (hx : Spec.NoInout m x)
    (hothers : ∀ k, Spec.After m ⟨0, 0⟩ k → k ≠ l → ¬ Spec.Assigned m x k →
      Spec.mentions m (fun c => decide (Spec.IsUse c)) x k = 0) :
    usedOnce m x order = some true := by
  refine (usedOnce_cases hm ho).2 ⟨h0, l, hl, ?_, h1, hn, ?_⟩
  · cases h : isAssignment m x l with
    | false => rfl
    | true => exact absurd (isAssignment_sound (after_cases hl).2 h) ha
  · intro k hk hne hka
    refine hothers k hk hne ?_
    intro hk'
    rw [isAssignment_complete hs hx hk'] at hka
    cases hka

/-- Jumps of a concrete body lead to blocks that are there. -/
theorem closed_of {m : Body} (h : ∀ d ∈ m, ∀ s ∈ d.term.succs, s < m.length) : Spec.Closed m := by
  intro b s hs
  rcases block_mem m b with hb | hb
  · exact h _ hb s hs
  · simp [Body.succs, hb, Term.succs] at hs

/-- The blocks of a concrete body. -/
theorem lists_of {m : Body} {order : List Nat} (h1 : order.Nodup) (h0 : 0 ∈ order)
    (h2 : ∀ b ∈ order, ∀ s ∈ m.succs b, s ∈ order) (h3 : ∀ c ∈ order, c = 0 ∨ Spec.Leads m 0 c) :
    Spec.Lists m 0 order := by
  refine ⟨h1, fun c => ⟨h3 c, ?_⟩⟩
  rintro (rfl | h)
  · exact h0
  · have : ∀ {b c}, Spec.Leads m b c → b ∈ order → c ∈ order := by
      intro b c h
      induction h with
      | one s => intro hb; exact h2 _ hb _ s
      | more s _ ih => intro hb; exact ih (h2 _ hb _ s)
    exact this h h0

/-- A local `_1` that is borrowed once, on the way to a call which may unwind, and dropped. -/
def demo : Body :=
  [⟨[.other [], .assign ⟨2, []⟩ [(⟨1, []⟩, .sharedBorrow)]],
      .call ⟨0, []⟩ [(⟨2, [.deref]⟩, .copy)] [1, 2]⟩,
   ⟨[], .other [(⟨1, []⟩, .drop)] []⟩,
   ⟨[.other [(⟨1, []⟩, .nonUse)]], .other [(⟨1, []⟩, .drop)] [1]⟩]

theorem demo_lists : Spec.Lists demo 0 [0, 2, 1] :=
  lists_of (by decide) (by decide) (by decide) (by
    intro c hc
    simp only [List.mem_cons, List.not_mem_nil, or_false] at hc
    rcases hc with rfl | rfl | rfl
    · exact .inl rfl
    · exact .inr (.one (by decide))
    · exact .inr (.one (by decide)))

/-- The hypotheses of the theorems are met. -/
example : Spec.Closed demo ∧ Spec.Sane demo ∧ Spec.NoInout demo 1 ∧ usedOnce demo 1 [0, 2, 1] = some true ∧
    usedOnce demo 0 [0, 2, 1] = some false ∧ usedOnce demo 2 [0, 2, 1] = some true ∧
    Spec.reads demo 1 ⟨0, 0⟩ = 0 ∧ Spec.reads demo 1 ⟨0, 1⟩ = 1 := by
  refine ⟨closed_of (by decide), ?_, ?_, by decide, by decide, by decide, by decide, by decide⟩
  · intro b hb
    simp only [demo, List.mem_cons, List.not_mem_nil, or_false] at hb
    rcases hb with rfl | rfl | rfl <;>
      simp [Spec.SaneStmt, Spec.SaneTerm, Spec.Operand]
  · intro b hb ops s h
    simp only [demo, List.mem_cons, List.not_mem_nil, or_false] at hb
    rcases hb with rfl | rfl | rfl <;> cases h

example : assignments demo 2 = [⟨0, 1⟩] ∧ assignments demo 0 = [⟨0, 2⟩] ∧
    visitUsage [1, 2] demo ⟨0, 1⟩ [0, 2, 1] = some [⟨[], []⟩, ⟨[⟨0, 2⟩], []⟩] := by decide

/-- A loop: blocks 1 and 2. -/
def looping : Body :=
  [⟨[], .other [] [1]⟩, ⟨[.other []], .other [(⟨1, []⟩, .move)] [2, 3]⟩, ⟨[], .other [] [1]⟩, ⟨[], .other [] []⟩]

example : Spec.Closed looping ∧ blockInCycle looping 0 = false ∧ blockInCycle looping 1 = true ∧
    blockInCycle looping 2 = true ∧ blockInCycle looping 3 = false ∧
    usedOnce looping 1 [0, 1, 2, 3] = some false ∧ visitUsage [1] looping ⟨2, 0⟩ [2, 1, 3] = none :=
  ⟨closed_of (by decide), by decide, by decide, by decide, by decide, by decide, by decide⟩

/-- A body of two blocks. -/
def two (s t : Stmt) : Body := [⟨[s, t], .call ⟨0, []⟩ [(⟨1, []⟩, .copy)] [1]⟩, ⟨[], .other [] []⟩]

theorem two_lists (s t : Stmt) : Spec.Closed (two s t) ∧ Spec.Lists (two s t) 0 [0, 1] := by
  have h0 : (two s t).succs 0 = [1] := rfl
  have h1 : (two s t).succs 1 = [] := rfl
  refine ⟨closed_of ?_, lists_of (by decide) (by decide) ?_ ?_⟩
  · intro d hd x hx
    simp only [two, List.mem_cons, List.not_mem_nil, or_false] at hd
    rcases hd with rfl | rfl <;> simp [Term.succs] at hx
    subst hx
    simp [two]
  · intro b hb x hx
    simp only [List.mem_cons, List.not_mem_nil, or_false] at hb
    rcases hb with rfl | rfl
    · rw [h0] at hx; exact List.mem_cons_of_mem _ hx
    · rw [h1] at hx; cases hx
  · intro c hc
    simp only [List.mem_cons, List.not_mem_nil, or_false] at hc
    rcases hc with rfl | rfl
    · exact .inl rfl
    · exact .inr (.one (by rw [h0]; simp))

theorem two_walk (s t : Stmt) : Spec.Walk (two s t) [⟨0, 0⟩, ⟨0, 1⟩, ⟨0, 2⟩] :=
  ⟨.next (by show 0 < 2; omega), .next (by show 1 < 2; omega), trivial⟩

/-- **C109**, a violation: a use by the very first statement of a body is not counted. -/
theorem first_missed : ∃ m order x w, Spec.Closed m ∧ Spec.Lists m 0 order ∧
    usedOnce m x order = some true ∧ Spec.Walk m (⟨0, 0⟩ :: w) ∧
    ((⟨0, 0⟩ :: w).map (Spec.reads m x)).sum = 2 :=
  ⟨two (.assign ⟨2, []⟩ [(⟨1, []⟩, .copy)]) (.other []), [0, 1], 1, [⟨0, 1⟩, ⟨0, 2⟩],
    (two_lists _ _).1, (two_lists _ _).2, by decide, two_walk _ _, by decide⟩

/-- **C109**, a violation: a use as an index is not counted. -/
theorem index_missed : ∃ m order x w, Spec.Closed m ∧ Spec.Lists m 0 order ∧ Spec.reads m x ⟨0, 0⟩ = 0 ∧
    usedOnce m x order = some true ∧ Spec.Walk m (⟨0, 0⟩ :: w) ∧
    ((⟨0, 0⟩ :: w).map (Spec.reads m x)).sum = 2 :=
  ⟨two (.other []) (.assign ⟨2, []⟩ [(⟨3, [.index 1]⟩, .copy)]), [0, 1], 1, [⟨0, 1⟩, ⟨0, 2⟩],
    (two_lists _ _).1, (two_lists _ _).2, by decide, by decide, two_walk _ _, by decide⟩

/-- **C109**, a violation: a use by a statement which gives the local a new value, such as
`r = &mut *r.next`, is not counted. -/
theorem update_missed : ∃ m order x w, Spec.Closed m ∧ Spec.Lists m 0 order ∧
    Spec.reads m x ⟨0, 0⟩ = 0 ∧ (∀ l, Spec.indices m x l = 0) ∧
    usedOnce m x order = some true ∧ Spec.Walk m (⟨0, 0⟩ :: w) ∧
    ((⟨0, 0⟩ :: w).map (Spec.reads m x)).sum = 2 := by
  refine ⟨two (.other []) (.assign ⟨1, []⟩ [(⟨1, [.deref]⟩, .copy)]), [0, 1], 1, [⟨0, 1⟩, ⟨0, 2⟩],
    (two_lists _ _).1, (two_lists _ _).2, by decide, ?_, by decide, two_walk _ _, by decide⟩
  intro l
  have : ∀ a ∈ (two (.other []) (.assign ⟨1, []⟩ [(⟨1, [.deref]⟩, .copy)])).places l,
      a.1.proj.count (.index 1) = 0 := by
    obtain ⟨b, i⟩ := l
    match b with
    | 0 =>
      match i with
      | 0 => decide
      | 1 => decide
      | 2 => decide
      | i + 3 => intro a ha; simp [Body.places, Body.block, two] at ha
    | 1 =>
      match i with
      | 0 => decide
      | i + 1 => intro a ha; simp [Body.places, Body.block, two] at ha
    | b + 2 => intro a ha; simp [Body.places, Body.block, two, Term.places] at ha
  rw [Spec.indices]
  generalize (two (.other []) (.assign ⟨1, []⟩ [(⟨1, [.deref]⟩, .copy)])).places l = as at this
  induction as with
  | nil => rfl
  | cons a as ih =>
    rw [List.map_cons, List.sum_cons, this a (by simp), ih fun x hx => this x (List.mem_cons_of_mem _ hx)]

/-- **C109**, a violation: an output of inline assembly that is an input too is not taken for an
assignment. -/
theorem inout_missed : ∃ m x l, Spec.Sane m ∧ Spec.Assigned m x l ∧ l ∉ assignments m x := by
  refine ⟨[⟨[], .asm [.inout ⟨1, []⟩ .copy (some ⟨1, []⟩)] []⟩], 1, ⟨0, 0⟩, ?_,
    ⟨(⟨1, []⟩, .asmOutput), by decide, rfl, .inr (.inr rfl)⟩, by decide⟩
  intro b hb
  simp only [List.mem_singleton] at hb
  subst hb
  simp [Spec.SaneTerm, Spec.SaneAsm, Spec.Operand]

end Verif.Mir
