import Verif.Asserts.Spec

/-!
# Assertions that are suggested cover the indices
-/

namespace Verif.Asserts

/-! ### Indices and events -/

theorem upper_some {i : Idx} {k len : Nat} (h : i.upper = some k) : i.InBounds len ↔ k < len := by
  cases i with
  | lit k' => simp [Idx.upper] at h; subst h; rfl
  | range s c e =>
    cases e with
    | zero => simp [Idx.upper] at h
    | succ e =>
      cases c <;> simp [Idx.upper] at h <;> subst h <;> simp only [Idx.InBounds]
      omega

theorem upper_none {i : Idx} {len : Nat} (h : i.upper = none) (hl : 0 < len) : i.InBounds len := by
  cases i with
  | lit k' => simp [Idx.upper] at h
  | range s c e =>
    cases e with
    | zero => cases c <;> simp only [Idx.InBounds] <;> omega
    | succ e => cases c <;> simp [Idx.upper] at h

theorem mem_events {k : Nat} : ∀ p : P, .index k ∈ p.events ↔ ∃ i ∈ p.indices, i.upper = some k
  | .skip => by simp [P.events, P.indices]
  | .idx i => by
    simp only [P.events, P.indices, List.mem_singleton, exists_eq_left]
    cases i.upper with
    | none => simp
    | some k' => simp [eq_comm]
  | .guard op l n pa els => by
    simp only [P.events, P.indices, List.mem_append, mem_events els]
    cases lenComparison op l <;> simp
  | .seq a b | .cond a b => by
    simp only [P.events, P.indices, List.mem_append, mem_events a, mem_events b]
    constructor
    · rintro (⟨i, h1, h2⟩ | ⟨i, h1, h2⟩)
      · exact ⟨i, .inl h1, h2⟩
      · exact ⟨i, .inr h1, h2⟩
    · rintro ⟨i, h1 | h1, h2⟩
      · exact .inl ⟨i, h1, h2⟩
      · exact .inr ⟨i, h1, h2⟩

/-! ### The entry -/

theorem fold_without : ∀ (es : List Ev) (h : Nat) (f : Bool) (m : Nat), ∃ h' f' m', es.foldl Entry.step (.without h f m) = .without h' f' m' ∧
    h ≤ h' ∧ (∀ k, .index k ∈ es → k ≤ h') ∧ (h' = h ∨ .index h' ∈ es) ∧ (f' = true ↔ f = true ∧ h' = h) ∧ m ≤ m' ∧ (h' ≠ h → m < m')
  | [], h, f, m => ⟨h, f, m, rfl, by simp⟩
  | .assert c n :: es, h, f, m => by
    obtain ⟨h', f', m', e, h1, h2, h3, h4, h5, h6⟩ := fold_without es h f m
    exact ⟨h', f', m', e, h1, by simpa using h2, by simpa using h3, h4, h5, h6⟩
  | .index k :: es, h, f, m => by
    obtain ⟨h', f', m', e, h1, h2, h3, h4, h5, h6⟩ := fold_without es (max h k) (if f then decide (h ≥ k) else f) (m + 1)
    refine ⟨h', f', m', e, by omega, ?_, ?_, ?_, by omega, by omega⟩
    · intro k' hk
      simp only [List.mem_cons, Ev.index.injEq] at hk
      rcases hk with rfl | hk
      · omega
      · exact h2 k' hk
    · simp only [List.mem_cons, Ev.index.injEq]
      rcases h3 with h3 | h3
      · rcases Nat.le_total h k with hk | hk
        · right; left; omega
        · left; omega
      · exact .inr (.inr h3)
    · rw [h4]
      cases f with
      | false => simp
      | true => simp only [if_true, decide_eq_true_eq, true_and]; omega

theorem fold_with : ∀ (es : List Ev) (h : Nat) (f : Bool) (c : LC) (n m : Nat), ∃ h' f' m', es.foldl Entry.step (.withIndex h f c n m) = .withIndex h' f' c n m' ∧
    h ≤ h' ∧ (∀ k, .index k ∈ es → k ≤ h') ∧ (h' = h ∨ .index h' ∈ es) ∧ (f' = true ↔ f = true ∧ h' = h) ∧ m ≤ m' ∧ (h' ≠ h → m < m')
  | [], h, f, c, n, m => ⟨h, f, m, rfl, by simp⟩
  | .assert c' n' :: es, h, f, c, n, m => by
    obtain ⟨h', f', m', e, h1, h2, h3, h4, h5, h6⟩ := fold_with es h f c n m
    exact ⟨h', f', m', e, h1, by simpa using h2, by simpa using h3, h4, h5, h6⟩
  | .index k :: es, h, f, c, n, m => by
    obtain ⟨h', f', m', e, h1, h2, h3, h4, h5, h6⟩ := fold_with es (max h k) (if f then decide (h ≥ k) else f) c n (m + 1)
    refine ⟨h', f', m', e, by omega, ?_, ?_, ?_, by omega, by omega⟩
    · intro k' hk
      simp only [List.mem_cons, Ev.index.injEq] at hk
      rcases hk with rfl | hk
      · omega
      · exact h2 k' hk
    · simp only [List.mem_cons, Ev.index.injEq]
      rcases h3 with h3 | h3
      · rcases Nat.le_total h k with hk | hk
        · right; left; omega
        · left; omega
      · exact .inr (.inr h3)
    · rw [h4]
      cases f with
      | false => simp
      | true => simp only [if_true, decide_eq_true_eq, true_and]; omega

/-- After an assertion come other ones, then the first index. -/
theorem fold_stray (c : LC) (n : Nat) : ∀ (es : List Ev), (es.foldl Entry.step (.stray c n) = .stray c n ∧ ∀ k, .index k ∉ es) ∨
    ∃ es1 k0 es2, es = es1 ++ .index k0 :: es2 ∧ (∀ k, .index k ∉ es1) ∧ es.foldl Entry.step (.stray c n) = es2.foldl Entry.step (.withIndex k0 true c n 1)
  | [] => .inl ⟨rfl, by simp⟩
  | .index k :: es => .inr ⟨[], k, es, rfl, by simp, rfl⟩
  | .assert c' n' :: es => by
    rcases fold_stray c n es with ⟨h1, h2⟩ | ⟨es1, k0, es2, rfl, h2, h3⟩
    · exact .inl ⟨h1, by simpa using h2⟩
    · exact .inr ⟨.assert c' n' :: es1, k0, es2, rfl, by simpa using h2, h3⟩

/-- The comparison recorded. -/
def LC.holds (c : LC) (n len : Nat) : Prop :=
  match c with
  | .lenLt => len < n
  | .intLt => n < len
  | .lenLe => len ≤ n
  | .intLe => n ≤ len
  | .eq => len = n

theorem comparison_holds {op : Op} {l : Bool} {c : LC} (h : lenComparison op l = some c) (n len : Nat) : c.holds n len ↔ op.holds l n len := by
  cases op <;> cases l <;> simp [lenComparison] at h <;> subst h <;> simp [LC.holds, Op.holds, eq_comm]

/-- What is known about code for which something is reported. -/
structure Facts (p : P) (h : Nat) : Prop where
  pos : 0 < h
  mem : .index h ∈ p.events
  max : ∀ k, .index k ∈ p.events → k ≤ h

theorem lint_cases {p : P} {r : Report} (hl : lint p = some r) :
    (∃ h, r = .add h ∧ Facts p h ∧ ∃ k es, p.events = .index k :: es) ∨
    ∃ h c n es, Facts p h ∧ p.events = .assert c n :: es ∧
      ((r = .replaceGt h ∧ (c = .lenLt ∨ c = .lenLe ∨ (c = .intLt ∧ n < h) ∨ (c = .intLe ∧ n ≤ h))) ∨ (r = .replaceEq (h + 1) ∧ c = .eq ∧ n < h + 1)) := by
  unfold lint at hl
  cases hev : p.events with
  | nil => rw [hev] at hl; simp [Entry.report] at hl
  | cons e es =>
    rw [hev] at hl
    cases e with
    | index k0 =>
      obtain ⟨h', f', m', he, h1, h2, h3, h4, h5, h6⟩ := fold_without es k0 true 1
      have he' : List.foldl Entry.step .empty (.index k0 :: es) = .without h' f' m' := he
      rw [he'] at hl
      simp only [Entry.report] at hl
      split at hl
      · next hc =>
        cases hl
        have hne : h' ≠ k0 := fun e => by have := h4.2 ⟨rfl, e⟩; rw [hc.2] at this; cases this
        refine .inl ⟨h', rfl, ⟨by omega, ?_, ?_⟩, k0, es, rfl⟩
        · rw [hev]; exact List.mem_cons_of_mem _ (h3.resolve_left hne)
        · intro k hk
          rw [hev] at hk
          simp only [List.mem_cons, Ev.index.injEq] at hk
          rcases hk with rfl | hk
          · exact h1
          · exact h2 k hk
      · cases hl
    | assert c n =>
      have hst : List.foldl Entry.step .empty (.assert c n :: es) = es.foldl Entry.step (.stray c n) := rfl
      rw [hst] at hl
      rcases fold_stray c n es with ⟨hs, _⟩ | ⟨es1, k0, es2, rfl, hno, hs⟩
      · rw [hs] at hl; simp [Entry.report] at hl
      · rw [hs] at hl
        obtain ⟨h', f', m', he, h1, h2, h3, h4, h5, h6⟩ := fold_with es2 k0 true c n 1
        rw [he] at hl
        simp only [Entry.report] at hl
        split at hl
        · next hc =>
          have hne : h' ≠ k0 := fun e => by have := h4.2 ⟨rfl, e⟩; rw [hc.2] at this; cases this
          refine .inr ⟨h', c, n, _, ⟨by omega, ?_, ?_⟩, rfl, ?_⟩
          · rw [hev]; simp [h3.resolve_left hne]
          · intro k hk
            rw [hev] at hk
            simp only [List.mem_cons, List.mem_append, Ev.index.injEq, hno, false_or, reduceCtorEq] at hk
            rcases hk with rfl | hk
            · exact h1
            · exact h2 k hk
          · cases c <;> simp only at hl
            · cases hl; simp
            · split at hl
              · next hlt => cases hl; simp [hlt]
              · cases hl
            · cases hl; simp
            · split at hl
              · next hlt => cases hl; simp [hlt]
              · cases hl
            · split at hl
              · next hlt => cases hl; simp [hlt]
              · cases hl
        · cases hl

/-- A length greater than the number suggested is enough for all indices. -/
theorem facts_cover {p : P} {h : Nat} (hf : Facts p h) {len : Nat} (hl : h < len) : ∀ i ∈ p.indices, i.InBounds len := by
  intro i hi
  cases hu : i.upper with
  | none => exact upper_none hu (by have := hf.pos; omega)
  | some k =>
    have := hf.max k ((mem_events p).2 ⟨i, hi, hu⟩)
    exact (upper_some hu).2 (by omega)

/-- If the suggested assertion holds, the slice is long enough for every index in the body, whether it is executed or not. -/
theorem covers {p : P} {r : Report} (hl : lint p = some r) {len : Nat} (hr : r.Holds len) : ∀ i ∈ p.indices, i.InBounds len := by
  rcases lint_cases hl with ⟨h, rfl, hf, _⟩ | ⟨h, c, n, es, hf, _, ⟨rfl, _⟩ | ⟨rfl, _⟩⟩
  · exact facts_cover hf hr
  · exact facts_cover hf hr
  · exact facts_cover hf (by simp only [Report.Holds] at hr; omega)

/-- The suggested length isn't greater than necessary: if the slice is too short for the assertion, then it is for some index. -/
theorem necessary {p : P} {r : Report} (hl : lint p = some r) {len : Nat} (hr : r.TooShort len) : ∃ i ∈ p.indices, ¬ i.InBounds len := by
  have key : ∀ h, Facts p h → len ≤ h → ∃ i ∈ p.indices, ¬ i.InBounds len := by
    intro h hf hle
    obtain ⟨i, hi, hu⟩ := (mem_events p).1 hf.mem
    exact ⟨i, hi, fun hb => by have := (upper_some hu).1 hb; omega⟩
  rcases lint_cases hl with ⟨h, rfl, hf, _⟩ | ⟨h, c, n, es, hf, _, ⟨rfl, _⟩ | ⟨rfl, _⟩⟩
  · exact key h hf hr
  · exact key h hf hr
  · exact key h hf (by simp only [Report.TooShort] at hr; omega)

/-- If nothing is reported for code that starts with an assertion, then the first index is the highest one, or the assertion covers all indices (or
can't hold). -/
theorem quiet_assert {p : P} {c : LC} {n : Nat} {es : List Ev} (hl : lint p = none) (he : p.events = .assert c n :: es) :
    (∀ k, .index k ∉ es) ∨ (∃ es1 k0 es2, es = es1 ++ .index k0 :: es2 ∧ (∀ k, .index k ∉ es1) ∧ ∀ k, .index k ∈ es → k ≤ k0) ∨
    ∀ len, c.holds n len → ∀ i ∈ p.indices, i.InBounds len := by
  unfold lint at hl
  have hst : List.foldl Entry.step .empty (.assert c n :: es) = es.foldl Entry.step (.stray c n) := rfl
  rw [he, hst] at hl
  rcases fold_stray c n es with ⟨_, hs⟩ | ⟨es1, k0, es2, rfl, hno, hs⟩
  · exact .inl hs
  · right
    rw [hs] at hl
    obtain ⟨h', f', m', he', h1, h2, h3, h4, h5, h6⟩ := fold_with es2 k0 true c n 1
    rw [he'] at hl
    simp only [Entry.report] at hl
    have hmax : ∀ k, .index k ∈ es1 ++ Ev.index k0 :: es2 → k ≤ h' := by
      intro k hk
      simp only [List.mem_cons, List.mem_append, Ev.index.injEq, hno, false_or] at hk
      rcases hk with rfl | hk
      · exact h1
      · exact h2 k hk
    by_cases hk : h' = k0
    · exact .inl ⟨es1, k0, es2, rfl, hno, fun k hk' => hk ▸ hmax k hk'⟩
    · right
      have hf : f' = false := by
        cases hff : f' with
        | false => rfl
        | true => exact absurd (h4.1 hff).2 hk
      have hfacts : Facts p h' := ⟨by omega, by rw [he]; simp [h3.resolve_left hk], fun k hk' => hmax k (by rw [he] at hk'; simpa using hk')⟩
      rw [if_pos ⟨by have := h6 hk; omega, hf⟩] at hl
      intro len hh
      refine facts_cover hfacts ?_
      cases c <;> simp only [reduceCtorEq, ite_eq_right_iff, imp_false] at hl <;> simp only [LC.holds] at hh <;> omega

/-- If nothing is reported for code in which an index comes before the assertions, then it is the highest one. -/
theorem quiet_index {p : P} {k0 : Nat} {es : List Ev} (hl : lint p = none) (he : p.events = .index k0 :: es) : ∀ k, .index k ∈ es → k ≤ k0 := by
  unfold lint at hl
  obtain ⟨h', f', m', he', h1, h2, h3, h4, h5, h6⟩ := fold_without es k0 true 1
  have he2 : List.foldl Entry.step .empty (.index k0 :: es) = .without h' f' m' := he'
  rw [he, he2] at hl
  simp only [Entry.report] at hl
  intro k hk
  have := h2 k hk
  by_cases hne : h' = k0
  · omega
  · exfalso
    have hf : f' = false := by
      cases hff : f' with
      | false => rfl
      | true => exact absurd (h4.1 hff).2 hne
    rw [if_pos ⟨by have := h6 hne; omega, hf⟩] at hl
    cases hl

/-! ### Code without conditions -/

/-- Nothing panics. -/
def P.Fine (len : Nat) : P → Prop
  | .skip => True
  | .idx i => i.InBounds len ∧ i.Ordered
  | .guard op l n _ els => op.holds l n len ∧ els.Fine len
  | .seq a b | .cond a b => a.Fine len ∧ b.Fine len

theorem runs_straight (len : Nat) : ∀ p : P, p.Straight → ∀ o, runs len p o ↔ (o = .ok ∧ p.Fine len) ∨ (o = .panic ∧ ¬ p.Fine len)
  | .skip, _, o => by simp [runs, P.Fine]
  | .idx i, _, o => by simp [runs, P.Fine]
  | .guard op l n pa els, h, o => by
    obtain ⟨rfl, rfl⟩ := h
    simp only [runs, P.Fine, and_true, if_true]
    constructor
    · rintro (⟨h1, h2⟩ | ⟨h1, h2⟩)
      · exact .inl ⟨h2, h1⟩
      · exact .inr ⟨h2, h1⟩
    · rintro (⟨h1, h2⟩ | ⟨h1, h2⟩)
      · exact .inl ⟨h2, h1⟩
      · exact .inr ⟨h2, h1⟩
  | .seq a b, h, o => by
    simp only [runs, runs_straight len a h.1, runs_straight len b h.2, P.Fine]
    by_cases ha : a.Fine len <;> by_cases hb : b.Fine len <;> cases o <;> simp [ha, hb]
  | .cond a b, h, _ => h.elim

theorem fine_indices (len : Nat) : ∀ p : P, p.Fine len → ∀ i ∈ p.indices, i.InBounds len
  | .skip, _ => by simp [P.indices]
  | .idx i, h => by simpa [P.indices] using h.1
  | .guard op l n pa els, h => fine_indices len els h.2
  | .seq a b, h | .cond a b, h => by
    intro i hi
    simp only [P.indices, List.mem_append] at hi
    exact hi.elim (fine_indices len a h.1 i) (fine_indices len b h.2 i)

/-- What a replacement of the first assertion does. -/
theorem replace_fine {op' : Op} {l' : Bool} {n' : Nat} : ∀ (p p' : P), p.Straight → replaceFirst (.guard op' l' n' true .skip) p = some p' →
    p'.Straight ∧ (∃ es1 c n es2, p.events = es1 ++ .assert c n :: es2 ∧ (∀ c n, .assert c n ∉ es1) ∧
      ∀ len, ∃ R, (p.Fine len ↔ c.holds n len ∧ R) ∧ (p'.Fine len ↔ op'.holds l' n' len ∧ R)) ∧ p'.indices = p.indices
  | .skip, _, _, h => by simp [replaceFirst] at h
  | .idx i, _, _, h => by simp [replaceFirst] at h
  | .guard op l n pa els, p', hs, h => by
    obtain ⟨rfl, rfl⟩ := hs
    simp only [replaceFirst] at h
    split at h
    · next hc =>
      cases h
      obtain ⟨c, hc⟩ := Option.isSome_iff_exists.1 hc
      refine ⟨⟨rfl, rfl⟩, ⟨[], c, n, [], by simp [P.events, hc], by simp, fun len => ⟨True, ?_, ?_⟩⟩, rfl⟩
      · simp [P.Fine, comparison_holds hc]
      · simp [P.Fine]
    · simp at h
  | .seq a b, p', hs, h => by
    simp only [replaceFirst] at h
    cases ha : replaceFirst (.guard op' l' n' true .skip) a with
    | some a' =>
      rw [ha] at h
      cases h
      obtain ⟨hs', ⟨es1, c, n, es2, he, hno, hR⟩, hix⟩ := replace_fine a a' hs.1 ha
      refine ⟨⟨hs', hs.2⟩, ⟨es1, c, n, es2 ++ b.events, by simp [P.events, he], hno, fun len => ?_⟩, by simp [P.indices, hix]⟩
      obtain ⟨R, h1, h2⟩ := hR len
      exact ⟨R ∧ b.Fine len, by simp [P.Fine, h1, and_assoc], by simp [P.Fine, h2, and_assoc]⟩
    | none =>
      rw [ha] at h
      simp only [Option.map_eq_some_iff] at h
      obtain ⟨b', hb, rfl⟩ := h
      obtain ⟨hs', ⟨es1, c, n, es2, he, hno, hR⟩, hix⟩ := replace_fine b b' hs.2 hb
      have hnoa : ∀ (a : P), replaceFirst (.guard op' l' n' true .skip) a = none → ∀ c n, .assert c n ∉ a.events := by
        intro a
        induction a with
        | skip => simp [P.events]
        | idx i => intro _ c n; simp only [P.events]; cases i.upper <;> simp
        | guard op l n pa els ih =>
          intro h c n'
          simp only [replaceFirst] at h
          split at h
          · cases h
          · next hc =>
            have hc : lenComparison op l = none := by simpa using hc
            simp only [P.events, hc, List.nil_append]
            exact ih (by simpa using h) c n'
        | seq a b iha ihb | cond a b iha ihb =>
          intro h c n
          simp only [replaceFirst] at h
          split at h
          · cases h
          · next hn =>
            simp only [P.events, List.mem_append, not_or]
            exact ⟨iha hn c n, ihb (by simpa using h) c n⟩
      refine ⟨⟨hs.1, hs'⟩, ⟨a.events ++ es1, c, n, es2, by simp [P.events, he], ?_, fun len => ?_⟩, by simp [P.indices, hix]⟩
      · intro c n hm
        simp only [List.mem_append] at hm
        exact hm.elim (hnoa a ha c n) (hno c n)
      · obtain ⟨R, h1, h2⟩ := hR len
        refine ⟨a.Fine len ∧ R, ?_, ?_⟩
        · simp only [P.Fine, h1]
          constructor
          · rintro ⟨x, y, z⟩; exact ⟨y, x, z⟩
          · rintro ⟨y, x, z⟩; exact ⟨x, y, z⟩
        · simp only [P.Fine, h2]
          constructor
          · rintro ⟨x, y, z⟩; exact ⟨y, x, z⟩
          · rintro ⟨y, x, z⟩; exact ⟨x, y, z⟩
  | .cond a b, _, hs, _ => hs.elim

/-- In code without conditions, the suggestion changes nothing: the code with it panics for the same lengths.

What is missing: code with conditions, assertions of upper bounds and of equality, guards that don't panic; for all of them it is false
(`Witness`). -/
theorem same_partial {p p' : P} {r : Report} (hl : lint p = some r) (ha : r.apply p = some p') (hs : p.Straight)
    (hc : ∀ c n es, p.events = .assert c n :: es → c = .intLt ∨ c = .intLe) (len : Nat) (o : Out) : runs len p' o ↔ runs len p o := by
  have hfine : p'.Straight ∧ (p'.Fine len ↔ p.Fine len) := by
    rcases lint_cases hl with ⟨h, rfl, hf, _⟩ | ⟨h, c, n, es, hf, he, hr⟩
    · cases ha
      refine ⟨⟨⟨rfl, rfl⟩, hs⟩, ?_⟩
      simp only [P.Fine, and_true, and_iff_right_iff_imp]
      intro hp
      obtain ⟨i, hi, hu⟩ := (mem_events p).1 hf.mem
      exact (upper_some hu).1 (fine_indices len p hp i hi)
    · have hn : r = .replaceGt h ∧ ((c = .intLt ∧ n < h) ∨ (c = .intLe ∧ n ≤ h)) := by
        rcases hr with ⟨rfl, h⟩ | ⟨rfl, h, _⟩
        · refine ⟨rfl, ?_⟩
          have := hc c n es he
          rcases h with rfl | rfl | h | h <;> simp_all
        · have := hc c n es he
          simp_all
      obtain ⟨rfl, hn⟩ := hn
      obtain ⟨hs', ⟨es1, c', n', es2, he', hno, hR⟩, hix⟩ := replace_fine p p' hs ha
      have : es1 = [] ∧ c' = c ∧ n' = n := by
        rw [he] at he'
        cases es1 with
        | nil => simp at he'; simp [he'.1]
        | cons e es1 =>
          simp only [List.cons_append, List.cons.injEq] at he'
          exact absurd (by simp [← he'.1]) (hno c n)
      obtain ⟨_, rfl, rfl⟩ := this
      refine ⟨hs', ?_⟩
      obtain ⟨R, h1, h2⟩ := hR len
      obtain ⟨i, hi, hu⟩ := (mem_events p).1 hf.mem
      have hh : ∀ p'' : P, p''.indices = p.indices → p''.Fine len → h < len := fun p'' e hp =>
        (upper_some hu).1 (fine_indices len p'' hp i (e ▸ hi))
      constructor
      · intro hp
        have := hh p' hix hp
        refine h1.2 ⟨?_, (h2.1 hp).2⟩
        rcases hn with ⟨rfl, hn⟩ | ⟨rfl, hn⟩ <;> simp only [LC.holds] <;> omega
      · intro hp
        exact h2.2 ⟨hh p rfl hp, (h1.1 hp).2⟩
  rw [runs_straight len p' hfine.1, runs_straight len p hs, hfine.2]

end Verif.Asserts
