import Verif.Recur.Model

/-!
# `only_used_in_recursion`: which parameters are reported

The search with its stack finds every way by which a parameter gets into something else than the
recursion.
-/

namespace Verif.Recur

/-- The parameter is not only used in recursion: it is not used at all, or handed to a parameter that
is not in the tables or is itself not only used in recursion, in at most `k` steps. -/
inductive EscN (P : Params) : Nat → Nat → Prop
  | unused {k i : Nat} : P.uses i = [] → EscN P k i
  | unknown {k i : Nat} (u : Nat) : u ∈ P.uses i → u ≠ i → P.known u = false → EscN P k i
  | step {k i : Nat} (u : Nat) : u ∈ P.uses i → u ≠ i → P.known u = true → EscN P k u → EscN P (k + 1) i

def Escapes (P : Params) (i : Nat) : Prop := ∃ k, EscN P k i

section
variable {P : Params}

theorem escN_succ {k i : Nat} (h : EscN P k i) : EscN P (k + 1) i := by
  induction h with
  | unused h => exact .unused h
  | unknown u h1 h2 h3 => exact .unknown u h1 h2 h3
  | step u h1 h2 h3 _ ih => exact .step u h1 h2 h3 ih

theorem escapes_step {i u : Nat} (hu : u ∈ P.uses i) (hne : u ≠ i) (hk : P.known u = true)
    (h : Escapes P u) : Escapes P i := by
  obtain ⟨k, h⟩ := h
  exact ⟨k + 1, .step u hu hne hk h⟩

/-- A flag is only taken away for a reason. -/
def Inv (P : Params) (fl : Flags) : Prop := ∀ j, fl j = false → Escapes P j

theorem inv_clear {fl : Flags} (h : Inv P fl) {i : Nat} (he : Escapes P i) : Inv P (fun j => j != i && fl j) := by
  intro j hj
  by_cases e : j = i
  · rw [e]; exact he
  · exact h j (by simpa [e] using hj)

/-- What is shown of a step of the search. -/
structure StepOk (P : Params) (i : Nat) (fl : Flags) (r : Bool × Flags) : Prop where
  inv : Inv P r.2
  esc : r.1 = true → Escapes P i
  mono : ∀ j, r.2 j = true → fl j = true
  clear : r.1 = true → r.2 i = false

theorem tryUses_ok {rec : Nat → Flags → Bool × Flags} (hr : ∀ u fl, Inv P fl → StepOk P u fl (rec u fl))
    {i : Nat} : ∀ (us : List Nat) (fl : Flags), (∀ u ∈ us, u ∈ P.uses i) → Inv P fl →
      StepOk P i fl (tryUses P rec i us fl)
  | [], fl, _, hi => ⟨hi, fun h => (by cases h), fun _ h => h, fun h => (by cases h)⟩
  | u :: us, fl, hu, hi => by
    unfold tryUses
    by_cases hui : u = i
    · rw [if_pos hui]
      exact tryUses_ok hr us fl (fun v hv => hu v (List.mem_cons_of_mem _ hv)) hi
    · rw [if_neg hui]
      by_cases hk : P.known u = true
      · rw [if_pos hk]
        have h := hr u fl hi
        rcases hrec : rec u fl with ⟨b, fl'⟩
        rw [hrec] at h
        cases b with
        | true =>
          have he : Escapes P i := escapes_step (hu u (List.mem_cons_self ..)) hui hk (h.esc rfl)
          refine ⟨inv_clear h.inv he, fun _ => he, fun j hj => h.mono j ?_, fun _ => by simp⟩
          simp only [Bool.and_eq_true] at hj
          exact hj.2
        | false =>
          have h' := tryUses_ok hr us fl' (fun v hv => hu v (List.mem_cons_of_mem _ hv)) h.inv
          exact ⟨h'.inv, h'.esc, fun j hj => h.mono j (h'.mono j hj), h'.clear⟩
      · rw [if_neg hk]
        have he : Escapes P i := ⟨0, .unknown u (hu u (List.mem_cons_self ..)) hui (eq_false_of_ne_true hk)⟩
        refine ⟨inv_clear hi he, fun _ => he, fun j hj => ?_, fun _ => by simp⟩
        simp only [Bool.and_eq_true] at hj
        exact hj.2

theorem tryDisable_ok : ∀ (n : Nat) (stack : List Nat) (i : Nat) (fl : Flags), Inv P fl →
    StepOk P i fl (tryDisable P n stack i fl)
  | 0, _, _, fl, hi => ⟨hi, fun h => (by cases h), fun _ h => h, fun h => (by cases h)⟩
  | n + 1, stack, i, fl, hi => by
    unfold tryDisable
    by_cases hf : (!fl i) = true
    · rw [if_pos hf]
      have hf' : fl i = false := by simpa using hf
      exact ⟨hi, fun _ => hi i hf', fun _ h => h, fun _ => hf'⟩
    · rw [if_neg hf]
      by_cases hu : P.uses i = []
      · rw [if_pos hu]
        have he : Escapes P i := ⟨0, .unused hu⟩
        refine ⟨inv_clear hi he, fun _ => he, fun j hj => ?_, fun _ => by simp⟩
        simp only [Bool.and_eq_true] at hj
        exact hj.2
      · rw [if_neg hu]
        by_cases hs : stack.contains i = true
        · rw [if_pos hs]
          exact ⟨hi, fun h => (by cases h), fun _ h => h, fun h => (by cases h)⟩
        · rw [if_neg hs]
          exact tryUses_ok (fun u fl hi => tryDisable_ok n _ u fl hi) _ _ (fun _ h => h) hi

/-! ### Every way is found -/

theorem tryUses_true {rec : Nat → Flags → Bool × Flags} {i : Nat} :
    ∀ (us : List Nat) (fl : Flags), (∃ u ∈ us, u ≠ i ∧ (P.known u = false ∨ ∀ fl, (rec u fl).1 = true)) →
      (tryUses P rec i us fl).1 = true
  | [], _, h => by obtain ⟨u, hu, _⟩ := h; cases hu
  | v :: us, fl, ⟨u, hu, hne, h⟩ => by
    unfold tryUses
    by_cases hvi : v = i
    · rw [if_pos hvi]
      rcases List.mem_cons.1 hu with e | hu
      · exact absurd (e.trans hvi) hne
      · exact tryUses_true us fl ⟨u, hu, hne, h⟩
    · rw [if_neg hvi]
      by_cases hk : P.known v = true
      · rw [if_pos hk]
        rcases hrec : rec v fl with ⟨b, fl'⟩
        cases b with
        | true => rfl
        | false =>
          rcases List.mem_cons.1 hu with e | hu
          · subst e
            rcases h with h | h
            · rw [h] at hk; cases hk
            · have := h fl
              rw [hrec] at this
              cases this
          · exact tryUses_true us fl' ⟨u, hu, hne, h⟩
      · rw [if_neg hk]

/-- A shortest way is found: nothing on the stack is nearer. -/
theorem tryDisable_true : ∀ (k i : Nat) (stack : List Nat) (fl : Flags) (n : Nat), EscN P k i →
    (∀ j, j < k → ¬EscN P j i) → (∀ s ∈ stack, ¬EscN P k s) → k < n → (tryDisable P n stack i fl).1 = true
  | k, i, stack, fl, 0, _, _, _, hn => absurd hn (Nat.not_lt_zero _)
  | k, i, stack, fl, n + 1, h, hmin, hst, hn => by
    unfold tryDisable
    by_cases hf : (!fl i) = true
    · rw [if_pos hf]
    · rw [if_neg hf]
      by_cases hu : P.uses i = []
      · rw [if_pos hu]
      · rw [if_neg hu]
        have hs : ¬stack.contains i = true := by
          intro hc
          exact hst i (by simpa using hc) h
        rw [if_neg hs]
        cases k with
        | zero =>
          cases h with
          | unused h => exact absurd h hu
          | unknown u hmem hne hk => exact tryUses_true _ _ ⟨u, hmem, hne, .inl hk⟩
        | succ k =>
          cases h with
          | unused h => exact absurd h hu
          | unknown u hmem hne hk => exact tryUses_true _ _ ⟨u, hmem, hne, .inl hk⟩
          | step u hmem hne hk h =>
            refine tryUses_true _ _ ⟨u, hmem, hne, .inr fun fl => ?_⟩
            refine tryDisable_true k u (i :: stack) fl n h ?_ ?_ (Nat.lt_of_succ_lt_succ hn)
            · intro j hj he
              exact hmin (j + 1) (Nat.succ_lt_succ hj) (.step u hmem hne hk he)
            · intro s hs' he
              rcases List.mem_cons.1 hs' with e | hs'
              · subst e; exact hmin k (Nat.lt_succ_self _) he
              · exact hst s hs' (escN_succ he)

theorem exists_min {p : Nat → Prop} : ∀ (k : Nat), p k → ∃ m, m ≤ k ∧ p m ∧ ∀ j, j < m → ¬p j := by
  intro k
  induction k using Nat.strongRecOn with
  | ind k ih =>
    intro h
    by_cases he : ∃ j, j < k ∧ p j
    · obtain ⟨j, hj, hp⟩ := he
      obtain ⟨m, hm, h1, h2⟩ := ih j hj hp
      exact ⟨m, by omega, h1, h2⟩
    · exact ⟨k, Nat.le_refl _, h, fun j hj hp => he ⟨j, hj, hp⟩⟩

theorem nodup_bounded : ∀ (n : Nat) (l : List Nat), l.Nodup → (∀ x ∈ l, x < n) → l.length ≤ n
  | 0, [], _, _ => Nat.le_refl _
  | 0, x :: l, _, h => absurd (h x (List.mem_cons_self ..)) (Nat.not_lt_zero _)
  | n + 1, l, hn, h => by
    by_cases hm : n ∈ l
    · have := nodup_bounded n (l.erase n) (hn.erase n) (fun x hx => by
        have h1 := h x (List.mem_of_mem_erase hx)
        have h2 : x ≠ n := ((hn.mem_erase_iff).1 hx).1
        omega)
      rw [List.length_erase_of_mem hm] at this
      omega
    · have := nodup_bounded n l hn (fun x hx => by
        have h1 := h x hx
        have h2 : x ≠ n := fun e => hm (e ▸ hx)
        omega)
      omega

/-- The parameters on a shortest way are all different. -/
theorem min_path {n : Nat} (hk : ∀ i, P.known i = true → i < n) : ∀ (k i : Nat), i < n → EscN P k i →
    (∀ j, j < k → ¬EscN P j i) → ∃ l : List Nat, l.length = k + 1 ∧ l.Nodup ∧ (∀ x ∈ l, x < n) ∧
      ∀ x ∈ l, EscN P k x
  | 0, i, hi, h, _ => ⟨[i], rfl, List.nodup_cons.2 ⟨List.not_mem_nil, List.nodup_nil⟩,
      fun x hx => by rw [List.mem_singleton.1 hx]; exact hi,
      fun x hx => by rw [List.mem_singleton.1 hx]; exact h⟩
  | k + 1, i, hi, h, hmin => by
    cases h with
    | unused h => exact absurd (.unused h) (hmin 0 (Nat.succ_pos _))
    | unknown u h1 h2 h3 => exact absurd (.unknown u h1 h2 h3) (hmin 0 (Nat.succ_pos _))
    | step u hmem hne hku h =>
      obtain ⟨l, h1, h2, h3, h4⟩ := min_path hk k u (hk u hku) h
        (fun j hj he => hmin (j + 1) (Nat.succ_lt_succ hj) (.step u hmem hne hku he))
      refine ⟨i :: l, by simp [h1], List.nodup_cons.2 ⟨fun hm => hmin k (Nat.lt_succ_self _) (h4 i hm), h2⟩, ?_, ?_⟩
      · intro x hx
        rcases List.mem_cons.1 hx with e | hx
        · rw [e]; exact hi
        · exact h3 x hx
      · intro x hx
        rcases List.mem_cons.1 hx with e | hx
        · rw [e]; exact .step u hmem hne hku h
        · exact escN_succ (h4 x hx)

theorem tryDisable_complete {n : Nat} (hk : ∀ i, P.known i = true → i < n) {i : Nat} (hi : i < n)
    (h : Escapes P i) (fl : Flags) : (tryDisable P (n + 1) [] i fl).1 = true := by
  obtain ⟨k, h⟩ := h
  obtain ⟨m, _, hm, hmin⟩ := exists_min (p := fun k => EscN P k i) k h
  obtain ⟨l, h1, h2, h3, _⟩ := min_path hk m i hi hm hmin
  have := nodup_bounded n l h2 h3
  exact tryDisable_true m i [] fl (n + 1) hm hmin (fun s hs => (by cases hs)) (by omega)

theorem flagAll_spec {n : Nat} (hk : ∀ i, P.known i = true → i < n) : ∀ (is : List Nat) (fl : Flags), Inv P fl →
    (∀ i ∈ is, i < n) → Inv P (flagAll P (n + 1) is fl) ∧ (∀ j, flagAll P (n + 1) is fl j = true → fl j = true) ∧
      ∀ i ∈ is, flagAll P (n + 1) is fl i = true → ¬Escapes P i
  | [], _, hi, _ => ⟨hi, fun _ h => h, fun _ h => (by cases h)⟩
  | i :: is, fl, hi, hlt => by
    have hs := tryDisable_ok (n + 1) [] i fl hi
    have ih := flagAll_spec hk is (tryDisable P (n + 1) [] i fl).2 hs.inv
      (fun j hj => hlt j (List.mem_cons_of_mem _ hj))
    refine ⟨ih.1, fun j hj => hs.mono j (ih.2.1 j hj), ?_⟩
    intro j hj hf he
    rcases List.mem_cons.1 hj with e | hj
    · subst e
      have := hs.clear (tryDisable_complete hk (hlt j (List.mem_cons_self ..)) he fl)
      have h2 := ih.2.1 j hf
      rw [this] at h2
      cases h2
    · exact ih.2.2 j hj hf he

/-- The flags at the end. -/
theorem flagAll_iff {n : Nat} (hk : ∀ i, P.known i = true → i < n) {is : List Nat} (hlt : ∀ i ∈ is, i < n)
    {i : Nat} (hi : i ∈ is) : flagAll P (n + 1) is (fun _ => true) i = true ↔ ¬Escapes P i := by
  have h := flagAll_spec hk is (fun _ => true) (fun _ h => by cases h) hlt
  refine ⟨h.2.2 i hi, fun hne => ?_⟩
  cases hf : flagAll P (n + 1) is (fun _ => true) i with
  | true => rfl
  | false => exact absurd (h.1 i hf) hne

end

/-! ### The tables -/

/-- The use that is recorded at an occurrence. -/
def useOf (p : Nat) (o : Nat × List Frame) : List Nat :=
  if o.1 = p then match climb p o.2 with
    | .use i => [i]
    | _ => []
  else []

/-- What the tables hold of a parameter after some occurrences. -/
theorem fold_spec (p : Nat) : ∀ (os : List (Nat × List Frame)) (P : Params), (P.known p = false → P.uses p = []) →
    ((os.foldl record P).known p = true ↔ P.known p = true ∧ ∀ o ∈ os, o.1 = p → climb p o.2 ≠ .bad) ∧
      ((os.foldl record P).known p = false → (os.foldl record P).uses p = []) ∧
      ((os.foldl record P).known p = true → (os.foldl record P).uses p = P.uses p ++ os.flatMap (useOf p))
  | [], P, h => ⟨⟨fun h => ⟨h, fun _ h => (by cases h)⟩, fun h => h.1⟩, h, fun _ => (by simp)⟩
  | o :: os, P, h => by
    simp only [List.foldl_cons]
    by_cases hp : o.1 = p
    · cases hk : P.known p with
      | false =>
        have hr : record P o = P := by unfold record; rw [hp, hk]; rfl
        rw [hr]
        have ih := fold_spec p os P h
        have hf : (os.foldl record P).known p = false := by
          cases hf : (os.foldl record P).known p with
          | false => rfl
          | true => rw [ih.1.1 hf |>.1] at hk; cases hk
        refine ⟨⟨(fun h => by rw [hf] at h; cases h), (fun h => by cases h.1)⟩, ih.2.1, (fun h => by rw [hf] at h; cases h)⟩
      | true =>
        cases hc : climb p o.2 with
        | bad =>
          have hr : record P o = { known := fun i => i != p && P.known i, uses := fun i => if i = p then [] else P.uses i } := by
            unfold record; rw [hp, hk]; simp only [if_true, hc]
          rw [hr]
          have ih := fold_spec p os { known := fun i => i != p && P.known i, uses := fun i => if i = p then [] else P.uses i }
            (fun _ => by simp)
          have hf : (os.foldl record { known := fun i => i != p && P.known i, uses := fun i => if i = p then [] else P.uses i }).known p = false := by
            cases hf : (os.foldl record { known := fun i => i != p && P.known i, uses := fun i => if i = p then [] else P.uses i }).known p with
            | false => rfl
            | true => have := (ih.1.1 hf).1; simp at this
          refine ⟨⟨(fun h => by rw [hf] at h; cases h), fun h => absurd hc (h.2 o (List.mem_cons_self ..) hp)⟩, ih.2.1,
            (fun h => by rw [hf] at h; cases h)⟩
        | use i =>
          have hr : record P o = { P with uses := fun j => if j = p then P.uses j ++ [i] else P.uses j } := by
            unfold record; rw [hp, hk]; simp only [if_true, hc]
          rw [hr]
          have ih := fold_spec p os { P with uses := fun j => if j = p then P.uses j ++ [i] else P.uses j }
            (fun hf => by rw [hk] at hf; cases hf)
          refine ⟨⟨fun h' => ?_, fun h' => ?_⟩, ih.2.1, fun h' => ?_⟩
          · have := ih.1.1 h'
            refine ⟨rfl, fun o' ho' e => ?_⟩
            rcases List.mem_cons.1 ho' with rfl | ho'
            · rw [hc]; simp
            · exact this.2 o' ho' e
          · exact ih.1.2 ⟨hk, fun o' ho' e => h'.2 o' (List.mem_cons_of_mem _ ho') e⟩
          · rw [ih.2.2 h']
            simp [useOf, hp, hc]
        | fine =>
          have hr : record P o = P := by
            unfold record; rw [hp, hk]; simp only [if_true, hc]
          rw [hr]
          have ih := fold_spec p os P h
          refine ⟨⟨fun h' => ?_, fun h' => ?_⟩, ih.2.1, fun h' => ?_⟩
          · have := ih.1.1 h'
            refine ⟨rfl, fun o' ho' e => ?_⟩
            rcases List.mem_cons.1 ho' with rfl | ho'
            · rw [hc]; simp
            · exact this.2 o' ho' e
          · exact ih.1.2 ⟨hk, fun o' ho' e => h'.2 o' (List.mem_cons_of_mem _ ho') e⟩
          · rw [ih.2.2 h']
            simp [useOf, hp, hc]
    · have hr : (record P o).known p = P.known p ∧ (record P o).uses p = P.uses p := by
        unfold record
        split
        · split
          · have : p ≠ o.1 := fun e => hp e.symm
            simp [this]
          · have : p ≠ o.1 := fun e => hp e.symm
            simp [this]
          · exact ⟨rfl, rfl⟩
        · exact ⟨rfl, rfl⟩
      have ih := fold_spec p os (record P o) (by rw [hr.1, hr.2]; exact h)
      rw [hr.1, hr.2] at ih
      refine ⟨⟨fun h' => ?_, fun h' => ?_⟩, ih.2.1, fun h' => ?_⟩
      · have := ih.1.1 h'
        refine ⟨this.1, fun o' ho' e => ?_⟩
        rcases List.mem_cons.1 ho' with rfl | ho'
        · exact absurd e hp
        · exact this.2 o' ho' e
      · exact ih.1.2 ⟨h'.1, fun o' ho' e => h'.2 o' (List.mem_cons_of_mem _ ho') e⟩
      · rw [ih.2.2 h']
        simp [useOf, hp]

theorem collect_known {f : Fn} {p : Nat} : (collect f).known p = true ↔
    (p < f.arity ∧ f.named p = true) ∧ ∀ o ∈ occs [] f.body, o.1 = p → climb p o.2 ≠ .bad := by
  rw [collect, (fold_spec p _ (start f) (fun _ => rfl)).1]
  simp [start]

theorem collect_unknown {f : Fn} {p : Nat} (h : (collect f).known p = false) : (collect f).uses p = [] :=
  (fold_spec p _ (start f) (fun _ => rfl)).2.1 h

theorem collect_uses {f : Fn} {p : Nat} (h : (collect f).known p = true) (i : Nat) :
    i ∈ (collect f).uses p ↔ ∃ o ∈ occs [] f.body, o.1 = p ∧ climb p o.2 = .use i := by
  have := (fold_spec p (occs [] f.body) (start f) (fun _ => rfl)).2.2 h
  rw [collect, this]
  simp only [start, List.nil_append, List.mem_flatMap]
  constructor
  · rintro ⟨o, ho, hi⟩
    refine ⟨o, ho, ?_⟩
    unfold useOf at hi
    split at hi
    next e =>
      split at hi
      next j hj =>
        rw [List.mem_singleton.1 hi]
        exact ⟨e, hj⟩
      next => cases hi
    next => cases hi
  · rintro ⟨o, ho, e, hc⟩
    refine ⟨o, ho, ?_⟩
    unfold useOf
    rw [if_pos e, hc]
    exact List.mem_singleton.2 rfl

theorem mem_reported {f : Fn} {p : Nat} : p ∈ reported f ↔
    (p < f.arity ∧ f.named p = true) ∧ ¬Escapes (collect f) p := by
  have hk : ∀ i, (collect f).known i = true → i < f.arity := fun i h => (collect_known.1 h).1.1
  have hlt : ∀ i ∈ (List.range f.arity).filter f.named, i < f.arity := by
    intro i hi; exact List.mem_range.1 (List.mem_filter.1 hi).1
  unfold reported
  rw [List.mem_filter]
  constructor
  · rintro ⟨h1, h2⟩
    have h := List.mem_filter.1 h1
    exact ⟨⟨List.mem_range.1 h.1, h.2⟩, (flagAll_iff hk hlt h1).1 h2⟩
  · rintro ⟨h1, h2⟩
    have h := List.mem_filter.2 ⟨List.mem_range.2 h1.1, h1.2⟩
    exact ⟨h, (flagAll_iff hk hlt h).2 h2⟩

/-- A set of parameters that are used in recursion and get nowhere else. -/
structure Closed (f : Fn) (G : Nat → Prop) : Prop where
  named : ∀ p, G p → p < f.arity ∧ f.named p = true
  good : ∀ p, G p → ∀ fs, (p, fs) ∈ occs [] f.body → climb p fs ≠ .bad
  used : ∀ p, G p → ∃ fs i, (p, fs) ∈ occs [] f.body ∧ climb p fs = .use i
  inside : ∀ p, G p → ∀ fs i, (p, fs) ∈ occs [] f.body → climb p fs = .use i → G i

/-- **C78.**  The reported parameters are such a set… -/
theorem reported_closed (f : Fn) : Closed f (· ∈ reported f) := by
  have known : ∀ p, p ∈ reported f → (collect f).known p = true := by
    intro p hp
    cases hk : (collect f).known p with
    | true => rfl
    | false => exact absurd ⟨0, .unused (collect_unknown hk)⟩ (mem_reported.1 hp).2
  refine ⟨fun p hp => (mem_reported.1 hp).1, ?_, ?_, ?_⟩
  · intro p hp fs hfs
    exact (collect_known.1 (known p hp)).2 _ hfs rfl
  · intro p hp
    have hne : (collect f).uses p ≠ [] := fun h => (mem_reported.1 hp).2 ⟨0, .unused h⟩
    obtain ⟨i, hi⟩ := List.exists_mem_of_ne_nil _ hne
    obtain ⟨o, ho, e, hc⟩ := (collect_uses (known p hp) i).1 hi
    exact ⟨o.2, i, by rw [← e]; exact ho, hc⟩
  · intro p hp fs i hfs hc
    have hi := (collect_uses (known p hp) i).2 ⟨_, hfs, rfl, hc⟩
    by_cases e : i = p
    · rw [e]; exact hp
    · cases hk : (collect f).known i with
      | false => exact absurd ⟨0, .unknown i hi e hk⟩ (mem_reported.1 hp).2
      | true =>
        exact mem_reported.2 ⟨(collect_known.1 hk).1, fun he => (mem_reported.1 hp).2 (escapes_step hi e hk he)⟩

theorem closed_not_escN {f : Fn} {G : Nat → Prop} (h : Closed f G) {k p : Nat} (he : EscN (collect f) k p) : ¬G p := by
  have known : ∀ p, G p → (collect f).known p = true := fun p hp =>
    collect_known.2 ⟨h.named p hp, fun o ho e => h.good p hp o.2 (by rw [← e]; exact ho)⟩
  induction he with
  | unused he =>
    intro hp
    obtain ⟨fs, i, hfs, hc⟩ := h.used _ hp
    have := (collect_uses (known _ hp) i).2 ⟨_, hfs, rfl, hc⟩
    rw [he] at this
    cases this
  | unknown u hu _ hk =>
    intro hp
    obtain ⟨o, ho, e, hc⟩ := (collect_uses (known _ hp) u).1 hu
    have := known u (h.inside _ hp o.2 u (by rw [← e]; exact ho) hc)
    rw [hk] at this
    cases this
  | step u hu _ _ _ ih =>
    intro hp
    obtain ⟨o, ho, e, hc⟩ := (collect_uses (known _ hp) u).1 hu
    exact ih (h.inside _ hp o.2 u (by rw [← e]; exact ho) hc)

/-- **C78.**  …and the largest one: every parameter that is only used in recursion is reported. -/
theorem reported_largest {f : Fn} {G : Nat → Prop} (h : Closed f G) {p : Nat} (hp : G p) : p ∈ reported f :=
  mem_reported.2 ⟨h.named p hp, fun ⟨_, he⟩ => closed_not_escN h he hp⟩

end Verif.Recur
