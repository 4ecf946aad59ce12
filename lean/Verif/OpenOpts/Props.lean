import Verif.OpenOpts.Model

/-!
# Properties: options for opening files
-/

namespace Verif.OpenOpts

/-- The calls of a chain that set an option. -/
def sets : List Call → List Set
  | [] => []
  | .set s :: r => s :: sets r
  | .skip :: r => sets r
  | .bad :: r => sets r

theorem sets_append (a b : List Call) : sets (a ++ b) = sets a ++ sets b := by
  induction a with
  | nil => rfl
  | cons c a ih => cases c <;> simp [sets, ih]

theorem sets_reverse (a : List Call) : sets a.reverse = (sets a).reverse := by
  induction a with
  | nil => rfl
  | cons c a ih =>
    rw [List.reverse_cons, sets_append, ih]
    cases c <;> simp [sets]

theorem collect_iff (known : Bool) (l : List Call) : ∀ acc r, getOpenOptions known acc l = some r ↔ known = true ∧ .bad ∉ l ∧ r = acc ++ sets l := by
  induction l with
  | nil =>
    intro acc r
    cases known
    · simp [getOpenOptions]
    · simp [getOpenOptions, sets, eq_comm]
  | cons c l ih =>
    intro acc r
    cases c with
    | set s => rw [getOpenOptions, ih]; simp [sets]
    | skip => rw [getOpenOptions, ih]; simp [sets]
    | bad => rw [getOpenOptions]; simp

/-- A chain is looked at exactly if it begins with a known constructor and has no strange calls. -/
theorem check_iff (known : Bool) (chain : List Call) (r : Reports) :
    check known chain = some r ↔ known = true ∧ .bad ∉ chain ∧ r = checkOpenOptions (sets chain).reverse := by
  unfold check
  rw [Option.map_eq_some_iff]
  constructor
  · rintro ⟨l, h, e⟩
    obtain ⟨h1, h2, h3⟩ := (collect_iff known _ _ _).1 h
    exact ⟨h1, by simpa using h2, by rw [← e, h3, List.nil_append, sets_reverse]⟩
  · rintro ⟨h1, h2, h3⟩
    exact ⟨_, (collect_iff known _ [] _).2 ⟨h1, by simpa using h2, rfl⟩, by rw [List.nil_append, sets_reverse, h3]⟩

/-- The last call of an option in the order of the map. -/
def lastOf (o : Opt) : List Set → Option (Arg × Nat)
  | [] => none
  | s :: r => match lastOf o r with
    | some x => some x
    | none => if s.opt = o then some (s.arg, s.span) else none

theorem fill_get (l : List Set) : ∀ m d o, get (fill m d l).2 o = (lastOf o l).or (get m o) := by
  induction l with
  | nil => intro m d o; simp [fill, lastOf]
  | cons s l ih =>
    intro m d o
    have : get (fill m d (s :: l)).2 o = (lastOf o l).or (get ((s.opt, s.arg, s.span) :: m) o) := by
      rw [fill]
      split <;> exact ih _ _ _
    rw [this, get, lastOf]
    cases lastOf o l with
    | some x => rfl
    | none =>
      by_cases h : s.opt = o
      · simp [h]
      · simp [h]

theorem lastOf_append (o : Opt) (l : List Set) (s : Set) : lastOf o (l ++ [s]) = if s.opt = o then some (s.arg, s.span) else lastOf o l := by
  induction l with
  | nil => simp [lastOf]
  | cons x l ih =>
    rw [List.cons_append, lastOf, ih]
    by_cases h : s.opt = o
    · simp [h]
    · simp [h, lastOf]

/-- What the map has for an option: the first call in the order of the program. -/
theorem get_first (l : List Set) (o : Opt) : get (fill [] [] l.reverse).2 o = (l.find? fun s => s.opt = o).map fun s => (s.arg, s.span) := by
  rw [fill_get]
  have : get [] o = none := rfl
  rw [this, Option.or_none]
  induction l with
  | nil => rfl
  | cons s l ih =>
    rw [List.reverse_cons, lastOf_append]
    by_cases h : s.opt = o
    · rw [if_pos h, List.find?_cons_of_pos (by simpa using h)]; rfl
    · rw [if_neg h, List.find?_cons_of_neg (by simpa using h), ih]

theorem run_other (env : Nat → Bool) (l : List Set) (o : Opt) : ∀ st, (∀ s ∈ l, s.opt ≠ o) → run env st l o = st o := by
  induction l with
  | nil => intro st _; rfl
  | cons s l ih =>
    intro st h
    rw [run, ih _ (fun x hx => h x (List.mem_cons_of_mem _ hx))]
    exact if_neg (fun e => h s List.mem_cons_self e.symm)

/-- If no option is set twice, the option has the value of its only call. -/
theorem run_once (env : Nat → Bool) (l : List Set) (o : Opt) : ∀ st, Once l →
    run env st l o = match l.find? (fun s => s.opt = o) with | some s => s.value env | none => st o := by
  induction l with
  | nil => intro st _; rfl
  | cons s l ih =>
    intro st h
    unfold Once at h
    rw [List.map_cons, List.nodup_cons] at h
    by_cases hs : s.opt = o
    · rw [List.find?_cons_of_pos (by simpa using hs), run, run_other]
      · simp [hs]
      · intro x hx e
        exact h.1 (List.mem_map.2 ⟨x, hx, by rw [e, hs]⟩)
    · rw [List.find?_cons_of_neg (by simpa using hs), run, ih _ h.2]
      split
      · rfl
      · exact if_neg (fun e => hs e.symm)

theorem isOn_run (env : Nat → Bool) (l : List Set) (o : Opt) (h : Once l) (hk : isOn (get (fill [] [] l.reverse).2 o) = true) : run env off l o = true := by
  rw [get_first] at hk
  rw [run_once env l o off h]
  cases hf : l.find? (fun s => s.opt = o) with
  | none => rw [hf] at hk; cases hk
  | some s =>
    rw [hf] at hk
    simp only [Option.map_some] at hk
    unfold isOn at hk
    split at hk
    · rename_i heq
      injection heq with heq
      injection heq with heq _
      simp [Set.value, heq]
    · cases hk

theorem isOff_run (env : Nat → Bool) (l : List Set) (o : Opt) (h : Once l) (hk : isOff (get (fill [] [] l.reverse).2 o) = true) : run env off l o = false := by
  rw [get_first] at hk
  rw [run_once env l o off h]
  cases hf : l.find? (fun s => s.opt = o) with
  | none => rfl
  | some s =>
    rw [hf] at hk
    simp only [Option.map_some] at hk
    unfold isOff at hk
    split at hk
    · rename_i heq; cases heq
    · rename_i heq
      injection heq with heq
      injection heq with heq _
      simp [Set.value, heq]
    · cases hk

/-- A file that is reported as truncated and read cannot be opened. Partial: no option is set twice, and no new file is asked for; see `later_call` and `new_file`. -/
theorem truncate_read_partial (known : Bool) (chain : List Call) (r : Reports) (h : check known chain = some r) (hr : r.truncateRead = true) (ho : Once (sets chain))
    (env : Nat → Bool) (hn : run env off (sets chain) .createNew = false) : Invalid (run env off (sets chain)) := by
  obtain ⟨_, _, e⟩ := (check_iff known chain r).1 h
  rw [e] at hr
  simp only [checkOpenOptions, Bool.and_eq_true] at hr
  have ht := isOn_run env _ .truncate ho hr.1.2
  have hw := isOff_run env _ .write ho hr.2
  cases ha : run env off (sets chain) .append
  · exact Or.inl ⟨hw, ha, Or.inl ht⟩
  · exact Or.inr ⟨ha, ht, hn⟩

/-- A file that is reported as appended and truncated cannot be opened. Partial as before. -/
theorem append_truncate_partial (known : Bool) (chain : List Call) (r : Reports) (h : check known chain = some r) (hr : r.appendTruncate = true) (ho : Once (sets chain))
    (env : Nat → Bool) (hn : run env off (sets chain) .createNew = false) : Invalid (run env off (sets chain)) := by
  obtain ⟨_, _, e⟩ := (check_iff known chain r).1 h
  rw [e] at hr
  simp only [checkOpenOptions, Bool.and_eq_true] at hr
  exact Or.inr ⟨isOn_run env _ .append ho hr.1, isOn_run env _ .truncate ho hr.2, hn⟩

/-- A file that is reported because it may be created keeps its old content if it exists. Partial as before. -/
theorem create_partial (known : Bool) (chain : List Call) (r : Reports) (h : check known chain = some r) (hr : r.create = true) (ho : Once (sets chain))
    (env : Nat → Bool) (hn : run env off (sets chain) .createNew = false) :
    KeepsOld (run env off (sets chain)) ∧ run env off (sets chain) .create = true ∧ ∀ s ∈ sets chain, s.opt ≠ .truncate := by
  obtain ⟨_, _, e⟩ := (check_iff known chain r).1 h
  rw [e] at hr
  simp only [checkOpenOptions, Bool.and_eq_true] at hr
  have hnone : ∀ s ∈ sets chain, s.opt ≠ .truncate := by
    have := hr.1.2
    rw [get_first, Option.isNone_map, Option.isNone_iff_eq_none, List.find?_eq_none] at this
    intro s hs
    simpa using this s hs
  exact ⟨⟨hn, run_other env _ _ _ hnone, isOff_run env _ .append ho hr.2⟩, isOn_run env _ .create ho hr.1.1, hnone⟩

theorem find_once (l : List Set) (x : Set) (h : Once l) (hx : x ∈ l) : l.find? (fun s => s.opt = x.opt) = some x := by
  induction l with
  | nil => cases hx
  | cons y l ih =>
    unfold Once at h
    rw [List.map_cons, List.nodup_cons] at h
    rcases List.mem_cons.1 hx with hx | hx
    · rw [hx, List.find?_cons_of_pos (by simp)]
    · rw [List.find?_cons_of_neg, ih h.2 hx]
      simp only [decide_eq_true_eq]
      intro e
      exact h.1 (List.mem_map.2 ⟨x, hx, e.symm⟩)

theorem isOn_of (l : List Set) (x : Set) (h : Once l) (hx : x ∈ l) (o : Opt) (e : x.opt = o) (ea : x.arg = .lit true) :
    isOn (get (fill [] [] l.reverse).2 o) = true := by
  have f := find_once l x h hx
  rw [e] at f
  rw [get_first, f]
  simp [isOn, ea]

theorem isOff_of (l : List Set) (o : Opt) (hw : ∀ s ∈ l, s.opt = o → s.arg = .lit false) : isOff (get (fill [] [] l.reverse).2 o) = true := by
  rw [get_first]
  cases hf : l.find? (fun s => s.opt = o) with
  | none => rfl
  | some s =>
    have h1 := List.mem_of_find?_eq_some hf
    have h2 := List.find?_some hf
    simp only [decide_eq_true_eq] at h2
    simp [isOff, hw s h1 h2]

/-- Calls that are certain to be nonsense are reported: `read` and `truncate` with `true`, and `write` not set or `false`. -/
theorem truncate_read_reported (chain : List Call) (hb : .bad ∉ chain) (a b : Set) (ho : Once (sets chain)) (ha : a ∈ sets chain) (hb2 : b ∈ sets chain)
    (ea : a.opt = .read ∧ a.arg = .lit true) (eb : b.opt = .truncate ∧ b.arg = .lit true) (hw : ∀ s ∈ sets chain, s.opt = .write → s.arg = .lit false) :
    ∃ r, check true chain = some r ∧ r.truncateRead = true := by
  refine ⟨_, (check_iff true chain _).2 ⟨rfl, hb, rfl⟩, ?_⟩
  simp only [checkOpenOptions, Bool.and_eq_true]
  exact ⟨⟨isOn_of _ a ho ha _ ea.1 ea.2, isOn_of _ b ho hb2 _ eb.1 eb.2⟩, isOff_of _ _ hw⟩

/-- So are `append` and `truncate` with `true`. -/
theorem append_truncate_reported (chain : List Call) (hb : .bad ∉ chain) (a b : Set) (ho : Once (sets chain)) (ha : a ∈ sets chain) (hb2 : b ∈ sets chain)
    (ea : a.opt = .append ∧ a.arg = .lit true) (eb : b.opt = .truncate ∧ b.arg = .lit true) : ∃ r, check true chain = some r ∧ r.appendTruncate = true := by
  refine ⟨_, (check_iff true chain _).2 ⟨rfl, hb, rfl⟩, ?_⟩
  simp only [checkOpenOptions, Bool.and_eq_true]
  exact ⟨isOn_of _ a ho ha _ ea.1 ea.2, isOn_of _ b ho hb2 _ eb.1 eb.2⟩

/-- And `create` with `true` when `truncate` is not called and `append` is not set. -/
theorem create_reported (chain : List Call) (hb : .bad ∉ chain) (a : Set) (ho : Once (sets chain)) (ha : a ∈ sets chain)
    (ea : a.opt = .create ∧ a.arg = .lit true) (ht : ∀ s ∈ sets chain, s.opt ≠ .truncate) (hw : ∀ s ∈ sets chain, s.opt = .append → s.arg = .lit false) :
    ∃ r, check true chain = some r ∧ r.create = true := by
  refine ⟨_, (check_iff true chain _).2 ⟨rfl, hb, rfl⟩, ?_⟩
  simp only [checkOpenOptions, Bool.and_eq_true]
  refine ⟨⟨isOn_of _ a ho ha _ ea.1 ea.2, ?_⟩, isOff_of _ _ hw⟩
  rw [get_first, Option.isNone_map, Option.isNone_iff_eq_none, List.find?_eq_none]
  intro s hs
  simpa using ht s hs

theorem fill_dups (l : List Set) : ∀ m d n, n ∈ (fill m d l).1 ↔ n ∈ d ∨ (∃ l1 s l2, l = l1 ++ s :: l2 ∧ ∃ x, ((lastOf s.opt l1).or (get m s.opt)) = some (x, n)) := by
  induction l with
  | nil => intro m d n; simp [fill]
  | cons s l ih =>
    intro m d n
    have key : (∃ l1 t l2, s :: l = l1 ++ t :: l2 ∧ ∃ x, ((lastOf t.opt l1).or (get m t.opt)) = some (x, n)) ↔
        (∃ x, get m s.opt = some (x, n)) ∨ ∃ l1 t l2, l = l1 ++ t :: l2 ∧ ∃ x, ((lastOf t.opt l1).or (get ((s.opt, s.arg, s.span) :: m) t.opt)) = some (x, n) := by
      have step : ∀ (l1 : List Set) (t : Set), (lastOf t.opt (s :: l1)).or (get m t.opt) = (lastOf t.opt l1).or (get ((s.opt, s.arg, s.span) :: m) t.opt) := by
        intro l1 t
        rw [lastOf, get]
        cases lastOf t.opt l1 with
        | some x => rfl
        | none =>
          by_cases h : s.opt = t.opt
          · simp [h]
          · simp [h]
      constructor
      · rintro ⟨l1, t, l2, e, x, hx⟩
        cases l1 with
        | nil =>
          injection e with e _
          rw [← e] at hx
          exact Or.inl ⟨x, by simpa [lastOf] using hx⟩
        | cons y l1 =>
          injection e with e1 e2
          rw [← e1, step] at hx
          exact Or.inr ⟨l1, t, l2, e2, x, hx⟩
      · rintro (⟨x, hx⟩ | ⟨l1, t, l2, e, x, hx⟩)
        · exact ⟨[], s, l, rfl, x, by simpa [lastOf] using hx⟩
        · exact ⟨s :: l1, t, l2, by rw [e]; rfl, x, by rw [step]; exact hx⟩
    rw [key, fill]
    cases hg : get m s.opt with
    | none =>
      simp only
      rw [ih]
      simp
    | some p =>
      obtain ⟨a, prev⟩ := p
      simp only
      rw [ih, List.mem_append, List.mem_singleton]
      simp only [Option.some.injEq, Prod.mk.injEq]
      constructor
      · rintro ((h | h) | h)
        · exact Or.inl h
        · exact Or.inr (Or.inl ⟨a, rfl, h.symm⟩)
        · exact Or.inr (Or.inr h)
      · rintro (h | ⟨_, _, h⟩ | h)
        · exact Or.inl (Or.inl h)
        · exact Or.inl (Or.inr h.symm)
        · exact Or.inr h

/-- If no option is set twice, no call is reported as repeated. -/
theorem once_no_dups (l : List Set) (h : Once l) : (fill [] [] l.reverse).1 = [] := by
  rw [List.eq_nil_iff_forall_not_mem]
  intro n hn
  rcases (fill_dups l.reverse [] [] n).1 hn with h1 | ⟨l1, s, l2, e, x, hx⟩
  · cases h1
  · have h2 : get [] s.opt = none := rfl
    rw [h2, Option.or_none] at hx
    have hmem : ∀ l : List Set, lastOf s.opt l = some (x, n) → ∃ t ∈ l, t.opt = s.opt := by
      intro l
      induction l with
      | nil => intro k; cases k
      | cons y l ih =>
        intro k
        rw [lastOf] at k
        cases hl : lastOf s.opt l with
        | some z =>
          rw [hl] at k
          obtain ⟨t, ht, e⟩ := ih (by rw [hl]; exact k)
          exact ⟨t, List.mem_cons_of_mem _ ht, e⟩
        | none =>
          rw [hl] at k
          by_cases hy : y.opt = s.opt
          · exact ⟨y, List.mem_cons_self, hy⟩
          · simp [hy] at k
    obtain ⟨t, ht, e2⟩ := hmem l1 hx
    have e3 : l = l2.reverse ++ s :: l1.reverse := by
      have := congrArg List.reverse e
      simpa using this
    unfold Once at h
    rw [e3, List.map_append, List.map_cons, List.nodup_append] at h
    have := (List.nodup_cons.1 h.2.1).1
    exact this (List.mem_map.2 ⟨t, List.mem_reverse.2 ht, e2⟩)

/-- If an option is set twice, some call is reported as repeated. -/
theorem twice_dups (l1 l2 : List Set) (s t : Set) (l : List Set) (e : l = l1 ++ s :: l2) (ht : t ∈ l2) (he : t.opt = s.opt) : (fill [] [] l.reverse).1 ≠ [] := by
  have hsome : ∀ l : List Set, t ∈ l → ∃ x n, lastOf s.opt l = some (x, n) := by
    intro l
    induction l with
    | nil => intro k; cases k
    | cons y l ih =>
      intro k
      rw [lastOf]
      cases hl : lastOf s.opt l with
      | some z => exact ⟨z.1, z.2, rfl⟩
      | none =>
        rcases List.mem_cons.1 k with k | k
        · rw [← k]; exact ⟨t.arg, t.span, by simp [he]⟩
        · obtain ⟨x, n, h⟩ := ih k
          rw [hl] at h
          cases h
  obtain ⟨x, n, h⟩ := hsome l2.reverse (List.mem_reverse.2 ht)
  intro k
  have : n ∈ (fill [] [] l.reverse).1 := (fill_dups l.reverse [] [] n).2 (Or.inr ⟨l2.reverse, s, l1.reverse, by rw [e]; simp, x, by rw [h]; rfl⟩)
  rw [k] at this
  cases this

/-- `.read(true).truncate(true)`. -/
def sample : List Call := [.set ⟨.read, .lit true, 0⟩, .skip, .set ⟨.truncate, .lit true, 1⟩]

example : check true sample = some ⟨[], true, false, false⟩ ∧ Once (sets sample) := ⟨by decide +kernel, by unfold Once; decide⟩

example : check true [.set ⟨.append, .lit true, 0⟩, .set ⟨.truncate, .lit true, 1⟩] = some ⟨[], false, true, false⟩ ∧
    check true [.set ⟨.write, .lit true, 0⟩, .set ⟨.create, .lit true, 1⟩] = some ⟨[], false, false, true⟩ := by decide +kernel

/-- Of calls of the same option the first is believed, though the last decides: the file is not truncated, but reported so. -/
theorem later_call : (check true [.set ⟨.read, .lit true, 0⟩, .set ⟨.truncate, .lit true, 1⟩, .set ⟨.truncate, .lit false, 2⟩]) = some ⟨[2], true, false, false⟩ ∧
    ∀ env, ¬Invalid (run env off [⟨.read, .lit true, 0⟩, ⟨.truncate, .lit true, 1⟩, ⟨.truncate, .lit false, 2⟩]) := by
  refine ⟨by decide +kernel, ?_⟩
  intro env
  simp [Invalid, run, Set.value, off]

/-- With a new file, `append` with `truncate` is valid, and `create` keeps nothing; both are reported. -/
theorem new_file : check true [.set ⟨.append, .lit true, 0⟩, .set ⟨.truncate, .lit true, 1⟩, .set ⟨.createNew, .lit true, 2⟩] = some ⟨[], false, true, false⟩ ∧
    (∀ env, ¬Invalid (run env off [⟨.append, .lit true, 0⟩, ⟨.truncate, .lit true, 1⟩, ⟨.createNew, .lit true, 2⟩])) ∧
    check true [.set ⟨.write, .lit true, 0⟩, .set ⟨.create, .lit true, 1⟩, .set ⟨.createNew, .lit true, 2⟩] = some ⟨[], false, false, true⟩ ∧
    ∀ env, ¬KeepsOld (run env off [⟨.write, .lit true, 0⟩, ⟨.create, .lit true, 1⟩, ⟨.createNew, .lit true, 2⟩]) := by
  refine ⟨by decide +kernel, ?_, by decide +kernel, ?_⟩
  · intro env
    simp [Invalid, run, Set.value, off]
  · intro env
    simp [KeepsOld, run, Set.value, off]

end Verif.OpenOpts
