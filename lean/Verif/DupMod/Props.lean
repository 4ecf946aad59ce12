import Verif.DupMod.Model

/-!
# Properties: files loaded as modules more than once
-/

namespace Verif.DupMod

/-- What the map shall have for a file. -/
def group (l : List Item) : Modules := ⟨l.map Item.span, l.map (fun i => (i.quiet, i.expect))⟩

/-- The map has the right entries for the items, with its keys in order. -/
structure Good (m : List (Nat × Modules)) (its : List Item) : Prop where
  sorted : m.Pairwise (fun a b => a.1 < b.1)
  right : ∀ k v, (k, v) ∈ m ↔ (loads its k ≠ [] ∧ v = group (loads its k))

theorem enter_mem (m : List (Nat × Modules)) (i : Item) (hs : m.Pairwise (fun a b => a.1 < b.1)) (k : Nat) (v : Modules) :
    (k, v) ∈ enter m i ↔ (k ≠ i.file ∧ (k, v) ∈ m) ∨ (k = i.file ∧ ((∃ w, (k, w) ∈ m ∧ v = add w i) ∨ ((∀ w, (k, w) ∉ m) ∧ v = add ⟨[], []⟩ i))) := by
  induction m with
  | nil =>
    rw [enter]
    simp
  | cons x m ih =>
    obtain ⟨k', v'⟩ := x
    rw [List.pairwise_cons] at hs
    have hlt : ∀ w, (k, w) ∈ m → k' < k := fun w hw => hs.1 _ hw
    rw [enter]
    by_cases h1 : i.file < k'
    · rw [if_pos h1]
      constructor
      · intro h
        rcases List.mem_cons.1 h with h | h
        · injection h with e1 e2
          refine Or.inr ⟨e1, Or.inr ⟨?_, e2⟩⟩
          intro w hw
          rcases List.mem_cons.1 hw with hw | hw
          · injection hw with e3 _; omega
          · have := hlt w hw; omega
        · refine Or.inl ⟨?_, h⟩
          rcases List.mem_cons.1 h with h | h
          · injection h with e3 _; omega
          · have := hlt v h; omega
      · rintro (⟨_, h⟩ | ⟨e, ⟨w, hw, _⟩ | ⟨_, e2⟩⟩)
        · exact List.mem_cons_of_mem _ h
        · rcases List.mem_cons.1 hw with hw | hw
          · injection hw with e3 _; omega
          · have := hlt w hw; omega
        · rw [e, e2]; exact List.mem_cons_self
    · rw [if_neg h1]
      by_cases h2 : i.file = k'
      · rw [if_pos h2]
        constructor
        · intro h
          rcases List.mem_cons.1 h with h | h
          · injection h with e1 e2
            exact Or.inr ⟨by omega, Or.inl ⟨v', by rw [e1]; exact List.mem_cons_self, e2⟩⟩
          · have := hlt v h
            exact Or.inl ⟨by omega, List.mem_cons_of_mem _ h⟩
        · rintro (⟨n, h⟩ | ⟨e, ⟨w, hw, e2⟩ | ⟨hw, _⟩⟩)
          · rcases List.mem_cons.1 h with h | h
            · injection h with e3 _; omega
            · exact List.mem_cons_of_mem _ h
          · rcases List.mem_cons.1 hw with hw | hw
            · injection hw with e3 e4
              rw [e3, e2, e4]; exact List.mem_cons_self
            · have := hlt w hw; omega
          · exact absurd (show (k, v') ∈ (k', v') :: m by rw [e, h2]; exact List.mem_cons_self) (hw v')
      · rw [if_neg h2, List.mem_cons, ih hs.2]
        constructor
        · rintro (h | ⟨n, h⟩ | ⟨e, ⟨w, hw, e2⟩ | ⟨hw, e2⟩⟩)
          · have e3 : k = k' := by injection h
            exact Or.inl ⟨by omega, by rw [h]; exact List.mem_cons_self⟩
          · exact Or.inl ⟨n, List.mem_cons_of_mem _ h⟩
          · exact Or.inr ⟨e, Or.inl ⟨w, List.mem_cons_of_mem _ hw, e2⟩⟩
          · refine Or.inr ⟨e, Or.inr ⟨fun w h => ?_, e2⟩⟩
            rcases List.mem_cons.1 h with h | h
            · injection h with e3 _; omega
            · exact hw w h
        · rintro (⟨n, h⟩ | ⟨e, ⟨w, hw, e2⟩ | ⟨hw, e2⟩⟩)
          · rcases List.mem_cons.1 h with h | h
            · exact Or.inl h
            · exact Or.inr (Or.inl ⟨n, h⟩)
          · rcases List.mem_cons.1 hw with h | h
            · injection h with e3 _; omega
            · exact Or.inr (Or.inr ⟨e, Or.inl ⟨w, h, e2⟩⟩)
          · exact Or.inr (Or.inr ⟨e, Or.inr ⟨fun w h => hw w (List.mem_cons_of_mem _ h), e2⟩⟩)

theorem enter_sorted (m : List (Nat × Modules)) (i : Item) (hs : m.Pairwise (fun a b => a.1 < b.1)) : (enter m i).Pairwise (fun a b => a.1 < b.1) := by
  induction m with
  | nil => rw [enter]; simp
  | cons x m ih =>
    obtain ⟨k', v'⟩ := x
    have hs' := List.pairwise_cons.1 hs
    rw [enter]
    by_cases h1 : i.file < k'
    · rw [if_pos h1]
      refine List.pairwise_cons.2 ⟨?_, hs⟩
      intro y hy
      rcases List.mem_cons.1 hy with hy | hy
      · rw [hy]; exact h1
      · exact Nat.lt_trans h1 (hs'.1 y hy)
    · rw [if_neg h1]
      by_cases h2 : i.file = k'
      · rw [if_pos h2]
        exact List.pairwise_cons.2 ⟨hs'.1, hs'.2⟩
      · rw [if_neg h2]
        refine List.pairwise_cons.2 ⟨?_, ih hs'.2⟩
        rintro ⟨k, v⟩ hy
        rcases (enter_mem m i hs'.2 k v).1 hy with ⟨_, h⟩ | ⟨e, _⟩
        · exact hs'.1 _ h
        · show k' < k
          omega

theorem loads_snoc (its : List Item) (i : Item) (k : Nat) : loads (its ++ [i]) k = if i.file = k then loads its k ++ [i] else loads its k := by
  by_cases h : i.file = k <;> simp [loads, h]

theorem enter_good (m : List (Nat × Modules)) (its : List Item) (i : Item) (h : Good m its) : Good (enter m i) (its ++ [i]) := by
  refine ⟨enter_sorted m i h.sorted, fun k v => ?_⟩
  rw [enter_mem m i h.sorted, loads_snoc]
  by_cases hk : i.file = k
  · rw [if_pos hk]
    have e : ∀ l : List Item, group (l ++ [i]) = add (group l) i := by intro l; simp [group, add]
    constructor
    · rintro (⟨n, _⟩ | ⟨_, ⟨w, hw, e2⟩ | ⟨hw, e2⟩⟩)
      · exact absurd hk.symm n
      · refine ⟨by simp, ?_⟩
        rw [e, e2, ((h.right k w).1 hw).2]
      · refine ⟨by simp, ?_⟩
        have : loads its k = [] := by
          refine Classical.byContradiction fun hn => hw _ ((h.right k _).2 ⟨hn, rfl⟩)
        rw [this, e2]
        rfl
    · rintro ⟨_, e2⟩
      refine Or.inr ⟨hk.symm, ?_⟩
      by_cases hn : loads its k = []
      · refine Or.inr ⟨fun w hw => ((h.right k w).1 hw).1 hn, ?_⟩
        rw [e2, hn]
        rfl
      · exact Or.inl ⟨_, (h.right k _).2 ⟨hn, rfl⟩, by rw [e2, e]⟩
  · rw [if_neg hk, h.right]
    constructor
    · rintro (⟨_, h⟩ | ⟨e, _⟩)
      · exact h
      · exact absurd e.symm hk
    · intro h
      exact Or.inl ⟨fun e => hk e.symm, h⟩

theorem collect_good (r : List Item) : ∀ m its, Good m its → Good (collect m r) (its ++ r) := by
  induction r with
  | nil => intro m its h; rw [collect, List.append_nil]; exact h
  | cons i r ih =>
    intro m its h
    rw [collect]
    have := ih _ _ (enter_good m its i h)
    rwa [List.append_assoc] at this

/-- The map at the end of the crate. -/
theorem map_good (its : List Item) : Good (collect [] its) its :=
  collect_good its [] [] ⟨List.Pairwise.nil, fun k v => by simp [loads]⟩

theorem keep_group (l : List Item) : keep (group l) = (l.filter (fun i => !i.quiet)).map Item.span := by
  unfold keep group
  induction l with
  | nil => rfl
  | cons i l ih =>
    cases h : i.quiet <;> simp [h] <;> simpa using ih

/-- A file is reported exactly if at least two of the items that load it want to hear of it; the report has just these, in order. -/
theorem reported_iff (its : List Item) (f a : Nat) (r : List Nat) : (f, a, r) ∈ check its ↔
    2 ≤ (loud its f).length ∧ a :: r = (loud its f).map Item.span := by
  have hg := map_good its
  have hk : keep (group (loads its f)) = (loud its f).map Item.span := keep_group _
  have hle : (loud its f).length ≤ (loads its f).length := List.length_filter_le _ _
  have hl : (group (loads its f)).spans.length = (loads its f).length := by simp [group]
  unfold check
  rw [List.mem_flatMap]
  constructor
  · rintro ⟨⟨k, v⟩, hm, hx⟩
    obtain ⟨hn, e⟩ := (hg.right k v).1 hm
    unfold report at hx
    dsimp only at hx
    split at hx
    · cases hx
    · split at hx
      · cases hx
      · rename_i h2
        split at hx
        · cases hx
        · rename_i b s hb
          rw [List.mem_singleton] at hx
          injection hx with e1 e2
          injection e2 with e2 e3
          rw [← e1] at e
          rw [e, hk] at h2 hb
          rw [List.length_map] at h2
          exact ⟨by omega, by rw [e2, e3, hb]⟩
  · rintro ⟨h2, e⟩
    have hn : loads its f ≠ [] := by
      intro h0
      rw [h0] at hle
      simp at hle
      rw [hle] at h2
      simp at h2
    refine ⟨(f, group (loads its f)), (hg.right f _).2 ⟨hn, rfl⟩, ?_⟩
    unfold report
    dsimp only
    rw [if_neg (by rw [hl]; omega), if_neg (by rw [hk, List.length_map]; omega), hk, ← e]
    exact List.mem_singleton.2 rfl

/-- Every file is reported at most once, and the reports are in the order of the files. -/
theorem reports_ordered (its : List Item) : (check its).Pairwise (fun x y => x.1 < y.1) := by
  have hg := (map_good its).sorted
  unfold check
  generalize collect [] its = m at hg
  have hr : ∀ k v x, x ∈ report k v → x.1 = k := by
    intro k v x hx
    unfold report at hx
    split at hx
    · cases hx
    · split at hx
      · cases hx
      · split at hx
        · cases hx
        · rw [List.mem_singleton] at hx
          rw [hx]
  induction m with
  | nil => exact List.Pairwise.nil
  | cons x m ih =>
    rw [List.pairwise_cons] at hg
    rw [List.flatMap_cons, List.pairwise_append]
    refine ⟨?_, ih hg.2, ?_⟩
    · unfold report
      split
      · exact List.Pairwise.nil
      · split
        · exact List.Pairwise.nil
        · split
          · exact List.Pairwise.nil
          · exact List.pairwise_singleton _ _
    · intro a ha b hb
      obtain ⟨y, hy, hb⟩ := List.mem_flatMap.1 hb
      rw [hr _ _ a ha, hr _ _ b hb]
      exact hg.1 y hy

/-- An expectation is fulfilled exactly if its item loads a file that is loaded by another item too. -/
theorem expects_iff (its : List Item) (e : Nat) : e ∈ expects its ↔ ∃ i ∈ its, i.expect = some e ∧ 2 ≤ (loads its i.file).length := by
  have hg := map_good its
  have hz : ∀ l : List Item, ((group l).spans.zip (group l).levels).filterMap (fun x => x.2.2) = l.filterMap Item.expect := by
    intro l
    unfold group
    induction l with
    | nil => rfl
    | cons i l ih =>
      simp only [List.map_cons, List.zip_cons_cons, List.filterMap_cons]
      rw [ih]
  have hl : ∀ l, (group l).spans.length = l.length := by intro l; simp [group]
  unfold expects
  rw [List.mem_flatMap]
  constructor
  · rintro ⟨⟨k, v⟩, hm, hx⟩
    obtain ⟨_, ev⟩ := (hg.right k v).1 hm
    unfold fulfilled at hx
    dsimp only at hx
    split at hx
    · cases hx
    · rename_i h2
      rw [ev, hl] at h2
      rw [ev, hz, List.mem_filterMap] at hx
      obtain ⟨i, hi, he⟩ := hx
      obtain ⟨h3, h4⟩ := List.mem_filter.1 hi
      rw [decide_eq_true_eq] at h4
      exact ⟨i, h3, he, by rw [h4]; omega⟩
  · rintro ⟨i, hi, he, h2⟩
    have him : i ∈ loads its i.file := List.mem_filter.2 ⟨hi, by simp⟩
    refine ⟨(i.file, group (loads its i.file)), (hg.right _ _).2 ⟨List.ne_nil_of_mem him, rfl⟩, ?_⟩
    unfold fulfilled
    dsimp only
    rw [if_neg (by rw [hl]; omega), hz]
    exact List.mem_filterMap.2 ⟨i, him, he⟩

/-- Two files, each loaded twice, and once more where the lint is expected. -/
def sample : List Item := [⟨7, 1, false, none⟩, ⟨3, 2, false, none⟩, ⟨7, 3, true, some 9⟩, ⟨3, 4, false, none⟩, ⟨7, 5, false, none⟩, ⟨8, 6, true, some 4⟩]

example : check sample = [(3, 2, [4]), (7, 1, [5])] ∧ expects sample = [9] := by decide +kernel

/-- Where one of two items is silent, the other is not reported although it loads the file again. -/
theorem silent_one : check [⟨7, 1, false, none⟩, ⟨7, 2, true, none⟩] = [] := by decide +kernel

end Verif.DupMod
