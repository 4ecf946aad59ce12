import Verif.Elide.Spec
import Verif.Elide.Model

/-!
# What the visitor sees
-/

namespace Verif.Elide

/-- No trait object outside of inner scopes has a lifetime that is written. -/
def plain : Ty Lt → Bool
  | .con _ => true
  | .lt _ => true
  | .ref _ t => plain t
  | .app t u => plain t && plain u
  | .site _ => true
  | .dyn l t => l.isNone && plain t

/-- The names in inner scopes. -/
def siteNames : Ty Lt → List Id
  | .con _ => []
  | .lt _ => []
  | .ref _ t => siteNames t
  | .app t u => siteNames t ++ siteNames u
  | .site t => t.names
  | .dyn _ t => siteNames t

theorem visit_flag (t : Ty Lt) (v : V) : (visit t v).flag = (v.flag || !plain t) := by
  induction t generalizing v with
  | con c => simp [visit, plain]
  | lt l => simp [visit, plain]
  | ref l t ih => simp [visit, plain, ih]
  | app t u ih1 ih2 => simp [visit, plain, ih1, ih2, Bool.or_assoc]
  | site t ih => simp [visit, plain]
  | dyn l t ih => cases l <;> simp [visit, plain, ih]

theorem visit_lts (t : Ty Lt) (v : V) (h : plain t = true) : (visit t v).lts = v.lts ++ t.own := by
  induction t generalizing v with
  | con c => simp [visit, Ty.own]
  | lt l => simp [visit, Ty.own]
  | ref l t ih => simp [plain] at h; simp [visit, Ty.own, ih _ h]
  | app t u ih1 ih2 => simp [plain] at h; simp [visit, Ty.own, ih1 _ h.1, ih2 _ h.2]
  | site t ih => simp [visit, Ty.own]
  | dyn l t ih =>
    simp [plain] at h
    obtain ⟨h1, h2⟩ := h
    subst h1
    simp [visit, Ty.own, ih _ h2]

theorem lts_mono (t : Ty Lt) (v : V) : ∀ l ∈ v.lts, l ∈ (visit t v).lts := by
  induction t generalizing v with
  | con c => intro l h; exact h
  | lt l => intro x h; simp [visit, h]
  | ref l t ih => intro x h; exact ih _ _ (by simp [h])
  | app t u ih1 ih2 => intro x h; exact ih2 _ _ (ih1 _ _ h)
  | site t ih => intro x h; exact h
  | dyn l t ih => intro x h; exact ih _ _ h

theorem nested_mono (t : Ty Lt) (v : V) : ∀ l ∈ v.nested, l ∈ (visit t v).nested := by
  induction t generalizing v with
  | con c => intro l h; exact h
  | lt l => intro x h; exact h
  | ref l t ih => intro x h; exact ih _ _ h
  | app t u ih1 ih2 => intro x h; exact ih2 _ _ (ih1 _ _ h)
  | site t ih => intro x h; simp [visit, h]
  | dyn l t ih => intro x h; exact ih _ _ h

theorem mem_nm {a : Id} {l : Lt} (h : a ∈ Ty.names.nm l) : l = .named a := by
  cases l <;> simp [Ty.names.nm] at h
  rw [h]

/-- Every name is seen, except those of trait objects. -/
theorem names_seen (t : Ty Lt) (v : V) (a : Id) (h : a ∈ t.names) :
    a ∈ t.objNames ∨ Lt.named a ∈ (visit t v).all := by
  induction t generalizing v with
  | con c => simp [Ty.names] at h
  | lt l =>
    rw [Ty.names] at h
    rw [mem_nm h]; right; simp [visit, V.all]
  | ref l t ih =>
    simp only [Ty.names, List.mem_append] at h
    rcases h with h | h
    · rw [mem_nm h]; right
      simp only [visit, V.all, List.mem_append]
      exact Or.inl (lts_mono _ _ _ (by simp))
    · exact ih _ h
  | app t u ih1 ih2 =>
    simp only [Ty.names, List.mem_append] at h
    simp only [Ty.objNames, List.mem_append]
    rcases h with h | h
    · rcases ih1 v h with h | h
      · exact Or.inl (Or.inl h)
      · right
        simp only [visit, V.all, List.mem_append] at h ⊢
        rcases h with h | h
        · exact Or.inl (lts_mono _ _ _ h)
        · exact Or.inr (nested_mono _ _ _ h)
    · rcases ih2 (visit t v) h with h | h
      · exact Or.inl (Or.inr h)
      · exact Or.inr h
  | site t ih =>
    rw [Ty.names] at h
    rcases ih V.new h with h | h
    · exact Or.inl h
    · right; simp only [visit, V.all, List.mem_append] at h ⊢
      exact Or.inr (Or.inr h)
  | dyn l t ih =>
    simp only [Ty.names, List.mem_append] at h
    rcases h with h | h
    · cases l with
      | none => simp at h
      | some l => left; rw [mem_nm h]; simp [Ty.objNames]
    · rcases ih { v with flag := v.flag || l.isSome } h with h | h
      · left
        cases l with
        | none => exact h
        | some l => cases l <;> simp [Ty.objNames, h]
      · exact Or.inr h

theorem siteNames_seen (t : Ty Lt) (v : V) (a : Id) (h : a ∈ siteNames t) :
    a ∈ t.objNames ∨ Lt.named a ∈ (visit t v).nested := by
  induction t generalizing v with
  | con c => simp [siteNames] at h
  | lt l => simp [siteNames] at h
  | ref l t ih => exact ih _ h
  | app t u ih1 ih2 =>
    simp only [siteNames, List.mem_append] at h
    simp only [Ty.objNames, List.mem_append]
    rcases h with h | h
    · rcases ih1 v h with h | h
      · exact Or.inl (Or.inl h)
      · exact Or.inr (nested_mono u (visit t v) _ h)
    · rcases ih2 (visit t v) h with h | h
      · exact Or.inl (Or.inr h)
      · exact Or.inr h
  | site t ih =>
    rcases names_seen t V.new a h with h | h
    · exact Or.inl h
    · right; simp [visit, h]
  | dyn l t ih =>
    rcases ih { v with flag := v.flag || l.isSome } h with h' | h'
    · left
      cases l with
      | none => exact h'
      | some l => cases l <;> simp [Ty.objNames, h']
    · exact Or.inr h'

/-- The same without the outermost `visit_ty`. -/
theorem walk_seen (t : Ty Lt) (a : Id) (h : a ∈ t.names) :
    a ∈ t.objNames ∨ Lt.named a ∈ (walk t V.new).all := by
  cases t with
  | con c => simp [Ty.names] at h
  | lt l => exact names_seen (.lt l) V.new a h
  | ref l t => exact names_seen (.ref l t) V.new a h
  | app t u => exact names_seen (.app t u) V.new a h
  | site t => exact names_seen t V.new a h
  | dyn l t =>
    simp only [Ty.names, List.mem_append] at h
    rcases h with h | h
    · cases l with
      | none => simp at h
      | some l => left; rw [mem_nm h]; simp [Ty.objNames]
    · rcases names_seen t { V.new with lts := V.new.lts ++ [l.getD .anon] } a h with h | h
      · left
        cases l with
        | none => exact h
        | some l => cases l <;> simp [Ty.objNames, h]
      · exact Or.inr h

/-! ## All inputs -/

theorem fold_flag (ts : List (Ty Lt)) (v : V) :
    (ts.foldl (fun v t => visit t v) v).flag = (v.flag || !ts.all plain) := by
  induction ts generalizing v with
  | nil => simp
  | cons t ts ih => simp [ih, visit_flag, Bool.or_assoc]

theorem fold_lts (ts : List (Ty Lt)) (v : V) (h : ts.all plain = true) :
    (ts.foldl (fun v t => visit t v) v).lts = v.lts ++ ts.flatMap Ty.own := by
  induction ts generalizing v with
  | nil => simp
  | cons t ts ih =>
    simp only [List.all_cons, Bool.and_eq_true] at h
    simp [ih _ h.2, visit_lts _ _ h.1]

theorem fold_nested_mono (ts : List (Ty Lt)) (v : V) :
    ∀ l ∈ v.nested, l ∈ (ts.foldl (fun v t => visit t v) v).nested := by
  induction ts generalizing v with
  | nil => intro l h; exact h
  | cons t ts ih => intro l h; exact ih _ _ (nested_mono _ _ _ h)

theorem fold_siteNames (ts : List (Ty Lt)) (v : V) (t : Ty Lt) (ht : t ∈ ts) (a : Id) (h : a ∈ siteNames t) :
    a ∈ t.objNames ∨ Lt.named a ∈ (ts.foldl (fun v t => visit t v) v).nested := by
  induction ts generalizing v with
  | nil => simp at ht
  | cons u ts ih =>
    rcases List.mem_cons.1 ht with ht | ht
    · subst ht
      rcases siteNames_seen t v a h with h | h
      · exact Or.inl h
      · exact Or.inr (fold_nested_mono ts (visit t v) _ h)
    · exact ih _ ht

/-! ## The table of occurrences -/

theorem keys_count (a : Id) (os : List (Id × Nat)) :
    (count a os).map (·.1) = if (os.map (·.1)).contains a then os.map (·.1) else os.map (·.1) ++ [a] := by
  induction os with
  | nil => rfl
  | cons p ps ih =>
    obtain ⟨b, n⟩ := p
    simp only [count]
    by_cases h : b = a
    · subst h; simp
    · have h' : ¬ a = b := fun e => h e.symm
      simp only [beq_iff_eq, h, if_false, List.map_cons, ih, List.contains_cons, beq_eq_false_iff_ne.2 h',
        Bool.false_or]
      split <;> simp

theorem mem_count (a b : Id) (m : Nat) (os : List (Id × Nat)) (hn : (os.map (·.1)).Nodup) (h : (b, m) ∈ count a os) :
    (b ≠ a ∧ (b, m) ∈ os) ∨ (b = a ∧ ∃ n, (a, n) ∈ os ∧ m = n + 1) ∨ (b = a ∧ m = 1 ∧ a ∉ os.map (·.1)) := by
  induction os with
  | nil =>
    simp [count] at h
    simp [h.1, h.2]
  | cons p ps ih =>
    obtain ⟨c, n⟩ := p
    simp only [List.map_cons, List.nodup_cons] at hn
    simp only [count] at h
    by_cases hc : c = a
    · subst hc
      simp only [beq_self_eq_true, if_true, List.mem_cons] at h
      rcases h with h | h
      · cases h; exact Or.inr (Or.inl ⟨rfl, n, by simp, rfl⟩)
      · by_cases hb : b = c
        · subst hb
          exact absurd (List.mem_map.2 ⟨_, h, rfl⟩) hn.1
        · exact Or.inl ⟨hb, by simp [h]⟩
    · simp only [beq_iff_eq, hc, if_false, List.mem_cons] at h
      rcases h with h | h
      · cases h; exact Or.inl ⟨hc, by simp⟩
      · rcases ih hn.2 h with ⟨h1, h2⟩ | ⟨h1, k, h2, h3⟩ | ⟨h1, h2, h3⟩
        · exact Or.inl ⟨h1, by simp [h2]⟩
        · exact Or.inr (Or.inl ⟨h1, k, by simp [h2], h3⟩)
        · refine Or.inr (Or.inr ⟨h1, h2, ?_⟩)
          simp only [List.map_cons, List.mem_cons, not_or]
          exact ⟨fun e => hc e.symm, h3⟩

/-- The table lists how often every name was seen. -/
structure Table (os : List (Id × Nat)) (seen : List Lt) : Prop where
  nodup : (os.map (·.1)).Nodup
  right : ∀ a n, (a, n) ∈ os → n = seen.count (.named a)
  all : ∀ a, a ∉ os.map (·.1) → seen.count (.named a) = 0

theorem table_step (os : List (Id × Nat)) (seen : List Lt) (a : Id) (h : Table os seen) :
    Table (count a os) (seen ++ [.named a]) := by
  refine ⟨?_, ?_, ?_⟩
  · rw [keys_count]
    by_cases hc : (os.map (·.1)).contains a = true
    · rw [if_pos hc]; exact h.nodup
    · rw [if_neg hc]
      rw [List.nodup_append]
      refine ⟨h.nodup, by simp, ?_⟩
      intro x hx y hy e
      simp at hy
      subst hy; subst e
      exact hc (by simpa using hx)
  · intro b m hm
    rw [List.count_append]
    rcases mem_count a b m os h.nodup hm with ⟨h1, h2⟩ | ⟨h1, n, h2, h3⟩ | ⟨h1, h2, h3⟩
    · rw [h.right _ _ h2]
      have : Lt.named a ≠ Lt.named b := fun e => h1 (by cases e; rfl)
      simp [this]
    · subst h1; rw [h3, h.right _ _ h2]; simp
    · subst h1; rw [h.all _ h3, h2]; simp
  · intro b hb
    rw [keys_count] at hb
    have hne : b ≠ a := by
      rintro rfl
      by_cases hc : (os.map (·.1)).contains b = true
      · rw [if_pos hc] at hb; exact hb (by simpa using hc)
      · rw [if_neg hc] at hb; simp at hb
    have hb' : b ∉ os.map (·.1) := by
      intro hm
      split at hb
      · exact hb hm
      · exact hb (by simp only [List.mem_append]; exact Or.inl hm)
    have : Lt.named a ≠ Lt.named b := fun e => hne (by cases e; rfl)
    rw [List.count_append, h.all _ hb']
    simp [this]

theorem table_fold (ls seen : List Lt) (os : List (Id × Nat)) (h : Table os seen) :
    Table (ls.foldl (fun os l => match named l with | some a => count a os | none => os) os) (seen ++ ls) := by
  induction ls generalizing os seen with
  | nil => simpa using h
  | cons l ls ih =>
    have e : seen ++ l :: ls = (seen ++ [l]) ++ ls := by simp
    rw [e, List.foldl_cons]
    cases l with
    | named a => exact ih _ _ (table_step _ _ _ h)
    | anon =>
      refine ih _ _ ⟨h.nodup, ?_, ?_⟩
      · intro a n hm; rw [List.count_append, h.right a n hm]; simp
      · intro a hm; rw [List.count_append, h.all a hm]; simp
    | static =>
      refine ih _ _ ⟨h.nodup, ?_, ?_⟩
      · intro a n hm; rw [List.count_append, h.right a n hm]; simp
      · intro a hm; rw [List.count_append, h.all a hm]; simp

theorem table_occ (ls : List Lt) : Table (occurrences ls) ls :=
  table_fold ls [] [] ⟨by simp, by simp, by simp⟩

theorem pick_spec (ins outs : List Lt) (a : Id) (h : a ∈ pick ins outs) :
    ins.count (.named a) = 1 ∧ (ins.length = 1 ∨ Lt.named a ∉ outs) := by
  simp only [pick, List.mem_filterMap] at h
  obtain ⟨⟨b, n⟩, hm, h⟩ := h
  simp only [Option.ite_none_right_eq_some, Option.some.injEq, Bool.and_eq_true, beq_iff_eq, Bool.or_eq_true] at h
  obtain ⟨⟨h1, h2⟩, rfl⟩ := h
  refine ⟨by rw [← (table_occ ins).right _ _ hm, h1], ?_⟩
  rcases h2 with h2 | h2
  · exact Or.inl h2
  · right
    intro hin
    simp only [Bool.not_eq_true', List.any_eq_false] at h2
    exact h2 _ hin (by simp [named])

theorem count_unique {l : List Lt} {x : Lt} (h : l.count x = 1) :
    ∀ (i j : Nat), l[i]? = some x → l[j]? = some x → i = j := by
  induction l with
  | nil => simp at h
  | cons y l ih =>
    have none : l.count x = 0 → ∀ (k : Nat), l[k]? = some x → False := by
      intro h0 k hk
      exact absurd (List.mem_of_getElem? hk) (List.count_eq_zero.1 h0)
    rw [List.count_cons] at h
    intro i j hi hj
    by_cases hy : y = x
    · have h0 : l.count x = 0 := by simpa [hy] using h
      cases i with
      | zero =>
        cases j with
        | zero => rfl
        | succ j => exact (none h0 j (by simpa using hj)).elim
      | succ i => exact (none h0 i (by simpa using hi)).elim
    · have h1 : l.count x = 1 := by simpa [hy] using h
      cases i with
      | zero => simp at hi; exact absurd hi hy
      | succ i =>
        cases j with
        | zero => simp at hj; exact absurd hj hy
        | succ j => rw [ih h1 i j (by simpa using hi) (by simpa using hj)]

end Verif.Elide
