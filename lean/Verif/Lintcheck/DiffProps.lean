import Verif.Lintcheck.DiffModel

/-!
# C49: the comparison of two runs classifies every warning exactly once
-/

namespace Verif.Lintcheck

/-! ## Specification -/

/-- The place a warning is identified by: its lint, and the file and line. -/
def key (w : Warning) : Str × Str := (w.name, w.fileLine)

/-- How many warnings there are at a place. -/
def count (k : Str × Str) (ws : List Warning) : Nat := ws.countP fun w => decide (key w = k)

/-- A file of warnings as written by a run. -/
def Sorted (ws : List Warning) : Prop := ws.Pairwise fun a b => keyLe a b = true

/-! ## The order -/

theorem keyLe_iff {a b : Warning} : keyLe a b = true ↔
    strLe a.name b.name = true ∧ (a.name = b.name → strLe a.fileLine b.fileLine = true) := by
  simp only [keyLe, Bool.and_eq_true, Bool.or_eq_true, Bool.not_eq_true']
  constructor
  · rintro ⟨h1, h2⟩
    refine ⟨h1, fun e => ?_⟩
    rcases h2 with h2 | h2
    · rw [e, strLe_refl] at h2; simp at h2
    · exact h2
  · rintro ⟨h1, h2⟩
    refine ⟨h1, ?_⟩
    by_cases h : strLe b.name a.name = true
    · exact .inr (h2 (strLe_antisymm _ _ h1 h))
    · exact .inl (Bool.eq_false_iff.2 h)

theorem keyLe_total (a b : Warning) : keyLe a b = true ∨ keyLe b a = true := by
  rw [keyLe_iff, keyLe_iff]
  by_cases e : a.name = b.name
  · rw [e, strLe_refl]
    rcases strLe_total a.fileLine b.fileLine with h | h
    · exact .inl ⟨rfl, fun _ => h⟩
    · exact .inr ⟨rfl, fun _ => h⟩
  · rcases strLe_total a.name b.name with h | h
    · exact .inl ⟨h, fun h' => absurd h' e⟩
    · exact .inr ⟨h, fun h' => absurd h'.symm e⟩

theorem keyLe_trans (a b c : Warning) (h1 : keyLe a b = true) (h2 : keyLe b c = true) : keyLe a c = true := by
  rw [keyLe_iff] at *
  refine ⟨strLe_trans _ _ _ h1.1 h2.1, fun e => ?_⟩
  have e1 : a.name = b.name := strLe_antisymm _ _ h1.1 (e ▸ h2.1)
  exact strLe_trans _ _ _ (h1.2 e1) (h2.2 (e1.symm.trans e))

theorem keyLe_antisymm {a b : Warning} (h1 : keyLe a b = true) (h2 : keyLe b a = true) : key a = key b := by
  rw [keyLe_iff] at *
  have e := strLe_antisymm _ _ h1.1 h2.1
  exact Prod.ext e (strLe_antisymm _ _ (h1.2 e) (h2.2 e.symm))

theorem keyLe_of_key {a b : Warning} (h : key a = key b) : keyLe a b = true := by
  simp only [key, Prod.mk.injEq] at h
  rw [keyLe_iff, h.1, h.2]
  exact ⟨strLe_refl _, fun _ => strLe_refl _⟩

/-- A run writes a sorted file with the same warnings. -/
theorem output_sorted (ws : List Warning) : Sorted (output ws) ∧ (output ws).Perm ws :=
  ⟨sortBy_sorted keyLe_total keyLe_trans ws, sortBy_perm _ _⟩

/-! ## The merge -/

/-- The old warnings in some changes. -/
def oldOf (cs : List Change) : List Warning := cs.filterMap fun c => match c with | .left o => some o | .both o _ => some o | _ => none

/-- The new warnings in some changes. -/
def newOf (cs : List Change) : List Warning := cs.filterMap fun c => match c with | .right n => some n | .both _ n => some n | _ => none

theorem oldOf_left (l : List Warning) : oldOf (l.map .left) = l := by
  induction l with
  | nil => rfl
  | cons a l ih => simp only [oldOf, List.map_cons, List.filterMap_cons] at *; rw [ih]

theorem newOf_left (l : List Warning) : newOf (l.map .left) = [] := by
  induction l with
  | nil => rfl
  | cons a l ih => simp only [newOf, List.map_cons, List.filterMap_cons] at *; rw [ih]

theorem oldOf_right (l : List Warning) : oldOf (l.map .right) = [] := by
  induction l with
  | nil => rfl
  | cons a l ih => simp only [oldOf, List.map_cons, List.filterMap_cons] at *; rw [ih]

theorem newOf_right (l : List Warning) : newOf (l.map .right) = l := by
  induction l with
  | nil => rfl
  | cons a l ih => simp only [newOf, List.map_cons, List.filterMap_cons] at *; rw [ih]

theorem mergeJoin_nil_right : ∀ as : List Warning, mergeJoin as [] = as.map .left
  | [] => rfl
  | _ :: _ => rfl

theorem mergeJoin_cons (a : Warning) (as : List Warning) (b : Warning) (bs : List Warning) : mergeJoin (a :: as) (b :: bs) =
    if keyLe a b then if keyLe b a then .both a b :: mergeJoin as bs else .left a :: mergeJoin as (b :: bs)
    else .right b :: mergeJoin (a :: as) bs := rfl

/-- Induction along the merge. -/
theorem merge_induction {P : List Warning → List Warning → List Change → Prop}
    (nilL : ∀ bs, P [] bs (bs.map .right)) (nilR : ∀ as, P as [] (as.map .left))
    (eq : ∀ a as b bs cs, keyLe a b = true → keyLe b a = true → P as bs cs → P (a :: as) (b :: bs) (.both a b :: cs))
    (lt : ∀ a as b bs cs, keyLe a b = true → keyLe b a = false → P as (b :: bs) cs → P (a :: as) (b :: bs) (.left a :: cs))
    (gt : ∀ a as b bs cs, keyLe a b = false → P (a :: as) bs cs → P (a :: as) (b :: bs) (.right b :: cs)) :
    ∀ as bs, P as bs (mergeJoin as bs) := by
  intro as
  induction as with
  | nil => exact nilL
  | cons a as iha =>
    intro bs
    induction bs with
    | nil => rw [mergeJoin_nil_right]; exact nilR _
    | cons b bs ihb =>
      rw [mergeJoin_cons]
      by_cases h1 : keyLe a b = true
      · rw [if_pos h1]
        by_cases h2 : keyLe b a = true
        · rw [if_pos h2]; exact eq _ _ _ _ _ h1 h2 (iha bs)
        · rw [if_neg h2]; exact lt _ _ _ _ _ h1 (Bool.eq_false_iff.2 h2) (iha (b :: bs))
      · rw [if_neg h1]; exact gt _ _ _ _ _ (Bool.eq_false_iff.2 h1) ihb

theorem mergeJoin_old (as bs : List Warning) : oldOf (mergeJoin as bs) = as := by
  refine merge_induction (P := fun as _ cs => oldOf cs = as) oldOf_right oldOf_left ?_ ?_ ?_ as bs
  · intro a as b bs cs _ _ h; simp only [oldOf, List.filterMap_cons] at *; rw [h]
  · intro a as b bs cs _ _ h; simp only [oldOf, List.filterMap_cons] at *; rw [h]
  · intro a as b bs cs _ h; simp only [oldOf, List.filterMap_cons] at *; rw [h]

theorem mergeJoin_new (as bs : List Warning) : newOf (mergeJoin as bs) = bs := by
  refine merge_induction (P := fun _ bs cs => newOf cs = bs) newOf_right newOf_left ?_ ?_ ?_ as bs
  · intro a as b bs cs _ _ h; simp only [newOf, List.filterMap_cons] at *; rw [h]
  · intro a as b bs cs _ _ h; simp only [newOf, List.filterMap_cons] at *; rw [h]
  · intro a as b bs cs _ h; simp only [newOf, List.filterMap_cons] at *; rw [h]

theorem mergeJoin_both (as bs : List Warning) : ∀ o n, .both o n ∈ mergeJoin as bs → key o = key n := by
  refine merge_induction (P := fun _ _ cs => ∀ o n, .both o n ∈ cs → key o = key n) ?_ ?_ ?_ ?_ ?_ as bs
  · intro bs o n h; simp at h
  · intro bs o n h; simp at h
  · intro a as b bs cs h1 h2 ih o n h
    rcases List.mem_cons.1 h with h | h
    · simp only [Change.both.injEq] at h; rw [h.1, h.2]; exact keyLe_antisymm h1 h2
    · exact ih o n h
  · intro a as b bs cs h1 h2 ih o n h
    rcases List.mem_cons.1 h with h | h
    · simp at h
    · exact ih o n h
  · intro a as b bs cs h1 ih o n h
    rcases List.mem_cons.1 h with h | h
    · simp at h
    · exact ih o n h

theorem mergeJoin_self (l : List Warning) : mergeJoin l l = l.map fun w => .both w w := by
  induction l with
  | nil => rfl
  | cons a l ih =>
    have h := keyLe_of_key (rfl : key a = key a)
    rw [mergeJoin_cons, if_pos h, if_pos h, ih]; rfl

/-! ## The groups -/

theorem chunkBy_flatten {α : Type} (f : α → Str) : ∀ l : List α, ((chunkBy f l).map Prod.snd).flatten = l
  | [] => rfl
  | x :: xs => by
    have ih := chunkBy_flatten f xs
    unfold chunkBy
    split
    · next h => rw [h] at ih; simp at ih; simp [← ih]
    · next k g rest h =>
      rw [h] at ih
      split
      · simpa using ih
      · simpa using ih

theorem chunkBy_keys {α : Type} (f : α → Str) : ∀ l : List α, ∀ g ∈ chunkBy f l, g.2 ≠ [] ∧ ∀ x ∈ g.2, f x = g.1
  | [], g, h => by simp [chunkBy] at h
  | x :: xs, g, h => by
    have ih := chunkBy_keys f xs
    unfold chunkBy at h
    split at h
    · simp only [List.mem_cons, List.not_mem_nil, or_false] at h; rw [h]; simp
    · next k g' rest e =>
      rw [e] at ih
      split at h
      · next hx =>
        rcases List.mem_cons.1 h with h | h
        · rw [h]
          refine ⟨by simp, ?_⟩
          intro y hy
          rcases List.mem_cons.1 hy with hy | hy
          · rw [hy]; exact hx
          · exact (ih (k, g') (by simp)).2 y hy
        · exact ih g (List.mem_cons_of_mem _ h)
      · rcases List.mem_cons.1 h with h | h
        · rw [h]; simp
        · exact ih g h

theorem chunkBy_sorted {α : Type} (f : α → Str) : ∀ l : List α, l.Pairwise (fun a b => strLe (f a) (f b) = true) →
    (chunkBy f l).Pairwise fun g h => strLe g.1 h.1 = true ∧ g.1 ≠ h.1
  | [], _ => .nil
  | x :: xs, h => by
    rw [List.pairwise_cons] at h
    have ih := chunkBy_sorted f xs h.2
    have hk := chunkBy_keys f xs
    have hle : ∀ g ∈ chunkBy f xs, strLe (f x) g.1 = true := by
      intro g hg
      obtain ⟨hne, hall⟩ := hk g hg
      obtain ⟨y, hy⟩ := List.exists_mem_of_ne_nil _ hne
      have : y ∈ xs := by
        rw [← chunkBy_flatten f xs]
        exact List.mem_flatten.2 ⟨g.2, List.mem_map.2 ⟨g, hg, rfl⟩, hy⟩
      rw [← hall y hy]; exact h.1 y this
    unfold chunkBy
    split
    · simp
    · next k g rest e =>
      rw [e] at ih hle
      split
      · rw [List.pairwise_cons] at ih ⊢; exact ih
      · next hx =>
        rw [List.pairwise_cons]
        refine ⟨?_, ih⟩
        intro g' hg'
        refine ⟨hle g' hg', fun e' => ?_⟩
        rcases List.mem_cons.1 hg' with h' | h'
        · rw [h'] at e'; exact hx e'
        · have h1 := (List.pairwise_cons.1 ih).1 g' h'
          have h2 := hle (k, g) (by simp)
          simp only at h1 h2 e'
          rw [e'] at h2
          exact h1.2 (strLe_antisymm _ _ h1.1 h2)

/-! ## The rows -/

theorem flatMap_filter_shown {β : Type} (f : Row → List β) (hf : ∀ r : Row, r.shown = false → f r = []) :
    ∀ rows : List Row, (rows.filter Row.shown).flatMap f = rows.flatMap f
  | [] => rfl
  | r :: rows => by
    rw [List.filter_cons]
    split
    · simp [flatMap_filter_shown f hf rows]
    · next h => simp [flatMap_filter_shown f hf rows, hf r (Bool.eq_false_iff.2 h)]

theorem shown_false {r : Row} (h : r.shown = false) : r.added = [] ∧ r.removed = [] ∧ r.changed = [] := by
  simp only [Row.shown, Bool.or_eq_false_iff, Bool.not_eq_false', List.isEmpty_iff] at h
  exact ⟨h.1.1, h.1.2, h.2⟩

theorem diff_flat {β : Type} (f : Row → List β) (hf : ∀ r : Row, r.shown = false → f r = []) (g : List Change → List β)
    (hg : ∀ n cs, f ⟨n, addedOf cs, removedOf cs, changedOf cs⟩ = g cs) (happ : ∀ x y, g (x ++ y) = g x ++ g y) (hnil : g [] = [])
    (old new : List Warning) : (diff old new).flatMap f = g (mergeJoin old new) := by
  rw [diff, flatMap_filter_shown f hf]
  rw [show g (mergeJoin old new) = g ((chunkBy Change.name (mergeJoin old new)).map Prod.snd).flatten by rw [chunkBy_flatten]]
  generalize chunkBy Change.name (mergeJoin old new) = gs
  induction gs with
  | nil => simp [hnil]
  | cons x gs ih =>
    simp only [List.map_cons, List.flatMap_cons, List.flatten_cons, happ]
    rw [ih, hg]

theorem diff_added (old new : List Warning) : (diff old new).flatMap Row.added = addedOf (mergeJoin old new) :=
  diff_flat _ (fun _ h => (shown_false h).1) _ (fun _ _ => rfl) (fun _ _ => List.filterMap_append) rfl _ _

theorem diff_removed (old new : List Warning) : (diff old new).flatMap Row.removed = removedOf (mergeJoin old new) :=
  diff_flat _ (fun _ h => (shown_false h).2.1) _ (fun _ _ => rfl) (fun _ _ => List.filterMap_append) rfl _ _

theorem diff_changed (old new : List Warning) : (diff old new).flatMap Row.changed = changedOf (mergeJoin old new) :=
  diff_flat _ (fun _ h => (shown_false h).2.2) _ (fun _ _ => rfl) (fun _ _ => List.filterMap_append) rfl _ _

/-- The pairs with the same text. -/
def sameOf (cs : List Change) : List (Warning × Warning) :=
  cs.filterMap fun c => match c with | .both o n => if o.rendered = n.rendered then some (o, n) else none | _ => none

theorem old_perm : ∀ cs : List Change,
    (oldOf cs).Perm (removedOf cs ++ ((changedOf cs).map Prod.fst ++ (sameOf cs).map Prod.fst))
  | [] => .refl _
  | .left o :: cs => (old_perm cs).cons o
  | .right n :: cs => old_perm cs
  | .both o n :: cs => by
    have ih := old_perm cs
    by_cases h : o.rendered = n.rendered
    · have e1 : oldOf (.both o n :: cs) = o :: oldOf cs := rfl
      have e2 : removedOf (.both o n :: cs) = removedOf cs := rfl
      have e3 : changedOf (.both o n :: cs) = changedOf cs := by simp [changedOf, List.filterMap_cons, h]
      have e4 : sameOf (.both o n :: cs) = (o, n) :: sameOf cs := by simp [sameOf, List.filterMap_cons, h]
      rw [e1, e2, e3, e4, List.map_cons, ← List.append_assoc]
      rw [← List.append_assoc] at ih
      exact (ih.cons o).trans List.perm_middle.symm
    · have e1 : oldOf (.both o n :: cs) = o :: oldOf cs := rfl
      have e2 : removedOf (.both o n :: cs) = removedOf cs := rfl
      have e3 : changedOf (.both o n :: cs) = (o, n) :: changedOf cs := by simp [changedOf, List.filterMap_cons, h]
      have e4 : sameOf (.both o n :: cs) = sameOf cs := by simp [sameOf, List.filterMap_cons, h]
      rw [e1, e2, e3, e4, List.map_cons, List.cons_append]
      exact (ih.cons o).trans List.perm_middle.symm

theorem new_perm : ∀ cs : List Change,
    (newOf cs).Perm (addedOf cs ++ ((changedOf cs).map Prod.snd ++ (sameOf cs).map Prod.snd))
  | [] => .refl _
  | .right o :: cs => (new_perm cs).cons o
  | .left n :: cs => new_perm cs
  | .both o n :: cs => by
    have ih := new_perm cs
    by_cases h : o.rendered = n.rendered
    · have e1 : newOf (.both o n :: cs) = n :: newOf cs := rfl
      have e2 : addedOf (.both o n :: cs) = addedOf cs := rfl
      have e3 : changedOf (.both o n :: cs) = changedOf cs := by simp [changedOf, List.filterMap_cons, h]
      have e4 : sameOf (.both o n :: cs) = (o, n) :: sameOf cs := by simp [sameOf, List.filterMap_cons, h]
      rw [e1, e2, e3, e4, List.map_cons, ← List.append_assoc]
      rw [← List.append_assoc] at ih
      exact (ih.cons n).trans List.perm_middle.symm
    · have e1 : newOf (.both o n :: cs) = n :: newOf cs := rfl
      have e2 : addedOf (.both o n :: cs) = addedOf cs := rfl
      have e3 : changedOf (.both o n :: cs) = (o, n) :: changedOf cs := by simp [changedOf, List.filterMap_cons, h]
      have e4 : sameOf (.both o n :: cs) = sameOf cs := by simp [sameOf, List.filterMap_cons, h]
      rw [e1, e2, e3, e4, List.map_cons, List.cons_append]
      exact (ih.cons n).trans List.perm_middle.symm

/-- **C49**, every warning once: the old warnings are the removed ones, the changed ones and some unchanged ones; the new warnings are the
added ones, the changed ones and the unchanged ones. Changed and unchanged are pairs of warnings of the same lint at the same place, whose
texts differ or agree. -/
theorem diff_complete (old new : List Warning) : ∃ same : List (Warning × Warning),
    old.Perm ((diff old new).flatMap Row.removed ++ (((diff old new).flatMap Row.changed).map Prod.fst ++ same.map Prod.fst)) ∧
    new.Perm ((diff old new).flatMap Row.added ++ (((diff old new).flatMap Row.changed).map Prod.snd ++ same.map Prod.snd)) ∧
    (∀ p ∈ (diff old new).flatMap Row.changed, key p.1 = key p.2 ∧ p.1.rendered ≠ p.2.rendered) ∧
    (∀ p ∈ same, key p.1 = key p.2 ∧ p.1.rendered = p.2.rendered) := by
  refine ⟨sameOf (mergeJoin old new), ?_, ?_, ?_, ?_⟩
  · rw [diff_removed, diff_changed]
    have := old_perm (mergeJoin old new)
    rwa [mergeJoin_old] at this
  · rw [diff_added, diff_changed]
    have := new_perm (mergeJoin old new)
    rwa [mergeJoin_new] at this
  · intro p hp
    rw [diff_changed, changedOf, List.mem_filterMap] at hp
    obtain ⟨c, hc, e⟩ := hp
    cases c with
    | left o => simp at e
    | right o => simp at e
    | both o n =>
      simp only at e
      split at e
      · next h => simp only [Option.some.injEq] at e; rw [← e]; exact ⟨mergeJoin_both _ _ o n hc, h⟩
      · simp at e
  · intro p hp
    rw [sameOf, List.mem_filterMap] at hp
    obtain ⟨c, hc, e⟩ := hp
    cases c with
    | left o => simp at e
    | right o => simp at e
    | both o n =>
      simp only at e
      split at e
      · next h => simp only [Option.some.injEq] at e; rw [← e]; exact ⟨mergeJoin_both _ _ o n hc, h⟩
      · simp at e

/-- **C49**: the comparison of a file with itself is empty. -/
theorem diff_self (l : List Warning) : diff l l = [] := by
  rw [diff, List.filter_eq_nil_iff]
  intro r hr
  obtain ⟨g, hg, rfl⟩ := List.mem_map.1 hr
  have hsub : ∀ c ∈ g.2, ∃ w, c = .both w w := by
    intro c hc
    have : c ∈ mergeJoin l l := by
      rw [← chunkBy_flatten Change.name (mergeJoin l l)]
      exact List.mem_flatten.2 ⟨g.2, List.mem_map.2 ⟨g, hg, rfl⟩, hc⟩
    rw [mergeJoin_self, List.mem_map] at this
    obtain ⟨w, _, e⟩ := this
    exact ⟨w, e.symm⟩
  have e1 : addedOf g.2 = [] := by
    rw [addedOf, List.filterMap_eq_nil_iff]
    intro c hc; obtain ⟨w, rfl⟩ := hsub c hc; rfl
  have e2 : removedOf g.2 = [] := by
    rw [removedOf, List.filterMap_eq_nil_iff]
    intro c hc; obtain ⟨w, rfl⟩ := hsub c hc; rfl
  have e3 : changedOf g.2 = [] := by
    rw [changedOf, List.filterMap_eq_nil_iff]
    intro c hc; obtain ⟨w, rfl⟩ := hsub c hc; simp
  simp [Row.shown, e1, e2, e3]

theorem count_eq_zero_of_lt {a : Warning} {b : Warning} {bs : List Warning} (hs : Sorted (b :: bs)) (h : keyLe b a = false) :
    count (key a) (b :: bs) = 0 := by
  rw [count, List.countP_eq_zero]
  intro w hw hk
  simp only [decide_eq_true_eq] at hk
  have hba : keyLe b w = true := by
    rcases List.mem_cons.1 hw with e | hw
    · rw [e]; exact keyLe_of_key rfl
    · exact (List.pairwise_cons.1 hs).1 w hw
  rw [keyLe_trans _ _ _ hba (keyLe_of_key hk)] at h
  simp at h

theorem count_cons (k : Str × Str) (w : Warning) (ws : List Warning) : count k (w :: ws) = count k ws + if key w = k then 1 else 0 := by
  simp [count, List.countP_cons]

theorem removedOf_right (l : List Warning) : removedOf (l.map .right) = [] := by
  induction l with
  | nil => rfl
  | cons b l ih => simp only [removedOf, List.map_cons, List.filterMap_cons] at *; rw [ih]

theorem addedOf_right (l : List Warning) : addedOf (l.map .right) = l := by
  induction l with
  | nil => rfl
  | cons b l ih => simp only [addedOf, List.map_cons, List.filterMap_cons] at *; rw [ih]

theorem removedOf_left (l : List Warning) : removedOf (l.map .left) = l := by
  induction l with
  | nil => rfl
  | cons b l ih => simp only [removedOf, List.map_cons, List.filterMap_cons] at *; rw [ih]

theorem addedOf_left (l : List Warning) : addedOf (l.map .left) = [] := by
  induction l with
  | nil => rfl
  | cons b l ih => simp only [addedOf, List.map_cons, List.filterMap_cons] at *; rw [ih]

/-- The counts of removed and added warnings, for sorted files. -/
theorem mergeJoin_counts (k : Str × Str) (as bs : List Warning) : Sorted as → Sorted bs →
    count k (removedOf (mergeJoin as bs)) = count k as - count k bs ∧ count k (addedOf (mergeJoin as bs)) = count k bs - count k as := by
  refine merge_induction (P := fun as bs cs => Sorted as → Sorted bs →
    count k (removedOf cs) = count k as - count k bs ∧ count k (addedOf cs) = count k bs - count k as) ?_ ?_ ?_ ?_ ?_ as bs
  · intro bs _ _; rw [removedOf_right, addedOf_right]; simp [count]
  · intro as _ _; rw [removedOf_left, addedOf_left]; simp [count]
  · intro a as b bs cs h1 h2 ih ha hb
    obtain ⟨i1, i2⟩ := ih (List.pairwise_cons.1 ha).2 (List.pairwise_cons.1 hb).2
    have e1 : removedOf (.both a b :: cs) = removedOf cs := rfl
    have e2 : addedOf (.both a b :: cs) = addedOf cs := rfl
    rw [e1, e2, i1, i2, count_cons, count_cons, keyLe_antisymm h1 h2]
    split <;> omega
  · intro a as b bs cs h1 h2 ih ha hb
    obtain ⟨i1, i2⟩ := ih (List.pairwise_cons.1 ha).2 hb
    have e1 : removedOf (.left a :: cs) = a :: removedOf cs := rfl
    have e2 : addedOf (.left a :: cs) = addedOf cs := rfl
    rw [e1, e2, count_cons, i1, i2, count_cons k a as]
    split
    · next hk => rw [← hk, count_eq_zero_of_lt hb h2]; omega
    · omega
  · intro a as b bs cs h1 ih ha hb
    obtain ⟨i1, i2⟩ := ih ha (List.pairwise_cons.1 hb).2
    have e1 : removedOf (.right b :: cs) = removedOf cs := rfl
    have e2 : addedOf (.right b :: cs) = b :: addedOf cs := rfl
    rw [e1, e2, count_cons k b (addedOf cs), i1, i2, count_cons k b bs]
    split
    · next hk => rw [← hk, count_eq_zero_of_lt ha h1]; omega
    · omega

/-- **C49**: for sorted files a warning counts as removed at a place as often as there are more old than new warnings there, and as added
as often as there are more new ones; so no place has both. -/
theorem diff_counts {old new : List Warning} (ho : Sorted old) (hn : Sorted new) (k : Str × Str) :
    count k ((diff old new).flatMap Row.removed) = count k old - count k new ∧
      count k ((diff old new).flatMap Row.added) = count k new - count k old := by
  rw [diff_removed, diff_added]
  exact mergeJoin_counts k old new ho hn

theorem mergeJoin_names (as bs : List Warning) : Sorted as → Sorted bs →
    (mergeJoin as bs).Pairwise fun c d => strLe c.name d.name = true := by
  have hmem : ∀ as bs (c : Change), c ∈ mergeJoin as bs → (∃ w ∈ as, c.name = w.name) ∨ ∃ w ∈ bs, c.name = w.name := by
    intro as bs c hc
    cases c with
    | left o =>
      have : o ∈ oldOf (mergeJoin as bs) := List.mem_filterMap.2 ⟨_, hc, rfl⟩
      rw [mergeJoin_old] at this; exact .inl ⟨o, this, rfl⟩
    | right o =>
      have : o ∈ newOf (mergeJoin as bs) := List.mem_filterMap.2 ⟨_, hc, rfl⟩
      rw [mergeJoin_new] at this; exact .inr ⟨o, this, rfl⟩
    | both o n =>
      have : o ∈ oldOf (mergeJoin as bs) := List.mem_filterMap.2 ⟨_, hc, rfl⟩
      rw [mergeJoin_old] at this; exact .inl ⟨o, this, rfl⟩
  have hpair : ∀ l : List Warning, Sorted l → l.Pairwise fun a b => strLe a.name b.name = true := fun l h =>
    h.imp fun h => (keyLe_iff.1 h).1
  refine merge_induction (P := fun as bs cs => cs = mergeJoin as bs → Sorted as → Sorted bs → cs.Pairwise fun c d => strLe c.name d.name = true)
    ?_ ?_ ?_ ?_ ?_ as bs rfl
  · intro bs _ _ hb; rw [List.pairwise_map]; exact hpair bs hb
  · intro as _ ha _; rw [List.pairwise_map]; exact hpair as ha
  · intro a as b bs cs h1 h2 ih e ha hb
    rw [mergeJoin_cons, if_pos h1, if_pos h2, List.cons.injEq] at e
    rw [List.pairwise_cons]
    refine ⟨?_, ih e.2 (List.pairwise_cons.1 ha).2 (List.pairwise_cons.1 hb).2⟩
    intro d hd
    rw [e.2] at hd
    rcases hmem _ _ d hd with ⟨w, hw, e'⟩ | ⟨w, hw, e'⟩
    · rw [e']; exact (keyLe_iff.1 ((List.pairwise_cons.1 ha).1 w hw)).1
    · rw [e']; exact (keyLe_iff.1 (keyLe_trans _ _ _ h1 ((List.pairwise_cons.1 hb).1 w hw))).1
  · intro a as b bs cs h1 h2 ih e ha hb
    rw [mergeJoin_cons, if_pos h1, if_neg (by simp [h2]), List.cons.injEq] at e
    rw [List.pairwise_cons]
    refine ⟨?_, ih e.2 (List.pairwise_cons.1 ha).2 hb⟩
    intro d hd
    rw [e.2] at hd
    rcases hmem _ _ d hd with ⟨w, hw, e'⟩ | ⟨w, hw, e'⟩
    · rw [e']; exact (keyLe_iff.1 ((List.pairwise_cons.1 ha).1 w hw)).1
    · rw [e']
      rcases List.mem_cons.1 hw with hw | hw
      · rw [hw]; exact (keyLe_iff.1 h1).1
      · exact (keyLe_iff.1 (keyLe_trans _ _ _ h1 ((List.pairwise_cons.1 hb).1 w hw))).1
  · intro a as b bs cs h1 ih e ha hb
    rw [mergeJoin_cons, if_neg (by simp [h1]), List.cons.injEq] at e
    have h2 : keyLe b a = true := (keyLe_total a b).resolve_left (by simp [h1])
    rw [List.pairwise_cons]
    refine ⟨?_, ih e.2 ha (List.pairwise_cons.1 hb).2⟩
    intro d hd
    rw [e.2] at hd
    rcases hmem _ _ d hd with ⟨w, hw, e'⟩ | ⟨w, hw, e'⟩
    · rw [e']
      rcases List.mem_cons.1 hw with hw | hw
      · rw [hw]; exact (keyLe_iff.1 h2).1
      · exact (keyLe_iff.1 (keyLe_trans _ _ _ h2 ((List.pairwise_cons.1 ha).1 w hw))).1
    · rw [e']; exact (keyLe_iff.1 ((List.pairwise_cons.1 hb).1 w hw)).1

theorem row_names {old new : List Warning} {r : Row} (h : r ∈ diff old new) :
    (∀ w ∈ r.added, w.name = r.name) ∧ (∀ w ∈ r.removed, w.name = r.name) ∧ ∀ p ∈ r.changed, p.1.name = r.name ∧ p.2.name = r.name := by
  obtain ⟨h, _⟩ := List.mem_filter.1 h
  obtain ⟨g, hg, rfl⟩ := List.mem_map.1 h
  have hk := (chunkBy_keys Change.name _ g hg).2
  have hin : ∀ c ∈ g.2, c ∈ mergeJoin old new := by
    intro c hc
    rw [← chunkBy_flatten Change.name (mergeJoin old new)]
    exact List.mem_flatten.2 ⟨g.2, List.mem_map.2 ⟨g, hg, rfl⟩, hc⟩
  refine ⟨?_, ?_, ?_⟩
  · intro w hw
    obtain ⟨c, hc, e⟩ := List.mem_filterMap.1 hw
    cases c with
    | right n => simp only [Option.some.injEq] at e; rw [← e]; exact hk _ hc
    | left _ => simp at e
    | both _ _ => simp at e
  · intro w hw
    obtain ⟨c, hc, e⟩ := List.mem_filterMap.1 hw
    cases c with
    | left n => simp only [Option.some.injEq] at e; rw [← e]; exact hk _ hc
    | right _ => simp at e
    | both _ _ => simp at e
  · intro p hp
    obtain ⟨c, hc, e⟩ := List.mem_filterMap.1 hp
    cases c with
    | left _ => simp at e
    | right _ => simp at e
    | both o n =>
      simp only at e
      split at e
      · simp only [Option.some.injEq] at e
        rw [← e]
        have h1 := hk _ hc
        have h2 := mergeJoin_both _ _ o n (hin _ hc)
        simp only [key, Prod.mk.injEq] at h2
        exact ⟨h1, h2.1.symm.trans h1⟩
      · simp at e

/-- **C49**, the rows of the summary: for sorted files every lint has at most one row, in the order of the names; a row has only warnings
of its lint, and at least one. -/
theorem diff_rows {old new : List Warning} (ho : Sorted old) (hn : Sorted new) :
    (diff old new).Pairwise (fun r s => strLe r.name s.name = true ∧ r.name ≠ s.name) ∧
    ∀ r ∈ diff old new, 0 < r.added.length + r.removed.length + r.changed.length ∧ (∀ w ∈ r.added, w.name = r.name) ∧
      (∀ w ∈ r.removed, w.name = r.name) ∧ ∀ p ∈ r.changed, p.1.name = r.name ∧ p.2.name = r.name := by
  refine ⟨?_, fun r hr => ⟨?_, row_names hr⟩⟩
  · rw [diff]
    refine List.Pairwise.filter _ ?_
    rw [List.pairwise_map]
    exact chunkBy_sorted Change.name _ (mergeJoin_names old new ho hn)
  · obtain ⟨_, hs⟩ := List.mem_filter.1 hr
    simp only [Row.shown, Bool.or_eq_true, Bool.not_eq_true', List.isEmpty_eq_false_iff] at hs
    rcases hs with (h | h) | h
    · have := List.length_pos_iff.2 h; omega
    · have := List.length_pos_iff.2 h; omega
    · have := List.length_pos_iff.2 h; omega

/-! ## Examples -/

/-- An old run. -/
def exOld : List Warning := [⟨str!"a", str!"1", str!"x"⟩, ⟨str!"a", str!"2", str!"x"⟩, ⟨str!"b", str!"1", str!"x"⟩]

/-- A new run. -/
def exNew : List Warning := [⟨str!"a", str!"2", str!"y"⟩, ⟨str!"b", str!"1", str!"x"⟩, ⟨str!"c", str!"7", str!"z"⟩]

/-- One removed, one changed, one unchanged, one added. -/
example : diff exOld exNew = [⟨str!"a", [], [⟨str!"a", str!"1", str!"x"⟩], [(⟨str!"a", str!"2", str!"x"⟩, ⟨str!"a", str!"2", str!"y"⟩)]⟩,
    ⟨str!"c", [⟨str!"c", str!"7", str!"z"⟩], [], []⟩] := by decide +kernel

/-- Both are sorted. -/
example : Sorted exOld ∧ Sorted exNew := by
  constructor <;> simp only [Sorted, exOld, exNew] <;> decide +kernel

/-- **C49**, violation of "the comparison of equal runs is empty": two warnings of one lint on one line are written in the order in which
they were found, so the same warnings found in another order are reported as changed. -/
theorem diff_order_violation : ∃ ws ws' : List Warning, ws.Perm ws' ∧ ((diff (output ws) (output ws')).flatMap Row.changed).length = 2 :=
  ⟨[⟨str!"a", str!"1", str!"x"⟩, ⟨str!"a", str!"1", str!"y"⟩], [⟨str!"a", str!"1", str!"y"⟩, ⟨str!"a", str!"1", str!"x"⟩],
    List.Perm.swap .., by decide +kernel⟩

/-- If no two warnings share a place, the order in which they are found doesn't matter. -/
theorem diff_perm_partial {ws ws' : List Warning} (hp : ws.Perm ws') (hd : ws.Pairwise fun a b => key a ≠ key b) :
    diff (output ws) (output ws') = [] := by
  have h1 := output_sorted ws
  have h2 := output_sorted ws'
  have hkey : ∀ a ∈ output ws, ∀ b ∈ output ws, keyLe a b = true → keyLe b a = true → a = b := by
    intro a ha b hb hab hba
    have hk := keyLe_antisymm hab hba
    have ha' := h1.2.mem_iff.1 ha
    have hb' := h1.2.mem_iff.1 hb
    have inj : ∀ (l : List Warning), l.Pairwise (fun a b => key a ≠ key b) → ∀ a ∈ l, ∀ b ∈ l, key a = key b → a = b := by
      intro l hl
      induction l with
      | nil => intro a ha; simp at ha
      | cons x l ih =>
        rw [List.pairwise_cons] at hl
        intro a ha b hb e
        rcases List.mem_cons.1 ha with e1 | ha <;> rcases List.mem_cons.1 hb with e2 | hb
        · rw [e1, e2]
        · rw [e1] at e; exact absurd e (hl.1 b hb)
        · rw [e2] at e; exact absurd e.symm (hl.1 a ha)
        · exact ih hl.2 a ha b hb e
    exact inj ws hd a ha' b hb' hk
  have : output ws = output ws' := sorted_perm_unique (h1.2.trans (hp.trans h2.2.symm)) h1.1 h2.1 hkey
  rw [this, diff_self]

end Verif.Lintcheck
