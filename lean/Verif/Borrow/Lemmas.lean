import Verif.Borrow.Model
import Verif.Borrow.Spec

/-! The transitive relation. -/

namespace Verif.Borrow

open Model
open Verif.Mir (Local Place Elem)

/-- A path of pairs that were added. -/
abbrev Path (r : Rel) : Local → Local → Prop := Spec.Reach fun x y => (x, y) ∈ r

theorem reach_trans {r : Local → Local → Prop} {x y z : Local} (h1 : Spec.Reach r x y)
    (h2 : Spec.Reach r y z) : Spec.Reach r x z := by
  induction h1 with
  | one h => exact .more h h2
  | more h _ ih => exact .more h (ih h2)

theorem mem_edges (r : Rel) (u v : Local) : v ∈ edges r u ↔ (u, v) ∈ r := by
  simp only [edges, List.mem_filterMap]
  constructor
  · rintro ⟨⟨a, b⟩, hm, h⟩
    simp only at h
    split at h
    · rename_i he
      cases h
      exact he ▸ hm
    · cases h
  · intro h
    exact ⟨(u, v), h, by simp⟩

theorem pushNew_spec (vs : List Local) : ∀ seen stack, ∃ q,
    pushNew seen stack vs = (q ++ seen, q ++ stack) ∧ q.Nodup ∧ (∀ x ∈ q, x ∉ seen ∧ x ∈ vs) ∧
      ∀ v ∈ vs, v ∈ q ++ seen := by
  induction vs with
  | nil => intro seen stack; exact ⟨[], rfl, List.nodup_nil, by simp, by simp⟩
  | cons v vs ih =>
    intro seen stack
    simp only [pushNew]
    by_cases hv : seen.contains v = true
    · have hm : v ∈ seen := by simpa using hv
      rw [if_pos hv]
      obtain ⟨q, h1, h2, h3, h4⟩ := ih seen stack
      refine ⟨q, h1, h2, fun x hx => ⟨(h3 x hx).1, List.mem_cons_of_mem _ (h3 x hx).2⟩, ?_⟩
      intro y hy
      rcases List.mem_cons.1 hy with rfl | hy
      · exact List.mem_append_right _ hm
      · exact h4 y hy
    · have hm : v ∉ seen := by simpa using hv
      rw [if_neg hv]
      obtain ⟨q, h1, h2, h3, h4⟩ := ih (v :: seen) (v :: stack)
      refine ⟨q ++ [v], by rw [h1]; simp, ?_, ?_, ?_⟩
      · rw [List.nodup_append]
        refine ⟨h2, by simp, ?_⟩
        intro a ha b hb hab
        simp only [List.mem_singleton] at hb
        subst hb
        exact (h3 a ha).1 (by simp [hab])
      · intro x hx
        rcases List.mem_append.1 hx with hx | hx
        · exact ⟨fun h => (h3 x hx).1 (List.mem_cons_of_mem _ h), List.mem_cons_of_mem _ (h3 x hx).2⟩
        · simp only [List.mem_singleton] at hx
          subst hx
          exact ⟨hm, by simp⟩
      · intro y hy
        rcases List.mem_cons.1 hy with rfl | hy
        · simp
        · have := h4 y hy
          simp only [List.mem_append, List.mem_cons] at this ⊢
          rcases this with h | h | h
          · exact .inl (.inl h)
          · exact .inl (.inr (.inl h))
          · exact .inr h

/-- Without duplicates. -/
theorem nodup_bound {n : Nat} {l : List Nat} (h : l.Nodup) (hb : ∀ x ∈ l, x < n) : l.length ≤ n := by
  have := List.Nodup.length_le_of_subset h (fun x hx => List.mem_range.2 (hb x hx))
  simpa using this

/-- The state of the search. -/
structure Inv (r : Rel) (a : Local) (n fuel : Nat) (stack seen : List Local) : Prop where
  nodup : seen.Nodup
  found : ∀ s ∈ seen, Path r a s
  stack_sub : ∀ s ∈ stack, s = a ∨ s ∈ seen
  done : ∀ s, s = a ∨ s ∈ seen → s ∈ stack ∨ ∀ v, (s, v) ∈ r → v ∈ seen
  fuel_le : stack.length + n ≤ fuel + seen.length

theorem path_lt {r : Rel} {n : Nat} (hr : ∀ e ∈ r, e.2 < n) {x y : Local} (h : Path r x y) : y < n := by
  induction h with
  | one h => exact hr _ h
  | more _ _ ih => exact ih

theorem reachLoop_iff {r : Rel} {n : Nat} (hr : ∀ e ∈ r, e.2 < n) (a : Local) : ∀ fuel stack seen,
    Inv r a n fuel stack seen → ∀ v, v ∈ reachLoop r fuel stack seen ↔ Path r a v := by
  have fin : ∀ {seen : List Local}, (∀ s ∈ seen, Path r a s) →
      (∀ s, s = a ∨ s ∈ seen → ∀ v, (s, v) ∈ r → v ∈ seen) → ∀ v, v ∈ seen ↔ Path r a v := by
    intro seen h1 h2 v
    refine ⟨h1 v, ?_⟩
    have : ∀ {x y}, Path r x y → (x = a ∨ x ∈ seen) → y ∈ seen := by
      intro x y h
      induction h with
      | one h => intro hx; exact h2 _ hx _ h
      | more h _ ih => intro hx; exact ih (.inr (h2 _ hx _ h))
    intro h
    exact this h (.inl rfl)
  intro fuel
  induction fuel with
  | zero =>
    intro stack seen h v
    simp only [reachLoop]
    refine fin h.found ?_ v
    intro s hs w hw
    have hlen := nodup_bound h.nodup fun x hx => path_lt hr (h.found x hx)
    have hf := h.fuel_le
    have hst : stack = [] := List.length_eq_zero_iff.1 (by omega)
    subst hst
    rcases h.done s hs with h' | h'
    · cases h'
    · exact h' w hw
  | succ fuel ih =>
    intro stack seen h v
    cases stack with
    | nil =>
      simp only [reachLoop]
      refine fin h.found ?_ v
      intro s hs w hw
      rcases h.done s hs with h' | h'
      · cases h'
      · exact h' w hw
    | cons u stack =>
      simp only [reachLoop]
      obtain ⟨q, h1, h2, h3, h4⟩ := pushNew_spec (edges r u) seen stack
      rw [h1]
      refine ih _ _ ⟨?_, ?_, ?_, ?_, ?_⟩ v
      · rw [List.nodup_append]
        exact ⟨h2, h.nodup, fun x hx y hy hxy => (h3 x hx).1 (hxy ▸ hy)⟩
      · intro s hs
        rcases List.mem_append.1 hs with hs | hs
        · have he : (u, s) ∈ r := (mem_edges r u s).1 (h3 s hs).2
          rcases h.stack_sub u (by simp) with rfl | hu
          · exact .one he
          · exact reach_trans (h.found u hu) (.one he)
        · exact h.found s hs
      · intro s hs
        rcases List.mem_append.1 hs with hs | hs
        · exact .inr (List.mem_append_left _ hs)
        · exact (h.stack_sub s (List.mem_cons_of_mem _ hs)).imp id (List.mem_append_right _)
      · intro s hs
        by_cases hsu : s = u
        · subst hsu
          exact .inr fun w hw => h4 w ((mem_edges r s w).2 hw)
        · have old : (s = a ∨ s ∈ seen) → s ∈ q ++ stack ∨ ∀ w, (s, w) ∈ r → w ∈ q ++ seen := by
            intro hs
            rcases h.done s hs with h' | h'
            · rcases List.mem_cons.1 h' with h' | h'
              · exact absurd h' hsu
              · exact .inl (List.mem_append_right _ h')
            · exact .inr fun w hw => List.mem_append_right _ (h' w hw)
          rcases hs with hs | hs
          · exact old (.inl hs)
          · rcases List.mem_append.1 hs with hs | hs
            · exact .inl (List.mem_append_left _ hs)
            · exact old (.inr hs)
      · have := h.fuel_le
        simp only [List.length_cons, List.length_append] at this ⊢
        omega

/-- What can be reached. -/
theorem reachable_iff {r : Rel} {n : Nat} (hr : ∀ e ∈ r, e.2 < n) (a v : Local) :
    v ∈ reachable r a n ↔ Path r a v := by
  refine reachLoop_iff hr a _ _ _ ⟨by simp, by simp, by simp, ?_, ?_⟩ v
  · intro s hs
    rcases hs with rfl | hs
    · exact .inl (by simp)
    · cases hs
  · simp only [List.length_cons, List.length_nil]; omega

/-- The rows of the maps. -/
theorem row_some {T : Types} {n : Nat} {r : Rel} (hr : ∀ e ∈ r, e.2 < n) {x : Local} {s : List Local}
    (h : row T n r x = some s) : x ≠ 0 ∧ x < n ∧ T.copy x = false ∧ ∀ v, v ∈ s ↔ Path r x v ∧ v ≠ 0 := by
  simp only [row] at h
  split at h
  · cases h
  · rename_i hc
    simp only [Bool.or_eq_true, decide_eq_true_eq, not_or, Bool.not_eq_true, Nat.not_le] at hc
    split at h
    · cases h
    · cases h
      refine ⟨hc.1.1, hc.1.2, hc.2, ?_⟩
      intro v
      simp [List.mem_filter, reachable_iff hr]

theorem row_found {T : Types} {n : Nat} {r : Rel} (hr : ∀ e ∈ r, e.2 < n) {x v : Local} (h0 : x ≠ 0)
    (hn : x < n) (hc : T.copy x = false) (hp : Path r x v) (hv : v ≠ 0) :
    ∃ s, row T n r x = some s ∧ v ∈ s := by
  have hm : v ∈ (reachable r x n).filter (· != 0) := by
    simp [List.mem_filter, reachable_iff hr, hp, hv]
  refine ⟨(reachable r x n).filter (· != 0), ?_, hm⟩
  simp only [row]
  rw [if_neg (by simp [h0, hc]; omega), if_neg]
  intro he
  rw [List.isEmpty_iff] at he
  rw [he] at hm
  cases hm

theorem opLocal_mem {o : Operand} {x : Local} : x ∈ opLocal o ↔ ∃ p, o.place = some p ∧ p.base = x := by
  cases o <;> simp [opLocal, Operand.place, eq_comm]

/-- Pairs of origins stay within the locals. -/
theorem originPairs_lt {n : Nat} {i : Instr} (h : Spec.Within n i) : ∀ e ∈ originPairs i, e.2 < n := by
  intro e he
  cases i with
  | assign d g v =>
    cases v with
    | ref m p =>
      cases m with
      | true => simp only [originPairs, List.mem_singleton] at he; subst he; exact h.2
      | false => cases he
    | derefCopy p => cases he
    | use o =>
      cases o with
      | copy p => cases he
      | move p => simp only [originPairs, List.mem_singleton] at he; subst he; exact h.2 p rfl
      | const => cases he
    | cast o =>
      cases o with
      | copy p => cases he
      | move p => simp only [originPairs, List.mem_singleton] at he; subst he; exact h.2 p rfl
      | const => cases he
    | ops os => cases he
    | plain => cases he
  | call args d => cases he
  | other => cases he

/-- Pairs of borrowers stay within the locals. -/
theorem pairs_lt {T : Types} {n : Nat} {orig : Local → Option (List Local)}
    (ho : ∀ x s, orig x = some s → ∀ y ∈ s, y < n) {i : Instr} (h : Spec.Within n i) :
    ∀ e ∈ pairs T orig i, e.2 < n := by
  intro e he
  cases i with
  | assign d g v =>
    have hd : d.base < n := h.1
    have key : ∀ l : List Local,
        e ∈ (if g = true then (l.filter (· != d.base)).map fun x => (x, d.base) else []) → e.2 < n := by
      intro l hl
      split at hl
      · obtain ⟨x, -, rfl⟩ := List.mem_map.1 hl
        exact hd
      · cases hl
    cases v with
    | ref m p => simp only [pairs, List.mem_singleton] at he; subst he; exact hd
    | derefCopy p => simp only [pairs, List.mem_singleton] at he; subst he; exact hd
    | use o => exact key _ he
    | cast o => exact key _ he
    | ops os => exact key _ he
    | plain => exact key _ he
  | call args d =>
    simp only [pairs, List.mem_flatMap, List.mem_append, List.mem_map] at he
    obtain ⟨y, hy, he⟩ := he
    have hlt : y < n := by
      simp only [callTargets, List.mem_append, List.mem_flatMap] at hy
      rcases hy with ⟨r, -, hr⟩ | hy
      · cases hor : orig r with
        | none => rw [hor] at hr; cases hr
        | some s => rw [hor] at hr; exact ho r s hor y hr
      · split at hy
        · simp only [List.mem_singleton] at hy
          subst hy
          exact h.1
        · cases hy
    rcases he with ⟨x, -, rfl⟩ | ⟨x, -, rfl⟩
    · exact hlt
    · exact hlt
  | other => cases he

end Verif.Borrow
