/-!
# Stable sorting

`slice::sort`, `sort_by` and `sort_by_key` of Rust's standard library are stable; insertion sort is a stable
sort, and a stable sort is determined by the order, so it is used as their model.
-/

namespace Verif

variable {α : Type}

/-- Inserts `x` before the first element that is not smaller. -/
def insertBy (le : α → α → Bool) (x : α) : List α → List α
  | [] => [x]
  | y :: ys => if le x y then x :: y :: ys else y :: insertBy le x ys

/-- The sorted list. -/
def sortBy (le : α → α → Bool) : List α → List α
  | [] => []
  | x :: xs => insertBy le x (sortBy le xs)

theorem insertBy_perm (le : α → α → Bool) (x : α) : ∀ l, (insertBy le x l).Perm (x :: l)
  | [] => .refl _
  | y :: ys => by
    unfold insertBy
    split
    · exact .refl _
    · exact ((insertBy_perm le x ys).cons y).trans (.swap x y ys)

theorem sortBy_perm (le : α → α → Bool) : ∀ l, (sortBy le l).Perm l
  | [] => .refl _
  | x :: xs => (insertBy_perm le x _).trans ((sortBy_perm le xs).cons x)

theorem insertBy_sorted {le : α → α → Bool} (tot : ∀ a b, le a b = true ∨ le b a = true)
    (tr : ∀ a b c, le a b = true → le b c = true → le a c = true) (x : α) :
    ∀ {l}, l.Pairwise (fun a b => le a b = true) → (insertBy le x l).Pairwise (fun a b => le a b = true)
  | [], _ => by simp [insertBy]
  | y :: ys, h => by
    unfold insertBy
    rw [List.pairwise_cons] at h
    split
    · next hxy =>
      rw [List.pairwise_cons, List.pairwise_cons]
      refine ⟨?_, h⟩
      intro z hz
      rcases List.mem_cons.1 hz with rfl | hz
      · exact hxy
      · exact tr _ _ _ hxy (h.1 z hz)
    · next hxy =>
      rw [List.pairwise_cons]
      refine ⟨?_, insertBy_sorted tot tr x h.2⟩
      intro z hz
      rcases List.mem_cons.1 ((insertBy_perm le x ys).mem_iff.1 hz) with rfl | hz
      · exact (tot z y).resolve_left hxy
      · exact h.1 z hz

theorem sortBy_sorted {le : α → α → Bool} (tot : ∀ a b, le a b = true ∨ le b a = true)
    (tr : ∀ a b c, le a b = true → le b c = true → le a c = true) :
    ∀ l, (sortBy le l).Pairwise (fun a b => le a b = true)
  | [] => .nil
  | x :: xs => insertBy_sorted tot tr x (sortBy_sorted tot tr xs)

/-- Stability: of two elements that are equal in the order, the one that was first stays first. -/
theorem sortBy_stable {le : α → α → Bool} (tr : ∀ a b c, le a b = true → le b c = true → le a c = true)
    (a : α) : ∀ l, (sortBy le l).filter (fun b => le a b && le b a) = l.filter (fun b => le a b && le b a)
  | [] => rfl
  | x :: xs => by
    have ih := sortBy_stable tr a xs
    have key : ∀ l : List α, (insertBy le x l).filter (fun b => le a b && le b a) =
        (x :: l).filter (fun b => le a b && le b a) := by
      intro l
      induction l with
      | nil => rfl
      | cons y ys ih =>
        unfold insertBy
        split
        · rfl
        · next hxy =>
          rw [List.filter_cons, ih]
          by_cases hx : (le a x && le x a) = true
          · by_cases hy : (le a y && le y a) = true
            · rw [Bool.and_eq_true] at hx hy
              exact absurd (tr _ _ _ hx.2 hy.1) hxy
            · rw [if_neg hy, List.filter_cons, List.filter_cons, if_pos hx, if_pos hx, List.filter_cons,
                if_neg hy]
          · rw [List.filter_cons, List.filter_cons (x := x), if_neg hx, if_neg hx, List.filter_cons]
    show (insertBy le x (sortBy le xs)).filter _ = _
    rw [key, List.filter_cons, List.filter_cons, ih]

end Verif
