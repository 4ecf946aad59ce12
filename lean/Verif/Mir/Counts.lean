import Verif.Mir.Walks

/-! What the visitor collects. -/

namespace Verif.Mir

open Model

/-- A step appends these positions for each local. -/
def Adds (xs : List Local) (F : List Usage → List Usage) (A B : Local → List Loc) : Prop :=
  ∀ us : List Usage, us.length = xs.length →
    F us = List.zipWith (fun x u => ⟨u.uses ++ A x, u.consumes ++ B x⟩) xs us

theorem zipWith_snd (xs : List Local) (us : List Usage) (h : us.length = xs.length) :
    List.zipWith (fun _ u => u) xs us = us := by
  induction xs generalizing us with
  | nil => cases us with
    | nil => rfl
    | cons => simp at h
  | cons x xs ih => cases us with
    | nil => simp at h
    | cons u us => simp only [List.zipWith_cons_cons]; rw [ih us (by simpa using h)]

theorem zipWith_twice (xs : List Local) (us : List Usage) (f g : Local → Usage → Usage) :
    List.zipWith f xs (List.zipWith g xs us) = List.zipWith (fun x u => f x (g x u)) xs us := by
  induction xs generalizing us with
  | nil => rfl
  | cons x xs ih => cases us with
    | nil => rfl
    | cons u us => simp [ih us]

/-- Steps one after another. -/
theorem Adds.fold {α : Type} {xs : List Local} {F : α → List Usage → List Usage}
    {A B : α → Local → List Loc} (h : ∀ a, Adds xs (F a) (A a) (B a)) (l : List α) :
    Adds xs (fun us => l.foldl (fun us a => F a us) us) (fun x => l.flatMap (A · x))
      (fun x => l.flatMap (B · x)) := by
  induction l with
  | nil =>
    intro us hu
    simp only [List.foldl_nil, List.flatMap_nil, List.append_nil]
    exact (zipWith_snd xs us hu).symm
  | cons a l ih =>
    intro us hu
    simp only [List.foldl_cons, List.flatMap_cons]
    have h1 := ih (F a us) (by rw [h a us hu]; simp [hu])
    simp only at h1
    rw [h1, h a us hu, zipWith_twice]
    simp only [List.append_assoc]

/-- Whether a place adds a position. -/
def hit (at_ : Loc) (counts : Ctx → Bool) (l : Loc) (a : Place × Ctx) (x : Local) : Bool :=
  !(l.block = at_.block && l.idx ≤ at_.idx) && (decide (a.1.base = x) && counts a.2)

theorem visitPlace_adds (xs : List Local) (at_ l : Loc) (a : Place × Ctx) :
    Adds xs (fun us => visitPlace xs at_ l us a)
      (fun x => if hit at_ (fun c => !ignored c) l a x then [l] else [])
      (fun x => if hit at_ consuming l a x then [l] else []) := by
  intro us hu
  simp only [visitPlace, hit]
  by_cases hs : (l.block = at_.block && l.idx ≤ at_.idx) = true
  · rw [if_pos hs]
    simp only [hs, Bool.not_true, Bool.false_and, Bool.false_eq_true, if_false, List.append_nil]
    exact (zipWith_snd xs us hu).symm
  · rw [if_neg hs]
    have hs' : (l.block = at_.block && l.idx ≤ at_.idx) = false := by simpa using hs
    simp only [hs', Bool.not_false, Bool.true_and]
    congr 1
    funext x u
    simp only [note]
    by_cases hx : a.1.base = x
    · rw [if_pos hx]
      cases ignored a.2 <;> cases consuming a.2 <;> simp [hx]
    · rw [if_neg hx]
      simp [hx]

/-- The positions that a kind of use adds, in the order of the visit. -/
def hits (m : Body) (at_ : Loc) (counts : Ctx → Bool) (order : List Nat) (x : Local) : List Loc :=
  order.flatMap fun b => (List.range ((m.block b).stmts.length + 1)).flatMap fun i =>
    (m.places ⟨b, i⟩).flatMap fun a => if hit at_ counts ⟨b, i⟩ a x then [⟨b, i⟩] else []

theorem visit_adds (m : Body) (xs : List Local) (at_ : Loc) (order : List Nat) :
    Adds xs (fun us => order.foldl (fun us b => visitBlock m xs at_ b us) us)
      (hits m at_ (fun c => !ignored c) order) (hits m at_ consuming order) := by
  refine Adds.fold (F := fun b us => visitBlock m xs at_ b us) (fun b => ?_) order
  refine Adds.fold (F := fun i us => (m.places ⟨b, i⟩).foldl (visitPlace xs at_ ⟨b, i⟩) us) (fun i => ?_) _
  exact Adds.fold (F := fun a us => visitPlace xs at_ ⟨b, i⟩ us a) (fun a => visitPlace_adds xs at_ _ a) _

/-- The result, unless it is given up. -/
theorem visitUsage_eq (xs : List Local) (m : Body) (at_ : Loc) (order : List Nat) :
    visitUsage xs m at_ order =
      if order.any (fun b => (m.succs b).any (· == at_.block)) then none
      else some (xs.map fun x => ⟨hits m at_ (fun c => !ignored c) order x, hits m at_ consuming order x⟩) := by
  have key : ∀ us : List Usage, order.foldlM
      (fun us b => if (m.succs b).any (· == at_.block) then none else some (visitBlock m xs at_ b us)) us =
      if order.any (fun b => (m.succs b).any (· == at_.block)) then none
      else some (order.foldl (fun us b => visitBlock m xs at_ b us) us) := by
    induction order with
    | nil => intro us; rfl
    | cons b order ih =>
      intro us
      simp only [List.foldlM_cons, List.any_cons, List.foldl_cons]
      by_cases hb : (m.succs b).any (· == at_.block) = true
      · rw [if_pos hb]
        simp only [hb, Bool.true_or, if_true]
        rfl
      · have hb' : (m.succs b).any (· == at_.block) = false := Bool.eq_false_iff.2 hb
        rw [if_neg hb]
        simp only [hb', Bool.false_or]
        exact ih _
  rw [visitUsage, key]
  by_cases ha : order.any (fun b => (m.succs b).any (· == at_.block)) = true
  · rw [if_pos ha, if_pos ha]
  · rw [if_neg ha, if_neg ha]
    have h1 := visit_adds m xs at_ order (xs.map fun _ => ⟨[], []⟩) (by simp)
    simp only at h1
    rw [h1]
    clear h1
    congr 1
    clear ha key
    induction xs with
    | nil => rfl
    | cons x xs ih => simp only [List.map_cons, List.zipWith_cons_cons, List.nil_append]; rw [ih]

/-- Counting in parts that are told apart. -/
theorem count_parts {f : Nat → List Loc} {l : List Nat} (hl : l.Nodup) (b0 : Nat) (x : Loc)
    (hf : ∀ b, b ≠ b0 → (f b).count x = 0) :
    (l.flatMap f).count x = if b0 ∈ l then (f b0).count x else 0 := by
  induction l with
  | nil => simp
  | cons b l ih =>
    obtain ⟨h1, h2⟩ := List.nodup_cons.1 hl
    rw [List.flatMap_cons, List.count_append, ih h2]
    by_cases hb : b = b0
    · subst hb
      simp [h1]
    · have hb' : b0 ≠ b := fun h => hb h.symm
      rw [hf b hb]
      simp [hb']

theorem count_places (l : Loc) (c : Place × Ctx → Bool) (as : List (Place × Ctx)) :
    (as.flatMap fun a => if c a then [l] else []).count l = as.countP c := by
  induction as with
  | nil => rfl
  | cons a as ih =>
    rw [List.flatMap_cons, List.count_append, ih, List.countP_cons]
    cases c a <;> simp [Nat.add_comm]

theorem count_places_ne {l k : Loc} (h : l ≠ k) (c : Place × Ctx → Bool) (as : List (Place × Ctx)) :
    (as.flatMap fun a => if c a then [l] else []).count k = 0 := by
  rw [List.count_eq_zero]
  intro hm
  obtain ⟨a, -, ha⟩ := List.mem_flatMap.1 hm
  split at ha
  · simp only [List.mem_singleton] at ha
    exact h ha.symm
  · cases ha

/-- How often a position is in the result. -/
theorem count_hits (m : Body) (at_ : Loc) (counts : Ctx → Bool) {order : List Nat} (ho : order.Nodup)
    (x : Local) (l : Loc) : (hits m at_ counts order x).count l =
      if l.block ∈ order ∧ l.idx ≤ (m.block l.block).stmts.length ∧
          ¬ (l.block = at_.block ∧ l.idx ≤ at_.idx) then Spec.mentions m counts x l else 0 := by
  rw [hits, count_parts ho l.block]
  · by_cases hb : l.block ∈ order
    · rw [if_pos hb, count_parts List.nodup_range l.idx]
      · by_cases hi : l.idx ≤ (m.block l.block).stmts.length
        · rw [if_pos (List.mem_range.2 (by omega))]
          simp only [hb, hi, true_and]
          show ((m.places l).flatMap fun a => if hit at_ counts l a x then [l] else []).count l = _
          rw [count_places]
          by_cases hs : l.block = at_.block ∧ l.idx ≤ at_.idx
          · rw [if_neg (fun h => h hs), List.countP_eq_zero]
            simp [hit, hs]
          · rw [if_pos hs, Spec.mentions]
            congr 1
            funext a
            have : (decide (l.block = at_.block) && decide (l.idx ≤ at_.idx)) = false := by
              cases h : (decide (l.block = at_.block) && decide (l.idx ≤ at_.idx)) with
              | false => rfl
              | true => exact absurd (by simpa using h) hs
            simp only [hit, this, Bool.not_false, Bool.true_and]
        · rw [if_neg (fun h => hi (Nat.le_of_lt_succ (List.mem_range.1 h))), if_neg (fun h => hi h.2.1)]
      · intro i hi
        exact count_places_ne (fun h => hi (by rw [← h])) _ _
    · rw [if_neg hb, if_neg (fun h => hb h.1)]
  · intro b hb
    rw [List.count_eq_zero]
    intro hm
    obtain ⟨i, -, hi⟩ := List.mem_flatMap.1 hm
    obtain ⟨a, -, ha⟩ := List.mem_flatMap.1 hi
    split at ha
    · simp only [List.mem_singleton] at ha
      exact hb (by rw [ha])
    · cases ha

end Verif.Mir
