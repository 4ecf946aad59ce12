import Verif.Memcpy.Spec

/-!
# Copies between lists
-/

namespace Verif.Memcpy

/-- `xs` with `n` elements from `d` on replaced by those of `ys` from `s` on. -/
def splice {α : Type} (xs : List α) (d : Nat) (ys : List α) (s n : Nat) : List α := xs.take d ++ (ys.drop s).take n ++ xs.drop (d + n)

theorem splice_zero {α : Type} (xs : List α) (d : Nat) (ys : List α) (s : Nat) : splice xs d ys s 0 = xs := by
  simp [splice]

theorem splice_length {α : Type} {xs : List α} {d : Nat} {ys : List α} {s n : Nat} (h1 : d + n ≤ xs.length) (h2 : s + n ≤ ys.length) :
    (splice xs d ys s n).length = xs.length := by
  simp only [splice, List.length_append, List.length_take, List.length_drop]
  omega

theorem splice_set {α : Type} {xs : List α} {d : Nat} {ys : List α} {s n : Nat} {v : α} (h1 : d + n < xs.length) (h2 : ys[s + n]? = some v) :
    (splice xs d ys s n).set (d + n) v = splice xs d ys s (n + 1) := by
  obtain ⟨h3, h4⟩ := List.getElem?_eq_some_iff.mp h2
  have e1 : (ys.drop s).take (n + 1) = (ys.drop s).take n ++ [v] := by
    rw [List.take_add_one, List.getElem?_drop, h2]; rfl
  have e2 : xs.drop (d + n) = xs[d + n] :: xs.drop (d + (n + 1)) := List.drop_eq_getElem_cons h1
  have e3 : (xs.take d ++ (ys.drop s).take n).length = d + n := by
    simp only [List.length_append, List.length_take, List.length_drop]; omega
  simp only [splice]
  rw [List.set_append_right _ _ (by omega), e3, Nat.sub_self, e2, List.set_cons_zero, e1]
  simp

/-- A copy: from where to where, and the first index on both sides. -/
structure P where
  dst : Loc
  src : Loc
  d : Nat
  s : Nat

/-- The memory after some elements of each copy have been copied. -/
def eff {α : Type} (mem : Loc → List α) : List (P × Nat) → Loc → List α
  | [] => mem
  | (p, n) :: r => fun l => if l = p.dst then splice (mem l) p.d (mem p.src) p.s n else eff mem r l

theorem eff_other {α : Type} (mem : Loc → List α) (l : Loc) : ∀ ps : List (P × Nat), (∀ p ∈ ps, p.1.dst ≠ l) → eff mem ps l = mem l
  | [], _ => rfl
  | (p, n) :: r, h => by
    simp only [eff]
    rw [if_neg (fun e => h (p, n) (by simp) e.symm)]
    exact eff_other mem l r (fun q hq => h q (by simp [hq]))

theorem eff_at {α : Type} (mem : Loc → List α) (p : P) (n : Nat) (r : List (P × Nat)) : ∀ l1 : List (P × Nat), (∀ q ∈ l1, q.1.dst ≠ p.dst) →
    eff mem (l1 ++ (p, n) :: r) p.dst = splice (mem p.dst) p.d (mem p.src) p.s n
  | [], _ => by simp [eff]
  | (q, m) :: l1, h => by
    simp only [List.cons_append, eff]
    rw [if_neg (fun e => h (q, m) (by simp) e.symm)]
    exact eff_at mem p n r l1 (fun q' hq => h q' (by simp [hq]))

theorem eff_set {α : Type} (mem : Loc → List α) (p : P) (n : Nat) (r : List (P × Nat)) (m : Nat) : ∀ l1 : List (P × Nat),
    (∀ q ∈ l1, q.1.dst ≠ p.dst) →
    setMem (eff mem (l1 ++ (p, n) :: r)) p.dst (splice (mem p.dst) p.d (mem p.src) p.s m) = eff mem (l1 ++ (p, m) :: r)
  | [], _ => by
    funext l
    simp only [setMem, eff, List.nil_append]
    split <;> simp_all
  | (q, k) :: l1, h => by
    have ih := eff_set mem p n r m l1 (fun q' hq => h q' (by simp [hq]))
    funext l
    have ih' := congrFun ih l
    have hne := h (q, k) (by simp)
    simp only [setMem, eff, List.cons_append] at ih' ⊢
    by_cases hl : l = p.dst
    · subst hl
      rw [if_pos rfl] at ih' ⊢
      rw [if_neg (fun e => hne e.symm)]
      exact ih'
    · rw [if_neg hl] at ih' ⊢
      rw [ih']

/-- Copying nothing does nothing. -/
theorem eff_zero {α : Type} (mem : Loc → List α) : ∀ ps : List P, eff mem (ps.map (fun p => (p, 0))) = mem
  | [] => rfl
  | p :: r => by
    funext l
    simp only [List.map_cons, eff, splice_zero, eff_zero mem r, ite_self]

/-- No copy reads what a copy writes, and all write to different places. -/
def Indep (ps : List P) : Prop :=
  (∀ p ∈ ps, p.dst ≠ p.src) ∧ ps.Pairwise (fun p q => p.dst ≠ q.dst ∧ p.dst ≠ q.src ∧ p.src ≠ q.dst)

theorem Indep.split {l1 l2 : List P} {p : P} (h : Indep (l1 ++ p :: l2)) :
    (∀ q ∈ l1 ++ p :: l2, q.dst ≠ p.src) ∧ (∀ q ∈ l1, q.dst ≠ p.dst) ∧ ∀ q ∈ l2, q.dst ≠ p.dst := by
  obtain ⟨h0, h1⟩ := h
  obtain ⟨_, h2, h3⟩ := List.pairwise_append.mp h1
  obtain ⟨h4, _⟩ := List.pairwise_cons.mp h2
  refine ⟨?_, fun q hq => (h3 q hq p (by simp)).1, fun q hq e => (h4 q hq).1 e.symm⟩
  intro q hq
  rcases List.mem_append.mp hq with hq | hq
  · exact (h3 q hq p (by simp)).2.1
  · rcases List.mem_cons.mp hq with rfl | hq
    · exact h0 q (by simp)
    · exact fun e => (h4 q hq).2.2 e.symm

theorem map_fst_mem {ps : List P} {n : Nat} {q : P × Nat} (h : q ∈ ps.map (fun p => (p, n))) : q.1 ∈ ps := by
  obtain ⟨p, hp, rfl⟩ := List.mem_map.mp h
  exact hp

end Verif.Memcpy
