import Verif.Common.Text
import Verif.Common.Sort

/-!
# The order of strings

`str` is ordered by its bytes; for UTF-8 that is the order by code points.
-/

namespace Verif

/-- `a <= b` for strings. -/
def strLe : Str → Str → Bool
  | [], _ => true
  | _ :: _, [] => false
  | a :: as, b :: bs => if a.toNat < b.toNat then true else if b.toNat < a.toNat then false else strLe as bs

theorem strLe_total : ∀ a b : Str, strLe a b = true ∨ strLe b a = true
  | [], _ => .inl rfl
  | _ :: _, [] => .inr rfl
  | a :: as, b :: bs => by
    unfold strLe
    rcases Nat.lt_trichotomy a.toNat b.toNat with h | h | h
    · simp [h]
    · simp [h, strLe_total as bs]
    · simp [h]

theorem strLe_trans : ∀ a b c : Str, strLe a b = true → strLe b c = true → strLe a c = true
  | [], _, _, _, _ => rfl
  | _ :: _, [], _, h, _ => by simp [strLe] at h
  | _ :: _, _ :: _, [], _, h => by simp [strLe] at h
  | a :: as, b :: bs, c :: cs, h1, h2 => by
    unfold strLe at h1 h2 ⊢
    split at h1
    · split at h2
      · rw [if_pos (by omega)]
      · split at h2
        · simp at h2
        · rw [if_pos (by omega)]
    · split at h1
      · simp at h1
      · split at h2
        · rw [if_pos (by omega)]
        · split at h2
          · simp at h2
          · rw [if_neg (by omega), if_neg (by omega)]
            exact strLe_trans as bs cs h1 h2

theorem strLe_refl (a : Str) : strLe a a = true := (strLe_total a a).elim id id

theorem strLe_antisymm : ∀ a b : Str, strLe a b = true → strLe b a = true → a = b
  | [], [], _, _ => rfl
  | [], _ :: _, _, h => by simp [strLe] at h
  | _ :: _, [], h, _ => by simp [strLe] at h
  | a :: as, b :: bs, h1, h2 => by
    unfold strLe at h1 h2
    split at h1
    · next h => rw [if_neg (by omega), if_pos (by omega)] at h2; simp at h2
    · split at h1
      · simp at h1
      · rw [if_neg (by omega), if_neg (by omega)] at h2
        have : a.toNat = b.toNat := by omega
        rw [Char.toNat_inj.1 this, strLe_antisymm as bs h1 h2]

variable {α : Type}

/-- Sorting by a string. -/
theorem sortBy_key_sorted (key : α → Str) (l : List α) :
    (sortBy (fun a b => strLe (key a) (key b)) l).Pairwise fun a b => strLe (key a) (key b) = true :=
  sortBy_sorted (fun a b => strLe_total (key a) (key b)) (fun a b c => strLe_trans (key a) (key b) (key c)) l

/-- A list has at most one sorted rearrangement, if different elements of it never tie. -/
theorem sorted_perm_unique {R : α → α → Prop} : ∀ {l₁ l₂ : List α}, l₁.Perm l₂ → l₁.Pairwise R → l₂.Pairwise R →
    (∀ a ∈ l₁, ∀ b ∈ l₁, R a b → R b a → a = b) → l₁ = l₂
  | [], l₂, hp, _, _, _ => (List.Perm.nil_eq hp)
  | x :: xs, [], hp, _, _, _ => by simpa using hp.length_eq
  | x :: xs, y :: ys, hp, h1, h2, ha => by
    rw [List.pairwise_cons] at h1 h2
    have hxy : x = y := by
      rcases List.mem_cons.1 (hp.mem_iff.1 (List.mem_cons_self ..)) with h | hx
      · exact h
      rcases List.mem_cons.1 (hp.mem_iff.2 (List.mem_cons_self ..)) with h | hy
      · exact h.symm
      exact ha x (List.mem_cons_self ..) y (List.mem_cons_of_mem _ hy) (h1.1 y hy) (h2.1 x hx)
    subst hxy
    rw [sorted_perm_unique (hp.cons_inv) h1.2 h2.2 fun a ha' b hb =>
      ha a (List.mem_cons_of_mem _ ha') b (List.mem_cons_of_mem _ hb)]

end Verif
