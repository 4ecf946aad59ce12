import Verif.Clones.Model
import Verif.Clones.Spec
import Verif.Mir.Props

/-! Values with and without the clone. -/

namespace Verif.Clones

open Model
open Verif.Mir (Local Place Elem Loc Body Ctx)
open Verif.Mir.Spec (Walk After Step Leads IsUse)

theorem touched_of_changed {cell : Bool} {m : Body} {l : Loc} {y : Local}
    (h : Spec.changed cell m l y = true) : Spec.Touches m l y := by
  simp only [Spec.changed, List.any_eq_true, Bool.and_eq_true, decide_eq_true_eq] at h
  obtain ⟨a, ha, h1, h2⟩ := h
  refine ⟨a, ha, .inl ⟨h1, ?_⟩⟩
  constructor
  · intro hc
    rw [hc] at h2
    cases h2
  · intro hc
    rw [hc] at h2
    cases h2

theorem after_step {m : Body} {p at_ k : Loc} (h : p = at_ ∨ After m at_ p) (hs : Step m p k) :
    After m at_ k := by
  rcases h with rfl | h
  · exact .one hs
  · exact Mir.after_trans h (.one hs)

theorem walk_head {m : Body} {p k : Loc} {w : List Loc} (h : Walk m (p :: k :: w)) :
    Step m p k ∧ Walk m (k :: w) := h

variable {V : Type} {cell : Bool} {m : Body} {f : Spec.Meaning V} {x r : Local} {at_ : Loc}

/-- The same new values. -/
theorem same_new (hf : Spec.Fits cell m f) {l : Loc} {σ σ' : Local → V}
    (h : ∀ z, Spec.Touches m l z → σ z = σ' z) {y : Local} (hy : σ y = σ' y) : f l σ y = f l σ' y := by
  cases hc : Spec.changed cell m l y with
  | true => exact hf.local_ l σ σ' y h hc
  | false => rw [hf.frame l σ y hc, hf.frame l σ' y hc, hy]

/-- The local is not used any more. -/
theorem gone (hf : Spec.Fits cell m f) (hxr : x ≠ r) (hx : ∀ l, After m at_ l → ¬ Spec.Touches m l x) (l : Loc) :
    ∀ (w : List Loc) (p : Loc) (σ τ : Local → V), (p = at_ ∨ After m at_ p) →
      Walk m (p :: (w ++ [l])) → (∀ y, y ≠ x → σ y = Spec.view x r τ y) → ∀ y, Spec.Touches m l y →
      Spec.after f w σ y = Spec.view x r (Spec.afterShared cell m f x r w τ) y := by
  intro w
  induction w with
  | nil =>
    intro p σ τ hp hw hi y hy
    have := hx l (after_step hp (walk_head hw).1)
    refine hi y ?_
    rintro rfl
    exact this hy
  | cons k w ih =>
    intro p σ τ hp hw hi y hy
    obtain ⟨hs, hw'⟩ := walk_head hw
    have hk := after_step hp hs
    refine ih k (f k σ) (Spec.shared cell m f x r k τ) (.inr hk) hw' ?_ y hy
    have hnx := hx k hk
    have ht : ∀ z, Spec.Touches m k z → σ z = Spec.view x r τ z := by
      intro z hz
      refine hi z ?_
      rintro rfl
      exact hnx hz
    intro z hz
    have hnew : f k σ z = f k (Spec.view x r τ) z := same_new hf ht (hi z hz)
    by_cases hzr : z = r
    · subst hzr
      simp only [Spec.view, if_true, Spec.shared, true_and]
      by_cases hc : Spec.changed cell m k z = true
      · rw [if_pos hc]
        exact hnew
      · rw [if_neg hc]
        have hc' : Spec.changed cell m k z = false := by simpa using hc
        have hcx : Spec.changed cell m k x = false := by
          cases h : Spec.changed cell m k x with
          | false => rfl
          | true => exact absurd (touched_of_changed h) hnx
        rw [hf.frame k σ z hc', hf.frame k _ x hcx, hi z hz]
        simp [Spec.view, hxr]
    · have : Spec.view x r (Spec.shared cell m f x r k τ) z = f k (Spec.view x r τ) z := by
        simp only [Spec.view, if_neg hzr, Spec.shared]
        rw [if_neg (fun h => hz h.1)]
      rw [this]
      exact hnew

/-- The local is changed only when the clone is not used any more. -/
theorem later (hf : Spec.Fits cell m f) (hxr : x ≠ r) (Q : Loc → Prop)
    (hq : ∀ p k, Q p → Step m p k → Q k)
    (hx : ∀ l, After m at_ l → Spec.changed cell m l x = true → Q l)
    (hr : ∀ l, Q l → ¬ Spec.Touches m l r)
    (hc : ∀ l, After m at_ l → Spec.changed cell m l r = false) (l : Loc) :
    ∀ (w : List Loc) (p : Loc) (σ τ : Local → V), (p = at_ ∨ After m at_ p) →
      Walk m (p :: (w ++ [l])) → (∀ y, y ≠ r → σ y = τ y) → (σ r = τ x ∨ Q p) →
      ∀ y, Spec.Touches m l y →
      Spec.after f w σ y = Spec.view x r (Spec.afterShared cell m f x r w τ) y := by
  have agree : ∀ {p k : Loc} {σ τ : Local → V}, Step m p k → (∀ y, y ≠ r → σ y = τ y) →
      (σ r = τ x ∨ Q p) → ∀ z, Spec.Touches m k z → σ z = Spec.view x r τ z := by
    intro p k σ τ hs hi hph z hz
    simp only [Spec.view]
    by_cases hzr : z = r
    · subst hzr
      rw [if_pos rfl]
      rcases hph with h | h
      · exact h
      · exact absurd hz (hr k (hq p k h hs))
    · rw [if_neg hzr]
      exact hi z hzr
  intro w
  induction w with
  | nil =>
    intro p σ τ hp hw hi hph y hy
    exact agree (walk_head hw).1 hi hph y hy
  | cons k w ih =>
    intro p σ τ hp hw hi hph y hy
    obtain ⟨hs, hw'⟩ := walk_head hw
    have hk := after_step hp hs
    have ht := agree hs hi hph
    have hck := hc k hk
    have hsh : ∀ z, Spec.shared cell m f x r k τ z = f k (Spec.view x r τ) z := by
      intro z
      simp [Spec.shared, hck]
    refine ih k (f k σ) (Spec.shared cell m f x r k τ) (.inr hk) hw' ?_ ?_ y hy
    · intro z hz
      rw [hsh]
      refine same_new hf ht ?_
      simp only [Spec.view, if_neg hz]
      exact hi z hz
    · rcases hph with h | h
      · cases hcx : Spec.changed cell m k x with
        | true => exact .inr (hx k hk hcx)
        | false =>
          left
          rw [hf.frame k σ r hck, hsh, hf.frame k _ x hcx, h]
          simp [Spec.view, hxr]
      · exact .inr (hq p k h hs)

/-- The order in which uses are listed. -/
theorem hits_order {order : List Nat} (hn : order.Nodup) (ho : Spec.Forward m order) (counts : Ctx → Bool) (x : Local) :
    (Mir.hits m at_ counts order x).Pairwise fun l k =>
      (k.block = l.block ∧ l.idx ≤ k.idx) ∨
        (l.block ≠ k.block ∧ (Leads m k.block l.block → Leads m l.block k.block)) := by
  have inner : ∀ b i, ∀ l ∈ (m.places ⟨b, i⟩).flatMap
      (fun a => if Mir.hit at_ counts ⟨b, i⟩ a x then [(⟨b, i⟩ : Loc)] else []), l = ⟨b, i⟩ := by
    intro b i l hl
    obtain ⟨a, -, hl⟩ := List.mem_flatMap.1 hl
    split at hl
    · simpa using hl
    · cases hl
  rw [Mir.hits, List.pairwise_flatMap]
  refine ⟨?_, ?_⟩
  · intro b _
    rw [List.pairwise_flatMap]
    refine ⟨?_, ?_⟩
    · intro i _
      refine List.pairwise_of_forall_mem_list ?_
      intro l hl k hk
      rw [inner b i l hl, inner b i k hk]
      exact .inl ⟨rfl, Nat.le_refl _⟩
    · refine List.Pairwise.imp ?_ List.pairwise_lt_range
      intro i j hij l hl k hk
      rw [inner b i l hl, inner b j k hk]
      exact .inl ⟨rfl, Nat.le_of_lt hij⟩
  · refine List.Pairwise.imp ?_ (List.Pairwise.and hn ho)
    intro b c hbc l hl k hk
    obtain ⟨i, -, hl⟩ := List.mem_flatMap.1 hl
    obtain ⟨j, -, hk⟩ := List.mem_flatMap.1 hk
    rw [inner b i l hl, inner c j k hk]
    exact .inr hbc

/-- The first listed position comes before all others that can be compared with it. -/
theorem first_listed {order : List Nat} (hn : order.Nodup) (ho : Spec.Forward m order)
    (counts : Ctx → Bool) {x : Local} {l0 : Loc} {rest : List Loc}
    (h : Mir.hits m at_ counts order x = l0 :: rest) {k : Loc} (hk : After m at_ k) (hl0 : After m at_ l0)
    (hmem : k ∈ Mir.hits m at_ counts order x) (hch : l0 = k ∨ After m l0 k ∨ After m k l0) :
    k = l0 ∨ After m l0 k := by
  have hord := hits_order (at_ := at_) hn ho counts x
  rw [h] at hord hmem
  rw [List.pairwise_cons] at hord
  rcases List.mem_cons.1 hmem with rfl | hmem
  · exact .inl rfl
  have hkend := (Mir.after_cases hk).2
  have hlend := (Mir.after_cases hl0).2
  rcases hch with he | he | he
  · exact .inl he.symm
  · exact .inr he
  · rcases hord.1 k hmem with ⟨hb, hi⟩ | ⟨hne, hfwd⟩
    · rcases Nat.lt_or_eq_of_le hi with hi | hi
      · right
        have := Mir.after_lt (m := m) (b := l0.block) hi (hb ▸ hkend)
        rw [← hb] at this
        have he' : (⟨k.block, l0.idx⟩ : Loc) = l0 := by rw [hb]
        rw [he'] at this
        exact this
      · left
        cases k; cases l0
        simp only at hb hi
        rw [hb, hi]
    · rcases (Mir.after_cases he).1 with ⟨hb, -⟩ | hld
      · exact absurd hb hne
      · right
        have := Mir.after_leads (hfwd hld) hlend
        rcases Nat.eq_zero_or_pos k.idx with h0 | h0
        · rw [← h0] at this; exact this
        · exact Mir.after_trans this (Mir.after_lt h0 hkend)

end Verif.Clones
