import Verif.Mir.Model
import Verif.Mir.Spec

/-! Executions and blocks; the search for a cycle. -/

namespace Verif.Mir

open Model

theorem after_trans {m : Body} {l k j : Loc} (h1 : Spec.After m l k) (h2 : Spec.After m k j) :
    Spec.After m l j := by
  induction h1 with
  | one s => exact .more s h2
  | more s _ ih => exact .more s (ih h2)

theorem leads_trans {m : Body} {b c d : Nat} (h1 : Spec.Leads m b c) (h2 : Spec.Leads m c d) :
    Spec.Leads m b d := by
  induction h1 with
  | one s => exact .more s h2
  | more s _ ih => exact .more s (ih h2)

/-- Within a block. -/
theorem after_in (m : Body) (b i n : Nat) (h : i + n + 1 ≤ (m.block b).stmts.length) :
    Spec.After m ⟨b, i⟩ ⟨b, i + n + 1⟩ := by
  induction n with
  | zero => exact .one (.next (by omega))
  | succ n ih => exact after_trans (ih (by omega)) (.one (.next (by omega)))

theorem after_lt {m : Body} {b i j : Nat} (h : i < j) (hj : j ≤ (m.block b).stmts.length) :
    Spec.After m ⟨b, i⟩ ⟨b, j⟩ := by
  obtain ⟨n, rfl⟩ : ∃ n, j = i + n + 1 := ⟨j - i - 1, by omega⟩
  exact after_in m b i n hj

/-- From block to block. -/
theorem after_jump {m : Body} {b s i : Nat} (h : s ∈ m.succs b) (hi : i ≤ (m.block b).stmts.length) :
    Spec.After m ⟨b, i⟩ ⟨s, 0⟩ := by
  rcases Nat.lt_or_ge i (m.block b).stmts.length with hlt | hge
  · exact after_trans (after_lt hlt (Nat.le_refl _)) (.one (.jump h))
  · obtain rfl : i = (m.block b).stmts.length := by omega
    exact .one (.jump h)

theorem after_leads {m : Body} {b c : Nat} (h : Spec.Leads m b c) : ∀ {i}, i ≤ (m.block b).stmts.length →
    Spec.After m ⟨b, i⟩ ⟨c, 0⟩ := by
  induction h with
  | one s => intro i hi; exact after_jump s hi
  | more s _ ih => intro i hi; exact after_trans (after_jump s hi) (ih (Nat.zero_le _))

/-- What an execution does to blocks and numbers. -/
theorem after_cases {m : Body} {l k : Loc} (h : Spec.After m l k) :
    ((k.block = l.block ∧ l.idx < k.idx) ∨ Spec.Leads m l.block k.block) ∧
      k.idx ≤ (m.block k.block).stmts.length := by
  have step : ∀ {l k}, Spec.Step m l k → ((k.block = l.block ∧ l.idx < k.idx) ∨
      Spec.Leads m l.block k.block) ∧ k.idx ≤ (m.block k.block).stmts.length := by
    intro l k hs
    cases hs with
    | next h => exact ⟨.inl ⟨rfl, Nat.lt_succ_self _⟩, h⟩
    | jump h => exact ⟨.inr (.one h), Nat.zero_le _⟩
  induction h with
  | one s => exact step s
  | more s _ ih =>
    refine ⟨?_, ih.2⟩
    rcases (step s).1 with ⟨h1, h2⟩ | h1 <;> rcases ih.1 with ⟨h3, h4⟩ | h3
    · exact .inl ⟨h3.trans h1, by omega⟩
    · exact .inr (h1 ▸ h3)
    · exact .inr (h3 ▸ h1)
    · exact .inr (leads_trans h1 h3)

/-- The positions after a position whose block is not on a cycle. -/
theorem after_iff {m : Body} {l k : Loc} (hc : ¬ Spec.Leads m l.block l.block)
    (hl : l.idx ≤ (m.block l.block).stmts.length) :
    Spec.After m l k ↔ (k.block = l.block ∨ Spec.Leads m l.block k.block) ∧
      k.idx ≤ (m.block k.block).stmts.length ∧ ¬ (k.block = l.block ∧ k.idx ≤ l.idx) := by
  obtain ⟨b, i⟩ := l
  obtain ⟨c, j⟩ := k
  simp only at hc hl ⊢
  constructor
  · intro h
    obtain ⟨h1, h2⟩ := after_cases h
    simp only at h1 h2
    refine ⟨?_, h2, ?_⟩
    · rcases h1 with ⟨h, -⟩ | h
      · exact .inl h
      · exact .inr h
    · rintro ⟨rfl, hj⟩
      rcases h1 with ⟨-, h⟩ | h
      · omega
      · exact hc h
  · rintro ⟨h1, h2, h3⟩
    rcases h1 with rfl | h1
    · exact after_lt (by omega) h2
    · have ha := after_leads h1 hl
      rcases Nat.eq_zero_or_pos j with rfl | hj
      · exact ha
      · exact after_trans ha (after_lt hj h2)

/-- The loop over the successors. -/
theorem scan_spec (block : Nat) (ss : List Nat) : ∀ seen stack, block ∈ seen →
    match scan block seen stack ss with
    | none => block ∈ ss
    | some (seen', stack') => block ∉ ss ∧ ∃ q, seen' = q ++ seen ∧ stack' = q ++ stack ∧ q.Nodup ∧
        (∀ x ∈ q, x ∉ seen ∧ x ∈ ss) ∧ ∀ s ∈ ss, s ∈ seen' := by
  induction ss with
  | nil =>
    intro seen stack _
    simp only [scan]
    exact ⟨by simp, [], rfl, rfl, List.nodup_nil, by simp, by simp⟩
  | cons s ss ih =>
    intro seen stack hb
    simp only [scan]
    by_cases hs : seen.contains s = true
    · have hm : s ∈ seen := by simpa using hs
      rw [if_pos hs]
      by_cases he : s = block
      · rw [if_pos he]
        simp [he]
      · rw [if_neg he]
        have := ih seen stack hb
        split at this
        · rename_i h0
          exact List.mem_cons_of_mem _ this
        · rename_i seen' stack' h0
          obtain ⟨h1, q, h2, h3, h4, h5, h6⟩ := this
          refine ⟨?_, q, h2, h3, h4, fun x hx => ⟨(h5 x hx).1, List.mem_cons_of_mem _ (h5 x hx).2⟩, ?_⟩
          · simp only [List.mem_cons, not_or]
            exact ⟨fun h => he h.symm, h1⟩
          · intro y hy
            rcases List.mem_cons.1 hy with rfl | hy
            · rw [h2]; exact List.mem_append_right _ hm
            · exact h6 y hy
    · have hm : s ∉ seen := by simpa using hs
      rw [if_neg hs]
      have := ih (s :: seen) (s :: stack) (List.mem_cons_of_mem _ hb)
      split at this
      · rename_i h0
        exact List.mem_cons_of_mem _ this
      · rename_i seen' stack' h0
        obtain ⟨h1, q, h2, h3, h4, h5, h6⟩ := this
        refine ⟨?_, q ++ [s], by simp [h2], by simp [h3], ?_, ?_, ?_⟩
        · simp only [List.mem_cons, not_or]
          exact ⟨fun h => hm (h ▸ hb), h1⟩
        · rw [List.nodup_append]
          refine ⟨h4, by simp, ?_⟩
          intro a ha b hb' hab
          simp only [List.mem_singleton] at hb'
          subst hb'
          exact (h5 a ha).1 (by simp [hab])
        · intro x hx
          rcases List.mem_append.1 hx with hx | hx
          · obtain ⟨k1, k2⟩ := h5 x hx
            exact ⟨fun h => k1 (List.mem_cons_of_mem _ h), List.mem_cons_of_mem _ k2⟩
          · simp only [List.mem_singleton] at hx
            subst hx
            exact ⟨hm, by simp⟩
        · intro y hy
          rcases List.mem_cons.1 hy with rfl | hy
          · rw [h2]; simp
          · exact h6 y hy

/-- The state of the search. -/
structure Inv (m : Body) (block fuel next : Nat) (seen stack : List Nat) : Prop where
  nodup : seen.Nodup
  block_mem : block ∈ seen
  next_mem : next ∈ seen
  stack_sub : ∀ s ∈ stack, s ∈ seen
  found : ∀ s ∈ seen, s = block ∨ (Spec.Leads m block s)
  done : ∀ s ∈ seen, s = next ∨ s ∈ stack ∨ (block ∉ m.succs s ∧ ∀ t ∈ m.succs s, t ∈ seen)
  fuel_le : 2 + stack.length + m.length ≤ fuel + seen.length

/-- Blocks without duplicates, all of which but one are there. -/
theorem nodup_bound {n : Nat} {l : List Nat} {b : Nat} (h : l.Nodup) (hb : ∀ x ∈ l, x = b ∨ x < n) :
    l.length ≤ n + 1 := by
  have hs : ∀ x ∈ l, x ∈ b :: List.range n := by
    intro x hx
    rcases hb x hx with rfl | h
    · simp
    · exact List.mem_cons_of_mem _ (List.mem_range.2 h)
  have := List.Nodup.length_le_of_subset h hs
  simpa using this

/-- The search finds out whether there is a cycle. -/
theorem cycleLoop_iff {m : Body} (hm : Spec.Closed m) (block : Nat) : ∀ fuel next seen stack,
    Inv m block fuel next seen stack →
    (cycleLoop m block fuel next seen stack = true ↔ Spec.Leads m block block) := by
  have inrange : ∀ {b c}, Spec.Leads m b c → c < m.length := by
    intro b c h
    induction h with
    | one s => exact hm _ _ s
    | more _ _ ih => exact ih
  intro fuel
  induction fuel with
  | zero =>
    intro next seen stack h
    have h1 := h.fuel_le
    have h2 := nodup_bound (n := m.length) (b := block) h.nodup fun x hx =>
      (h.found x hx).imp id inrange
    omega
  | succ fuel ih =>
    intro next seen stack h
    have hs := scan_spec block (m.succs next) seen stack h.block_mem
    simp only [cycleLoop]
    have hnext : ∀ s ∈ m.succs next, Spec.Leads m block s := by
      intro s hsm
      rcases h.found next h.next_mem with he | hl
      · exact .one (he ▸ hsm)
      · exact leads_trans hl (.one hsm)
    split at hs
    · rename_i h0
      rw [h0]
      simp only [true_iff]
      exact hnext _ hs
    · rename_i seen' stack' h0
      rw [h0]
      obtain ⟨h1, q, rfl, h3, h4, h5, h6⟩ := hs
      have hdone : ∀ s ∈ q ++ seen, s ∈ stack' ∨
          (block ∉ m.succs s ∧ ∀ t ∈ m.succs s, t ∈ q ++ seen) := by
        intro s hs
        rcases List.mem_append.1 hs with hs | hs
        · exact .inl (by rw [h3]; exact List.mem_append_left _ hs)
        · rcases h.done s hs with rfl | hd | ⟨hd1, hd2⟩
          · exact .inr ⟨h1, h6⟩
          · exact .inl (by rw [h3]; exact List.mem_append_right _ hd)
          · exact .inr ⟨hd1, fun t ht => List.mem_append_right _ (hd2 t ht)⟩
      cases stack' with
      | nil =>
        simp only [Bool.false_eq_true, false_iff]
        intro hl
        have key : ∀ {b c}, Spec.Leads m b c → b ∈ q ++ seen → c ≠ block := by
          intro b c hbc
          induction hbc with
          | @one b c s =>
            intro hb he
            rcases hdone b hb with h | ⟨h, -⟩
            · cases h
            · exact h (he ▸ s)
          | @more b c d s _ ih =>
            intro hb
            rcases hdone b hb with h | ⟨-, h⟩
            · cases h
            · exact ih (h c s)
        exact key hl (List.mem_append_right _ h.block_mem) rfl
      | cons x rest =>
        refine ih x _ rest ⟨?_, List.mem_append_right _ h.block_mem, ?_, ?_, ?_, ?_, ?_⟩
        · rw [List.nodup_append]
          exact ⟨h4, h.nodup, fun a ha b hb hab => (h5 a ha).1 (hab ▸ hb)⟩
        · have : x ∈ q ++ stack := by rw [← h3]; simp
          rcases List.mem_append.1 this with h | h'
          · exact List.mem_append_left _ h
          · exact List.mem_append_right _ (h.stack_sub x h')
        · intro s hs
          have : s ∈ q ++ stack := by rw [← h3]; exact List.mem_cons_of_mem _ hs
          rcases List.mem_append.1 this with h | h'
          · exact List.mem_append_left _ h
          · exact List.mem_append_right _ (h.stack_sub s h')
        · intro s hs
          rcases List.mem_append.1 hs with hs | hs
          · exact .inr (hnext s (h5 s hs).2)
          · exact h.found s hs
        · intro s hs
          rcases hdone s hs with hd | hd
          · rcases List.mem_cons.1 hd with rfl | hd
            · exact .inl rfl
            · exact .inr (.inl hd)
          · exact .inr (.inr hd)
        · have h7 := congrArg List.length h3
          have h8 := h.fuel_le
          simp only [List.length_cons, List.length_append] at h7 ⊢
          omega

/-- Whether a block is part of a cycle. -/
theorem blockInCycle_iff {m : Body} (hm : Spec.Closed m) (b : Nat) :
    blockInCycle m b = true ↔ Spec.Leads m b b := by
  refine cycleLoop_iff hm b _ b [b] [] ⟨by simp, by simp, by simp, by simp, ?_, ?_, ?_⟩
  · intro s hs; exact .inl (by simpa using hs)
  · intro s hs; exact .inl (by simpa using hs)
  · simp only [List.length_nil, List.length_cons]; omega

end Verif.Mir
