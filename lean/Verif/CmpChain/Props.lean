import Verif.CmpChain.Model

/-!
# Properties: chains of comparisons
-/

namespace Verif.CmpChain

theorem conds_iff (e : Ex) (cs : List Cond) : Conds e cs ↔ (ifSequence e).1 = cs := by
  constructor
  · intro h
    induction h with
    | ite _ ih => rw [ifSequence, ih]
    | only => rfl
    | block => rfl
    | other => rfl
  · intro h
    subst h
    induction e with
    | ite c t e ih => exact .ite ih
    | only c t => exact .only
    | block b => exact .block
    | other k => exact .other

theorem blocks_eq (e : Ex) : (ifSequence e).2.length = e.blocks := by
  induction e with
  | ite c t e ih => rw [ifSequence, Ex.blocks, List.length_cons, ih]
  | only c t => rfl
  | block b => rfl
  | other k => rfl

theorem kindIsCmp_iff (op : Op) : kindIsCmp op = true ↔ op = .lt ∨ op = .gt ∨ op = .eq := by
  cases op <;> simp [kindIsCmp]

/-- What the test of two conditions says. -/
theorem pairOk_iff (ord : Nat → Bool) (c d : Cond) : pairOk ord c d = true ↔
    ∃ op l r, c = .bin op l r ∧ ord l = true ∧ Compares l r c ∧ Compares l r d ∧ ¬ Again c d := by
  cases c with
  | other k =>
    simp only [pairOk]
    exact ⟨(fun h => by cases h), fun ⟨_, _, _, h, _⟩ => by cases h⟩
  | bin k1 l1 r1 =>
    cases d with
    | other k =>
      simp only [pairOk]
      refine ⟨(fun h => by cases h), ?_⟩
      rintro ⟨_, l, r, _, _, _, ⟨_, _, h | h⟩, _⟩ <;> cases h
    | bin k2 l2 r2 =>
      simp only [pairOk]
      constructor
      · intro h
        by_cases h1 : (!kindIsCmp k1 || !kindIsCmp k2) = true
        · rw [if_pos h1] at h; cases h
        rw [if_neg h1] at h
        by_cases h2 : (!(l1 == l2 && r1 == r2) && !(l1 == r2 && r1 == l2)) = true
        · rw [if_pos h2] at h; cases h
        rw [if_neg h2] at h
        by_cases h3 : (k1 == k2 && (k1 == .eq || !(l1 == r2 && r1 == l2))) = true
        · rw [if_pos h3] at h; cases h
        rw [if_neg h3] at h
        have e1 : kindIsCmp k1 = true ∧ kindIsCmp k2 = true := by
          cases ha : kindIsCmp k1 <;> cases hb : kindIsCmp k2 <;> rw [ha, hb] at h1 <;> simp at h1 ⊢
        have e2 : (l1 = l2 ∧ r1 = r2) ∨ (l1 = r2 ∧ r1 = l2) := by
          simp only [Bool.and_eq_true, Bool.not_eq_true', not_and, Bool.not_eq_false, beq_iff_eq] at h2
          by_cases hf : l1 = l2 ∧ r1 = r2
          · exact Or.inl hf
          · refine Or.inr (h2 ?_)
            cases hb : (l1 == l2 && r1 == r2) with
            | false => rfl
            | true =>
              rw [Bool.and_eq_true, beq_iff_eq, beq_iff_eq] at hb
              exact absurd hb hf
        refine ⟨k1, l1, r1, rfl, h, ⟨k1, (kindIsCmp_iff k1).1 e1.1, Or.inl rfl⟩, ⟨k2, (kindIsCmp_iff k2).1 e1.2, ?_⟩, ?_⟩
        · rcases e2 with ⟨ha, hb⟩ | ⟨ha, hb⟩
          · exact Or.inl (by rw [ha, hb])
          · exact Or.inr (by rw [ha, hb])
        · rintro ⟨op, a, b, a', b', ec, ed, hk⟩
          cases ec
          cases ed
          apply h3
          rw [Bool.and_eq_true, Bool.or_eq_true]
          refine ⟨beq_self_eq_true k1, ?_⟩
          rcases hk with hk | hk
          · exact Or.inl (by rw [beq_iff_eq]; exact hk)
          · refine Or.inr ?_
            rw [Bool.not_eq_true', Bool.and_eq_false_iff]
            by_cases hl : l1 = r2
            · exact Or.inr (beq_false_of_ne (fun hr => hk ⟨hl, hr⟩))
            · exact Or.inl (beq_false_of_ne hl)
      · rintro ⟨op, l, r, ec, ho, ⟨o1, ho1, hc1⟩, ⟨o2, ho2, hc2⟩, hn⟩
        cases ec
        have e1 : kindIsCmp k1 = true := (kindIsCmp_iff k1).2 (by rcases hc1 with hc1 | hc1 <;> cases hc1 <;> exact ho1)
        have e2 : kindIsCmp k2 = true := (kindIsCmp_iff k2).2 (by rcases hc2 with hc2 | hc2 <;> cases hc2 <;> exact ho2)
        rw [if_neg (by rw [e1, e2]; simp)]
        have e3 : (l1 = l2 ∧ r1 = r2) ∨ (l1 = r2 ∧ r1 = l2) := by
          rcases hc2 with hc2 | hc2 <;> cases hc2
          · exact Or.inl ⟨rfl, rfl⟩
          · exact Or.inr ⟨rfl, rfl⟩
        rw [if_neg, if_neg]
        · exact ho
        · intro h
          rw [Bool.and_eq_true, Bool.or_eq_true, beq_iff_eq, beq_iff_eq] at h
          apply hn
          refine ⟨k1, l1, r1, l2, r2, rfl, by rw [h.1], ?_⟩
          rcases h.2 with h | h
          · exact Or.inl h
          · refine Or.inr ?_
            rintro ⟨ha, hb⟩
            rw [ha, hb] at h
            simp at h
        · intro h
          rcases e3 with ⟨ha, hb⟩ | ⟨ha, hb⟩ <;> rw [ha, hb] at h <;> simp at h

theorem compares_swap (l r : Nat) (c : Cond) (h : Compares l r c) : Compares r l c := by
  obtain ⟨op, h1, h2⟩ := h
  exact ⟨op, h1, h2.symm⟩

/-- The conditions of a chain: all compare the same operands, and none is the one before again. -/
theorem allOk_iff (ord : Nat → Bool) (cs : List Cond) : ∀ c d, allOk ord (c :: d :: cs) = true ↔
    ∃ op l r, c = .bin op l r ∧ (∀ x ∈ c :: d :: cs, Compares l r x) ∧
      (∀ a x y b, c :: d :: cs = a ++ x :: y :: b → ¬ Again x y ∧ ∃ op l r, x = .bin op l r ∧ ord l = true) := by
  induction cs with
  | nil =>
    intro c d
    have e0 : allOk ord [c, d] = pairOk ord c d := by simp [allOk]
    rw [e0, pairOk_iff]
    constructor
    · rintro ⟨op, l, r, e, ho, h1, h2, hn⟩
      refine ⟨op, l, r, e, ?_, ?_⟩
      · intro x hx
        rcases List.mem_cons.1 hx with rfl | hx
        · exact h1
        · rcases List.mem_cons.1 hx with rfl | hx
          · exact h2
          · cases hx
      · intro a x y b hab
        cases a with
        | nil =>
          cases hab
          exact ⟨hn, op, l, r, e, ho⟩
        | cons a0 a => have := congrArg List.length hab; simp at this; omega
    · rintro ⟨op, l, r, e, h1, h2⟩
      obtain ⟨hn, op', l', r', e', ho⟩ := h2 [] c d [] rfl
      rw [e] at e'
      cases e'
      exact ⟨op, l, r, e, ho, h1 c (by simp), h1 d (by simp), hn⟩
  | cons d' cs ih =>
    intro c d
    rw [allOk, Bool.and_eq_true, pairOk_iff, ih d d']
    constructor
    · rintro ⟨⟨op, l, r, e, ho, h1, h2, hn⟩, ⟨op', l', r', e', k1, k2⟩⟩
      refine ⟨op, l, r, e, ?_, ?_⟩
      · intro x hx
        rcases List.mem_cons.1 hx with rfl | hx
        · exact h1
        · have hx := k1 x hx
          obtain ⟨o, ho, hd⟩ := h2
          rw [e'] at hd
          rcases hd with hd | hd
          · cases hd; exact hx
          · cases hd; exact compares_swap _ _ _ hx
      · intro a x y b hab
        cases a with
        | nil =>
          cases hab
          exact ⟨hn, op, l, r, e, ho⟩
        | cons a0 a =>
          rw [List.cons_append] at hab
          injection hab with _ hab
          exact k2 a x y b hab
    · rintro ⟨op, l, r, e, h1, h2⟩
      obtain ⟨hn, op', l', r', e', ho⟩ := h2 [] c d (d' :: cs) rfl
      rw [e] at e'
      cases e'
      refine ⟨⟨op, l, r, e, ho, h1 c (by simp), h1 d (by simp), hn⟩, ?_⟩
      obtain ⟨o, ho', hd⟩ := h1 d (by simp)
      have tail : ∀ a x y b, d :: d' :: cs = a ++ x :: y :: b → ¬ Again x y ∧ ∃ op l r, x = .bin op l r ∧ ord l = true :=
        fun a x y b hab => h2 (c :: a) x y b (by rw [hab]; rfl)
      rcases hd with hd | hd
      · exact ⟨o, l, r, hd, fun x hx => h1 x (List.mem_cons_of_mem _ hx), tail⟩
      · exact ⟨o, r, l, hd, fun x hx => compares_swap _ _ _ (h1 x (List.mem_cons_of_mem _ hx)), tail⟩

/-- A chain is reported exactly when it has at least two conditions and three blocks, all conditions compare the same two operands, none is the one
before again, and the operands are totally ordered; the `cmp` suggested is that of the first condition. -/
theorem reported_iff (x : Ctx) (e : Ex) (l r : Nat) : check x e = some (some (l, r)) ↔
    x.expanded = false ∧ x.isElse = false ∧ x.inConst = false ∧ 3 ≤ e.blocks ∧
    ∃ op d cs, Conds e (.bin op l r :: d :: cs) ∧ (∀ c ∈ .bin op l r :: d :: cs, Compares l r c) ∧
      (∀ a c c' b, .bin op l r :: d :: cs = a ++ c :: c' :: b → ¬ Again c c' ∧ ∃ op l r, c = .bin op l r ∧ x.ord l = true) := by
  simp only [conds_iff, ← blocks_eq]
  unfold check
  generalize ifSequence e = p
  obtain ⟨cs, bs⟩ := p
  simp only
  cases x.expanded with
  | true => simp
  | false =>
    cases x.isElse with
    | true => simp
    | false =>
      cases x.inConst with
      | true => simp
      | false =>
        simp only [Bool.false_eq_true, if_false, true_and]
        match cs with
        | [] =>
          refine ⟨(fun h => by cases h), ?_⟩
          rintro ⟨_, _, _, _, h, _⟩
          cases h
        | [c] =>
          refine ⟨(fun h => by cases h), ?_⟩
          rintro ⟨_, _, _, _, h, _⟩
          cases h
        | c :: d :: cs =>
          rw [if_neg (by simp)]
          by_cases hb : bs.length < 3
          · rw [if_pos (by simpa using hb)]
            refine ⟨(fun h => by cases h), ?_⟩
            rintro ⟨h, _⟩
            omega
          · rw [if_neg (by simpa using hb)]
            cases ha : allOk x.ord (c :: d :: cs) with
            | false =>
              refine ⟨(fun h => by cases h), ?_⟩
              rintro ⟨_, op, d', cs', e, h1, h2⟩
              rw [← e] at h1 h2
              have : allOk x.ord (c :: d :: cs) = true := (allOk_iff x.ord cs c d).2 ⟨op, l, r, (by cases e; rfl), h1, h2⟩
              rw [ha] at this
              cases this
            | true =>
              obtain ⟨op, l', r', e, h1, h2⟩ := (allOk_iff x.ord cs c d).1 ha
              subst e
              constructor
              · intro h
                cases h
                exact ⟨by omega, op, d, cs, rfl, h1, h2⟩
              · rintro ⟨_, op', d', cs', e, _, _⟩
                cases e
                rfl

/-- The linter does not panic. -/
theorem no_panic (x : Ctx) (e : Ex) : check x e ≠ some none := by
  unfold check
  intro h
  split at h
  · cases h
  split at h
  · cases h
  split at h
  · cases h
  split at h
  · cases h
  split at h
  · cases h
  split at h
  · cases h
  rename_i hl _ ha
  generalize (ifSequence e).1 = cs at h hl ha
  match cs, hl, ha, h with
  | [], hl, _, _ => exact hl (by simp)
  | [c], hl, _, _ => exact hl (by simp)
  | c :: d :: cs, _, ha, h =>
    have ha : allOk x.ord (c :: d :: cs) = true := by simpa using ha
    obtain ⟨op, l, r, e, _⟩ := (allOk_iff x.ord cs c d).1 ha
    rw [e] at h
    cases h

/-- What a condition is when the comparison of `l` and `r` returns `o`. -/
def holdsAt (l r : Nat) (o : Ordering) : Cond → Bool
  | .bin .lt a b => if a = l ∧ b = r then o == .lt else o == .gt
  | .bin .gt a b => if a = l ∧ b = r then o == .gt else o == .lt
  | .bin .eq _ _ => o == .eq
  | _ => false

/-- The block that is executed when the comparison of `l` and `r` returns `o`: the arm of the match for `o`. -/
def arm (l r : Nat) (o : Ordering) : Ex → Option Nat
  | .ite c t e => if holdsAt l r o c then some t else arm l r o e
  | .only c t => if holdsAt l r o c then some t else none
  | .block b => some b
  | .other _ => none

theorem holds_eq (v : Env) (hv : v.Lawful) (l r : Nat) (c : Cond) (h : Compares l r c) (s : Nat) : c.holds v s = holdsAt l r (v.cmp 0 l r) c := by
  obtain ⟨op, ho, hc⟩ := h
  have hp : v.cmp s = v.cmp 0 := hv.pure s
  have hs : v.cmp 0 r l = (v.cmp 0 l r).swap := hv.swap 0 l r
  rcases ho with rfl | rfl | rfl <;> rcases hc with rfl | rfl <;> simp only [Cond.holds, holdsAt, hp]
  · rw [if_pos (by simp)]
  · by_cases he : r = l ∧ l = r
    · rw [if_pos he, he.1]
    · rw [if_neg he, hs]
      cases v.cmp 0 l r <;> rfl
  · rw [if_pos (by simp)]
  · by_cases he : r = l ∧ l = r
    · rw [if_pos he, he.1]
    · rw [if_neg he, hs]
      cases v.cmp 0 l r <;> rfl
  · rw [hs]
    cases v.cmp 0 l r <;> rfl

theorem run_eq (v : Env) (hv : v.Lawful) (l r : Nat) (e : Ex) : ∀ cs, Conds e cs → (∀ c ∈ cs, Compares l r c) → ∀ s,
    e.run v s = arm l r (v.cmp 0 l r) e := by
  intro cs h
  induction h with
  | @ite c t e cs _ ih =>
    intro hc s
    rw [Ex.run, arm, holds_eq v hv l r c (hc c (by simp)) s, ih (fun x hx => hc x (by simp [hx])) (s + 1)]
  | @only c t =>
    intro hc s
    rw [Ex.run, arm, holds_eq v hv l r c (hc c (by simp)) s]
  | block => intro _ _; rfl
  | other => intro _ _; rfl

/-- A chain that is reported can be written as a match on the `cmp` suggested: there is one block for each of the three outcomes that is executed, whatever
the values, when operands have no side effects. -/
theorem as_match (x : Ctx) (e : Ex) (l r : Nat) (h : check x e = some (some (l, r))) :
    ∃ arms : Ordering → Option Nat, ∀ v : Env, v.Lawful → ∀ s, e.run v s = arms (v.cmp 0 l r) := by
  obtain ⟨_, _, _, _, op, d, cs, hc, hk, _⟩ := (reported_iff x e l r).1 h
  exact ⟨fun o => arm l r o e, fun v hv s => run_eq v hv l r e _ hc hk s⟩

/-- Circumstances in which chains are looked at. -/
def x0 : Ctx := ⟨false, false, false, fun _ => true⟩

/-- `if a < b { 10 } else if a == b { 11 } else { 12 }`. -/
def ex0 : Ex := .ite (.bin .lt 0 1) 10 (.ite (.bin .eq 0 1) 11 (.block 12))

/-- Values. -/
def env (o : Ordering) : Env := ⟨fun _ a b => if a = b then .eq else if a < b then o else o.swap, fun _ _ _ => false, fun _ => false⟩

theorem env_lawful (o : Ordering) : (env o).Lawful where
  swap := by
    intro s a b
    simp only [env]
    by_cases h : a = b
    · rw [if_pos h.symm, if_pos h]; rfl
    · rw [if_neg (fun k => h k.symm), if_neg h]
      by_cases hl : a < b
      · rw [if_pos hl, if_neg (by omega)]
      · rw [if_neg hl, if_pos (by omega), Ordering.swap_swap]
  pure := fun _ => rfl

example : check x0 ex0 = some (some (0, 1)) ∧ ex0.run (env .gt) 0 = some 12 ∧ ex0.run (env .eq) 0 = some 11 ∧ ex0.run (env .lt) 0 = some 10 := by
  decide +kernel

/-- A condition can repeat one that is before it, with the operands exchanged: then its block is never executed, and no arm of the match is left for it. -/
theorem dead_block : ∃ e, check x0 e = some (some (0, 1)) ∧ e = .ite (.bin .lt 0 1) 10 (.ite (.bin .gt 1 0) 11 (.block 12)) ∧
    ∀ v : Env, v.Lawful → ∀ s, e.run v s ≠ some 11 := by
  refine ⟨_, by decide +kernel, rfl, ?_⟩
  intro v hv s
  rw [run_eq v hv 0 1 _ [.bin .lt 0 1, .bin .gt 1 0] (.ite (.ite .block)) (by
    intro c hc
    rcases List.mem_cons.1 hc with rfl | hc
    · exact ⟨.lt, Or.inl rfl, Or.inl rfl⟩
    · rcases List.mem_cons.1 hc with rfl | hc
      · exact ⟨.gt, Or.inr (Or.inl rfl), Or.inr rfl⟩
      · cases hc)]
  cases v.cmp 0 0 1 <;> decide

/-- Operands with side effects are not excluded: the chain evaluates them again, and then it is no match on one comparison. -/
theorem side_effects : ¬ ∃ arms : Ordering → Option Nat, ∀ v : Env, (∀ s a b, v.cmp s b a = (v.cmp s a b).swap) → ex0.run v 0 = arms (v.cmp 0 0 1) := by
  rintro ⟨arms, h⟩
  have h1 := h (env .gt) (env_lawful .gt).swap
  have h2 := h ⟨fun s a b => if s = 0 then (env .gt).cmp 0 a b else (env .eq).cmp 0 a b, fun _ _ _ => false, fun _ => false⟩ (by
    intro s a b
    simp only
    by_cases hs : s = 0
    · rw [if_pos hs, if_pos hs]; exact (env_lawful .gt).swap 0 a b
    · rw [if_neg hs, if_neg hs]; exact (env_lawful .eq).swap 0 a b)
  have e1 : ex0.run (env .gt) 0 = some 12 := by decide +kernel
  rw [e1] at h1
  have e2 : some 11 = arms .gt := h2
  have e3 : some 12 = arms .gt := h1
  rw [← e3] at e2
  cases e2

end Verif.CmpChain
