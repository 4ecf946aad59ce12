import Verif.BoolText.Model

/-!
# Properties: boolean operators and comparisons
-/

namespace Verif.BoolText

/-! ## Reading -/

theorem split_none (p : Op → Bool) (a : Tr) (l : List (Op × Tr)) (h : ∀ q ∈ l, p q.1 = false) : split p a l = ((a, l), []) := by
  induction l generalizing a with
  | nil => rfl
  | cons q l ih =>
    obtain ⟨o, c⟩ := q
    have h0 : p o = false := h (o, c) (by simp)
    have h1 := ih c (fun q hq => h q (by simp [hq]))
    simp [split, h0, h1]

theorem split_append (p : Op → Bool) (a b : Tr) (o : Op) (l l' : List (Op × Tr)) (ho : p o = true) :
    split p a (l ++ (o, b) :: l') = ((split p a l).1, (split p a l).2 ++ (o, (split p b l').1) :: (split p b l').2) := by
  induction l generalizing a with
  | nil => simp [split, ho]
  | cons q l ih =>
    obtain ⟨o', c⟩ := q
    simp only [List.cons_append, split, ih]
    split <;> rfl

theorem text_ops (t : Tr) : (text t).2.map (·.1) = ops t := by
  induction t with
  | node o l r ihl ihr => simp [text, ops, ihl, ihr]
  | _ => rfl

theorem read_skip (ρ : Nat → Val) (k : Nat) (c : Text) (h : ∀ q ∈ c.2, lvl q.1 ≠ k + 1) : read ρ (k + 1) c = read ρ k c := by
  have hs := split_none (fun o => lvl o == k + 1) c.1 c.2 (fun q hq => by simpa using h q hq)
  rw [read]
  simp only [hs]
  rfl

theorem read_down (ρ : Nat → Val) (c : Text) (j k : Nat) (hjk : j ≤ k) (h : ∀ q ∈ c.2, lvl q.1 ≤ j) : read ρ k c = read ρ j c := by
  induction k with
  | zero => have : j = 0 := by omega
            subst this; rfl
  | succ k ih =>
    by_cases hj : j = k + 1
    · subst hj; rfl
    · rw [read_skip ρ k c (fun q hq => by have := h q hq; omega)]
      exact ih (by omega)

theorem lvl_pos (o : Op) : 1 ≤ lvl o ∧ lvl o ≤ 6 := by cases o <;> decide

theorem read_text (ρ : Nat → Val) (t : Tr) (hf : Fits t) (k : Nat) (hk : ∀ p ∈ ops t, lvl p ≤ k) :
    read ρ k (text t) = t.eval ρ := by
  induction t generalizing k with
  | node o l r ihl ihr =>
    obtain ⟨hl, hr, h1, h2⟩ := hf
    obtain ⟨j, hj⟩ : ∃ j, lvl o = j + 1 := ⟨lvl o - 1, by have := (lvl_pos o).1; omega⟩
    have hopsq : ∀ t' : Tr, ∀ q ∈ (text t').2, q.1 ∈ ops t' := by
      intro t' q hq
      rw [← text_ops]
      exact List.mem_map_of_mem hq
    have hle : ∀ p ∈ ops (.node o l r), lvl p ≤ j + 1 := by
      intro p hp
      simp only [ops, List.mem_append, List.mem_cons] at hp
      rcases hp with hp | rfl | hp
      · have := (h1 p hp).1; omega
      · omega
      · have := h2 p hp; omega
    have hok : j + 1 ≤ k := by
      have := hk o (by simp [ops])
      omega
    rw [read_down ρ _ (j + 1) k hok (fun q hq => hle _ (hopsq _ q hq))]
    have hsr : split (fun o => lvl o == j + 1) (text r).1 (text r).2 = (text r, []) :=
      split_none _ _ _ (fun q hq => by
        have := h2 _ (hopsq r q hq)
        simp only [beq_eq_false_iff_ne]
        omega)
    rw [read]
    simp only [text]
    rw [split_append _ _ _ _ _ _ (by simp [hj])]
    simp only [hsr, List.foldl_append, List.foldl_cons, List.foldl_nil]
    have e2 : read ρ j (text r) = r.eval ρ := ihr hr j (fun p hp => by have := h2 p hp; omega)
    have e1 : read ρ (j + 1) (text l) = l.eval ρ := ihl hl (j + 1) (fun p hp => by have := (h1 p hp).1; omega)
    rw [read] at e1
    rw [e1, e2]
    rfl
  | leaf => rw [read_down ρ _ 0 k (by omega) (by simp [text])]; rfl
  | lit => rw [read_down ρ _ 0 k (by omega) (by simp [text])]; rfl
  | par t _ => rw [read_down ρ _ 0 k (by omega) (by simp [text])]; rfl
  | neg t _ => rw [read_down ρ _ 0 k (by omega) (by simp [text])]; rfl

/-- The text of a tree that needs no further parentheses means what the tree means. -/
theorem meaning_text (ρ : Nat → Val) (t : Tr) (hf : Fits t) : meaning ρ (text t) = t.eval ρ :=
  read_text ρ t hf 6 (fun p _ => (lvl_pos p).2)

/-- `a || b && c == d` is read as `a || (b && (c == d))`. -/
example : Fits (.node .lor (.leaf 0) (.node .land (.leaf 1) (.node .eq (.leaf 2) (.leaf 3)))) := by
  simp [Fits, ops, lvl]

theorem fill_eval (ρ : Nat → Val) (c : Ctx) (s t : Tr) (h : s.eval ρ = t.eval ρ) : (c.fill s).eval ρ = (c.fill t).eval ρ := by
  induction c with
  | hole => exact h
  | par c ih => exact ih
  | neg c ih => simp [Ctx.fill, Tr.eval, ih]
  | left o c r ih => simp [Ctx.fill, Tr.eval, ih]
  | right o l c ih => simp [Ctx.fill, Tr.eval, ih]

theorem simple_fill (c : Ctx) (o : Op) (l r t : Tr) (h : Simple (c.fill (.node o l r))) : Simple (c.fill t) := by
  cases c <;> simp_all [Ctx.fill, Simple]

/-- A binary expression may be replaced, in any context, by one whose operators do not bind more loosely. -/
theorem fits_replace (c : Ctx) (o : Op) (l r t : Tr) (hf : Fits (c.fill (.node o l r))) (ht : Fits t)
    (hl : ∀ p ∈ ops t, lvl p ≤ lvl o) :
    Fits (c.fill t) ∧ ∀ p ∈ ops (c.fill t), p ∈ ops (c.fill (.node o l r)) ∨ (lvl p ≤ lvl o ∧ o ∈ ops (c.fill (.node o l r))) := by
  induction c with
  | hole => exact ⟨ht, fun p hp => Or.inr ⟨hl p hp, by simp [Ctx.fill, ops]⟩⟩
  | par c ih => exact ⟨(ih hf).1, fun p hp => by simp [Ctx.fill, ops] at hp⟩
  | neg c ih => exact ⟨⟨(ih hf.1).1, simple_fill c o l r t hf.2⟩, fun p hp => by simp [Ctx.fill, ops] at hp⟩
  | left q c s ih =>
    obtain ⟨h1, h2, h3, h4⟩ := hf
    obtain ⟨g1, g2⟩ := ih h1
    refine ⟨⟨g1, h2, fun p hp => ?_, h4⟩, fun p hp => ?_⟩
    · rcases g2 p hp with hp | ⟨hp, ho⟩
      · exact h3 p hp
      · have := h3 o ho
        exact ⟨by omega, fun h => by have := this.2 h; omega⟩
    · simp only [Ctx.fill, ops, List.mem_append, List.mem_cons] at hp ⊢
      rcases hp with hp | hp | hp
      · rcases g2 p hp with hp | ⟨hp, ho⟩
        · exact Or.inl (Or.inl hp)
        · exact Or.inr ⟨hp, Or.inl ho⟩
      · exact Or.inl (Or.inr (Or.inl hp))
      · exact Or.inl (Or.inr (Or.inr hp))
  | right q s c ih =>
    obtain ⟨h1, h2, h3, h4⟩ := hf
    obtain ⟨g1, g2⟩ := ih h2
    refine ⟨⟨h1, g1, h3, fun p hp => ?_⟩, fun p hp => ?_⟩
    · rcases g2 p hp with hp | ⟨hp, ho⟩
      · exact h4 p hp
      · have := h4 o ho; omega
    · simp only [Ctx.fill, ops, List.mem_append, List.mem_cons] at hp ⊢
      rcases hp with hp | hp | hp
      · exact Or.inl (Or.inl hp)
      · exact Or.inl (Or.inr (Or.inl hp))
      · rcases g2 p hp with hp | ⟨hp, ho⟩
        · exact Or.inl (Or.inr (Or.inr hp))
        · exact Or.inr ⟨hp, Or.inr (Or.inr ho)⟩

/-! ## Comparisons of booleans -/

theorem peel_eval (ρ : Nat → Val) (t : Tr) : (peel t).eval ρ = t.eval ρ := by
  induction t with
  | par t ih => simpa [peel, Tr.eval] using ih
  | _ => rfl

theorem peel_bare (t : Tr) : peel t = bare t := by
  induction t with
  | par t ih => simpa [peel, bare] using ih
  | _ => rfl

theorem peel_nopar (t s : Tr) : peel t ≠ .par s := by
  induction t with
  | par t ih => simpa [peel] using ih
  | _ => simp [peel]

theorem noFloats_peel (ρ : Nat → Val) (t : Tr) (h : NoFloats ρ t) : NoFloats ρ (peel t) := by
  induction t with
  | par t ih => exact ih h
  | _ => exact h

theorem litOf_eval (ρ : Nat → Val) (t : Tr) (x : Bool) (h : litOf t = some x) : t.eval ρ = .b x := by
  rw [← peel_eval]
  unfold litOf at h
  cases hp : peel t with
  | lit y => rw [hp] at h; cases h; rfl
  | _ => rw [hp] at h; cases h

theorem same_eval (ρ : Nat → Val) (t : Tr) : (same t).eval ρ = t.eval ρ := peel_eval ρ t

theorem notS_eval (ρ : Nat → Val) (t : Tr) (hn : NoFloats ρ t) : (notS t).eval ρ = notv (t.eval ρ) := by
  have hn := noFloats_peel ρ t hn
  rw [← peel_eval ρ t]
  unfold notS
  cases hp : peel t with
  | node o l r =>
    rw [hp] at hn
    obtain ⟨⟨x, hx⟩, ⟨y, hy⟩⟩ := hn
    cases o <;> simp only [notBare, inverse, Tr.eval, hx, hy, opv, notv] <;> cases x <;> cases y <;> rfl
  | neg s =>
    rw [hp] at hn
    obtain ⟨z, hz⟩ := hn
    simp only [notBare, peel_eval, Tr.eval, hz, notv, Bool.not_not]
  | par s => exact absurd hp (peel_nopar t s)
  | leaf n => rfl
  | lit x => rfl

theorem wrapL_eval (ρ : Nat → Val) (t : Tr) : (wrapL t).eval ρ = t.eval ρ := by
  cases t with
  | node o l r => simp only [wrapL]; split <;> rfl
  | _ => rfl

theorem wrapR_eval (ρ : Nat → Val) (t : Tr) : (wrapR t).eval ρ = t.eval ρ := by
  cases t <;> rfl

/-- The operands of an expression are of this kind. -/
def Both (P : Tr → Prop) : Tr → Prop
  | .node _ l r => P l ∧ P r
  | _ => True

theorem checkComparison_cases (lt lf rt rf : Option (Tr → Tr)) (no : Option (Tr → Tr → Tr)) (l r t : Tr)
    (h : checkComparison lt lf rt rf no l r = some t) :
    (litOf l = some true ∧ litOf r = none ∧ ∃ f, lt = some f ∧ t = f r) ∨ (litOf l = none ∧ litOf r = some true ∧ ∃ f, rt = some f ∧ t = f l) ∨
    (litOf l = some false ∧ litOf r = none ∧ ∃ f, lf = some f ∧ t = f r) ∨ (litOf l = none ∧ litOf r = some false ∧ ∃ f, rf = some f ∧ t = f l) ∨
    (litOf l = none ∧ litOf r = none ∧ ∃ f, no = some f ∧ t = f l r) := by
  unfold checkComparison at h
  cases hl : litOf l with
  | none =>
    cases hr : litOf r with
    | none =>
      simp only [hl, hr, Option.map_eq_some_iff] at h
      obtain ⟨f, h1, h2⟩ := h
      exact Or.inr (Or.inr (Or.inr (Or.inr ⟨rfl, rfl, f, h1, h2.symm⟩)))
    | some y =>
      cases y <;> simp only [hl, hr, Option.map_eq_some_iff] at h <;> obtain ⟨f, h1, h2⟩ := h
      · exact Or.inr (Or.inr (Or.inr (Or.inl ⟨rfl, rfl, f, h1, h2.symm⟩)))
      · exact Or.inr (Or.inl ⟨rfl, rfl, f, h1, h2.symm⟩)
  | some x =>
    cases hr : litOf r with
    | none =>
      cases x <;> simp only [hl, hr, Option.map_eq_some_iff] at h <;> obtain ⟨f, h1, h2⟩ := h
      · exact Or.inr (Or.inr (Or.inl ⟨rfl, rfl, f, h1, h2.symm⟩))
      · exact Or.inl ⟨rfl, rfl, f, h1, h2.symm⟩
    | some y => cases x <;> cases y <;> simp [hl, hr] at h

/-- Full claim: the suggestion for a comparison of booleans has the value of the comparison. Proved unless an operand is
itself a comparison of floating-point numbers. -/
theorem compared_partial (ρ : Nat → Val) (e t : Tr) (h : comparison e = some t) (hb : Both (IsBool ρ) e)
    (hn : Both (NoFloats ρ) e) : t.eval ρ = e.eval ρ := by
  cases e with
  | node o l r =>
    obtain ⟨⟨x, hx⟩, ⟨y, hy⟩⟩ := hb
    obtain ⟨hnl, hnr⟩ := hn
    have nl : (notS l).eval ρ = .b (!x) := by rw [notS_eval ρ l hnl, hx]; rfl
    have nr : (notS r).eval ρ = .b (!y) := by rw [notS_eval ρ r hnr, hy]; rfl
    have sl : (same l).eval ρ = .b x := by rw [same_eval, hx]
    have sr : (same r).eval ρ = .b y := by rw [same_eval, hy]
    cases o <;> simp only [comparison] at h <;> try cases h
    all_goals
      rcases checkComparison_cases _ _ _ _ _ _ _ _ h with ⟨h1, h2, f, h3, rfl⟩ | ⟨h1, h2, f, h3, rfl⟩ | ⟨h1, h2, f, h3, rfl⟩ |
        ⟨h1, h2, f, h3, rfl⟩ | ⟨h1, h2, f, h3, rfl⟩
    all_goals cases h3
    all_goals
      first
      | have e1 := litOf_eval ρ _ _ h1
        rw [hx] at e1; cases e1
      | have e1 := litOf_eval ρ _ _ h2
        rw [hy] at e1; cases e1
      | skip
    all_goals
      simp only [andS, Tr.eval, wrapL_eval, wrapR_eval, nl, nr, sl, sr, hx, hy, opv, bools]
    all_goals
      first
      | cases x <;> cases y <;> rfl
      | cases x <;> rfl
      | cases y <;> rfl
  | _ => cases h

example : comparison (.node .lt (.leaf 0) (.leaf 1)) = some (.node .band (.neg (.leaf 0)) (.leaf 1)) := by decide +kernel

/-! ## The suggestion in its context -/

theorem fits_peel (t : Tr) (h : Fits t) : Fits (peel t) := by
  induction t with
  | par t ih => exact ih h
  | _ => exact h

theorem inverse_lvl (o o' : Op) (h : inverse o = some o') : lvl o = 4 ∧ lvl o' = 4 := by
  cases o <;> simp only [inverse, Option.some.injEq] at h <;> first | (subst h; decide) | cases h

theorem notS_fits (t : Tr) (h : Fits t) : Fits (notS t) := by
  have hp := fits_peel t h
  unfold notS
  cases ht : peel t with
  | node o l r =>
    rw [ht] at hp
    simp only [notBare]
    cases hi : inverse o with
    | none => exact ⟨hp, trivial⟩
    | some o' =>
      obtain ⟨g1, g2⟩ := inverse_lvl o o' hi
      obtain ⟨a, b, c, d⟩ := hp
      exact ⟨a, b, fun p hp => by have := c p hp; exact ⟨by omega, fun _ => this.2 g1⟩, fun p hp => by have := d p hp; omega⟩
  | neg s => rw [ht] at hp; exact fits_peel s hp.1
  | par s => exact absurd ht (peel_nopar t s)
  | leaf n => exact ⟨trivial, trivial⟩
  | lit x => exact ⟨trivial, trivial⟩

theorem notS_ops (t : Tr) (h : Tight t) : ∀ p ∈ ops (notS t), lvl p ≤ 4 := by
  obtain ⟨h1, h2⟩ := h
  rw [← peel_bare] at h1 h2
  unfold notS
  cases ht : peel t with
  | node o l r =>
    rw [ht] at h1
    simp only [notBare]
    cases hi : inverse o with
    | none => simp [ops]
    | some o' =>
      obtain ⟨g1, g2⟩ := inverse_lvl o o' hi
      intro p hp
      simp only [ops, List.mem_append, List.mem_cons] at hp h1
      rcases hp with hp | hp | hp
      · exact h1 p (Or.inl hp)
      · subst hp; omega
      · exact h1 p (Or.inr (Or.inr hp))
  | neg s =>
    have := h2 s ht
    rw [← peel_bare] at this
    exact this
  | par s => exact absurd ht (peel_nopar t s)
  | leaf n => simp [notBare, ops]
  | lit x => simp [notBare, ops]

theorem andS_fits (l r : Tr) (hl : Fits l) (hr : Fits r) : Fits (andS l r) ∧ ∀ p ∈ ops (andS l r), lvl p ≤ 4 := by
  have h1 : Fits (wrapL l) ∧ ∀ p ∈ ops (wrapL l), lvl p ≤ 1 := by
    cases l with
    | node o a b =>
      simp only [wrapL]
      by_cases h : lvl o > 1
      · rw [if_pos h]; exact ⟨hl, by simp [ops]⟩
      · rw [if_neg h]
        refine ⟨hl, fun p hp => ?_⟩
        obtain ⟨_, _, c, d⟩ := hl
        simp only [ops, List.mem_append, List.mem_cons] at hp
        rcases hp with hp | hp | hp
        · have := (c p hp).1; omega
        · subst hp; omega
        · have := d p hp; omega
    | _ => exact ⟨hl, by simp [wrapL, ops]⟩
  have h2 : Fits (wrapR r) ∧ ops (wrapR r) = [] := by
    cases r <;> exact ⟨hr, rfl⟩
  refine ⟨⟨h1.1, h2.1, fun p hp => ⟨h1.2 p hp, fun h => by cases h⟩, fun p hp => ?_⟩, fun p hp => ?_⟩
  · rw [h2.2] at hp; cases hp
  · simp only [andS, ops, List.mem_append, List.mem_cons, h2.2] at hp
    rcases hp with hp | hp | hp
    · have := h1.2 p hp; omega
    · subst hp; decide
    · cases hp

theorem comparison_fits (e t : Tr) (h : comparison e = some t) (hf : Fits e) (ht : Both Tight e) :
    Fits t ∧ ∀ p ∈ ops t, lvl p ≤ 4 := by
  cases e with
  | node o l r =>
    obtain ⟨fl, fr, _, _⟩ := hf
    obtain ⟨tl, tr⟩ := ht
    have s : ∀ x, Fits x → Tight x → Fits (same x) ∧ ∀ p ∈ ops (same x), lvl p ≤ 4 := by
      intro x h1 h2
      refine ⟨fits_peel x h1, ?_⟩
      have := h2.1
      rw [← peel_bare] at this
      exact this
    have n : ∀ x, Fits x → Tight x → Fits (notS x) ∧ ∀ p ∈ ops (notS x), lvl p ≤ 4 :=
      fun x h1 h2 => ⟨notS_fits x h1, notS_ops x h2⟩
    cases o <;> simp only [comparison] at h <;> try cases h
    all_goals
      rcases checkComparison_cases _ _ _ _ _ _ _ _ h with ⟨h1, h2, f, h3, rfl⟩ | ⟨h1, h2, f, h3, rfl⟩ | ⟨h1, h2, f, h3, rfl⟩ |
        ⟨h1, h2, f, h3, rfl⟩ | ⟨h1, h2, f, h3, rfl⟩
    all_goals cases h3
    all_goals
      first
      | exact s _ fl tl
      | exact s _ fr tr
      | exact n _ fl tl
      | exact n _ fr tr
      | exact andS_fits _ _ (n _ fl tl).1 (s _ fr tr).1
      | exact andS_fits _ _ (s _ fl tl).1 (n _ fr tr).1
  | _ => cases h

theorem comparison_lvl (e t : Tr) (h : comparison e = some t) : ∃ o l r, e = .node o l r ∧ lvl o = 4 := by
  cases e with
  | node o l r => cases o <;> first | exact ⟨_, _, _, rfl, rfl⟩ | cases h
  | _ => cases h

/-- Full claim: with the suggestion in its place, the whole text means what it meant. Proved in every context, unless an
operand is a comparison of floating-point numbers, or has `&&` or `||` in its parentheses. -/
theorem context_partial (ρ : Nat → Val) (c : Ctx) (e t : Tr) (h : comparison e = some t) (hf : Fits (c.fill e)) (hfe : Fits e)
    (hb : Both (IsBool ρ) e) (hn : Both (NoFloats ρ) e) (ht : Both Tight e) :
    meaning ρ (text (c.fill t)) = meaning ρ (text (c.fill e)) := by
  obtain ⟨o, l, r, rfl, ho⟩ := comparison_lvl e t h
  obtain ⟨f1, f2⟩ := comparison_fits _ t h hfe ht
  have := (fits_replace c o l r t hf f1 (fun p hp => by rw [ho]; exact f2 p hp)).1
  rw [meaning_text ρ _ this, meaning_text ρ _ hf]
  exact fill_eval ρ c _ _ (compared_partial ρ _ t h hb hn)

/-- `if a == true && !b`. -/
example : let c : Ctx := .left .land .hole (.neg (.leaf 1))
    let e : Tr := .node .eq (.leaf 0) (.lit true)
    Fits (c.fill e) ∧ Both Tight e ∧ comparison e = some (.leaf 0) := by
  refine ⟨by simp [Ctx.fill, Fits, ops, lvl, Simple], ?_, by decide +kernel⟩
  simp [Both, Tight, bare, ops]

/-- C133: which comparisons of booleans are reported. -/
theorem compared_iff (o : Op) (l r : Tr) :
    (comparison (.node o l r)).isSome = true ↔
      ((o = .eq ∨ o = .ne) ∧ (litOf l).isSome ≠ (litOf r).isSome) ∨
      (o = .lt ∧ litOf l ≠ some true ∧ litOf r ≠ some false ∧ ((litOf l).isNone ∨ (litOf r).isNone)) ∨
      (o = .gt ∧ litOf l ≠ some false ∧ litOf r ≠ some true ∧ ((litOf l).isNone ∨ (litOf r).isNone)) := by
  cases hl : litOf l with
  | none =>
    cases hr : litOf r with
    | none => cases o <;> simp [comparison, checkComparison, hl, hr]
    | some y => cases y <;> cases o <;> simp [comparison, checkComparison, hl, hr]
  | some x =>
    cases hr : litOf r with
    | none => cases x <;> cases o <;> simp [comparison, checkComparison, hl, hr]
    | some y => cases x <;> cases y <;> cases o <;> simp [comparison, checkComparison, hl, hr]

example : (comparison (.node .gt (.lit false) (.leaf 0))).isSome = false := by decide +kernel

/-! ## Lazy operators -/

theorem lazy_eval (ρ : Nat → Val) (o o' : Op) (l r : Tr) (h : lazy o = some o') :
    (Tr.node o' l r).eval ρ = (Tr.node o l r).eval ρ := by
  have hb : bools o' = bools o := by
    cases o <;> simp only [lazy, Option.some.injEq] at h <;> first | (subst h; rfl) | cases h
  have hf : floats o' = floats o := by
    cases o <;> simp only [lazy, Option.some.injEq] at h <;> first | (subst h; funext x y; cases x <;> cases y <;> rfl) | cases h
  simp only [Tr.eval]
  cases l.eval ρ <;> cases r.eval ρ <;> simp [opv, hb, hf]

theorem bitwise_some (calls : Nat → Bool) (fx : Tr → Bool) (isBool : Bool) (e t : Tr) (h : bitwise calls fx isBool e = some t) :
    ∃ o o' l r, e = .node o l r ∧ lazy o = some o' ∧ t = .node o' l r ∧ kindOk calls r = true ∧ isBool = true ∧ fx r = false := by
  cases e with
  | node o l r =>
    simp only [bitwise] at h
    cases ho : lazy o with
    | none => rw [ho] at h; cases h
    | some o' =>
      rw [ho] at h
      simp only at h
      by_cases hc : (kindOk calls r && isBool && !fx r) = true
      · rw [if_pos hc] at h
        simp only [Bool.and_eq_true, Bool.not_eq_true'] at hc
        exact ⟨o, o', l, r, rfl, ho, (Option.some.inj h).symm, hc.1.1, hc.1.2, hc.2⟩
      · rw [if_neg hc] at h; cases h
  | _ => cases h

/-- Full claim: with the lazy operator the text means what it meant. Proved when the new operator needs no parentheses in
its context. -/
theorem lazy_partial (ρ : Nat → Val) (calls : Nat → Bool) (fx : Tr → Bool) (isBool : Bool) (c : Ctx) (e t : Tr)
    (h : bitwise calls fx isBool e = some t) (hf : Fits (c.fill e)) (hn : Fits (c.fill t)) :
    meaning ρ (text (c.fill t)) = meaning ρ (text (c.fill e)) := by
  obtain ⟨o, o', l, r, rfl, ho, rfl, _⟩ := bitwise_some calls fx isBool e t h
  rw [meaning_text ρ _ hn, meaning_text ρ _ hf]
  exact fill_eval ρ c _ _ (lazy_eval ρ o o' l r ho)

theorem lazy_fits (o o' : Op) (l r : Tr) (h : lazy o = some o') (hf : Fits (.node o l r)) : Fits (.node o' l r) := by
  have hlvl : lvl o < lvl o' ∧ lvl o' ≠ 4 := by
    cases o <;> simp only [lazy, Option.some.injEq] at h <;> first | (subst h; decide) | cases h
  obtain ⟨a, b, c, d⟩ := hf
  exact ⟨a, b, fun p hp => ⟨by have := (c p hp).1; omega, fun h => absurd h hlvl.2⟩, fun p hp => by have := d p hp; omega⟩

/-- Contexts in which the expression is the whole text, or all that is in a pair of parentheses. -/
inductive Enclosed : Ctx → Prop
  | top : Enclosed .hole
  | paren : Enclosed (.par .hole)
  | par (c) : Enclosed c → c ≠ .hole → Enclosed (.par c)
  | neg (c) : Enclosed c → c ≠ .hole → Enclosed (.neg c)
  | left (o c r) : Enclosed c → c ≠ .hole → Enclosed (.left o c r)
  | right (o l c) : Enclosed c → c ≠ .hole → Enclosed (.right o l c)

theorem enclosed_ops (c : Ctx) (hc : Enclosed c) (hh : c ≠ .hole) (s t : Tr) :
    ops (c.fill s) = ops (c.fill t) ∧ (Simple (c.fill s) ↔ Simple (c.fill t)) := by
  induction hc with
  | top => exact absurd rfl hh
  | paren => exact ⟨rfl, Iff.rfl⟩
  | par c hc hn ih => exact ⟨rfl, Iff.rfl⟩
  | neg c hc hn ih => exact ⟨rfl, Iff.rfl⟩
  | left o c r hc hn ih => exact ⟨by simp [Ctx.fill, ops, (ih hn).1], Iff.rfl⟩
  | right o l c hc hn ih => exact ⟨by simp [Ctx.fill, ops, (ih hn).1], Iff.rfl⟩

theorem enclosed_fits (c : Ctx) (hc : Enclosed c) (s t : Tr) (hst : Fits s → Fits t) (hf : Fits (c.fill s)) : Fits (c.fill t) := by
  induction hc with
  | top => exact hst hf
  | paren => exact hst hf
  | par c hc hn ih => exact ih hf
  | neg c hc hn ih => exact ⟨ih hf.1, (enclosed_ops c hc hn s t).2.1 hf.2⟩
  | left o c r hc hn ih =>
    obtain ⟨a, b, d, e⟩ := hf
    refine ⟨ih a, b, ?_, e⟩
    rw [(enclosed_ops c hc hn t s).1]
    exact d
  | right o l c hc hn ih =>
    obtain ⟨a, b, d, e⟩ := hf
    refine ⟨a, ih b, d, ?_⟩
    rw [(enclosed_ops c hc hn t s).1]
    exact e

/-- C133: where the expression is alone or in its own parentheses, the lazy operator can always be used. -/
theorem lazy_enclosed (ρ : Nat → Val) (calls : Nat → Bool) (fx : Tr → Bool) (isBool : Bool) (c : Ctx) (e t : Tr)
    (hc : Enclosed c) (h : bitwise calls fx isBool e = some t) (hf : Fits (c.fill e)) :
    meaning ρ (text (c.fill t)) = meaning ρ (text (c.fill e)) := by
  refine lazy_partial ρ calls fx isBool c e t h hf ?_
  obtain ⟨o, o', l, r, rfl, ho, rfl, _⟩ := bitwise_some calls fx isBool e t h
  exact enclosed_fits c hc _ _ (lazy_fits o o' l r ho) hf

example : bitwise (fun _ => false) (fun _ => false) true (.node .bor (.leaf 0) (.neg (.leaf 1))) =
    some (.node .lor (.leaf 0) (.neg (.leaf 1))) := by decide +kernel
example : Enclosed (.left .land (.par .hole) (.leaf 2)) := .left _ _ _ .paren (by simp)

/-- A call, an operation or a negation, in parentheses or not. -/
inductive Computed (calls : Nat → Bool) : Tr → Prop
  | call {n : Nat} : calls n = true → Computed calls (.leaf n)
  | neg (t : Tr) : Computed calls (.neg t)
  | node (o : Op) (l r : Tr) : Computed calls (.node o l r)
  | par {t : Tr} : Computed calls t → Computed calls (.par t)

theorem kindOk_iff (calls : Nat → Bool) (r : Tr) : kindOk calls r = true ↔ Computed calls r := by
  induction r with
  | leaf n => exact ⟨fun h => .call h, fun h => by cases h with | call h => exact h⟩
  | lit b => exact ⟨(fun h => by cases h), fun h => by cases h⟩
  | par t ih => exact ⟨fun h => .par (ih.1 h), fun h => by cases h with | par h => exact ih.2 h⟩
  | neg t => exact ⟨fun _ => .neg t, fun _ => rfl⟩
  | node o l r => exact ⟨fun _ => .node o l r, fun _ => rfl⟩

/-- C133: only an operation on booleans whose right operand is worth skipping and has no effects is made lazy. -/
theorem lazy_quiet (calls : Nat → Bool) (fx : Tr → Bool) (isBool : Bool) (o : Op) (l r : Tr) :
    (bitwise calls fx isBool (.node o l r)).isSome = true ↔
      (o = .band ∨ o = .bor) ∧ isBool = true ∧ fx r = false ∧ Computed calls r := by
  rw [← kindOk_iff]
  cases o <;> simp [bitwise, lazy] <;> cases kindOk calls r <;> cases isBool <;> cases fx r <;> simp

example : kindOk (fun _ => false) (.par (.node .eq (.leaf 0) (.leaf 1))) = true ∧ kindOk (fun _ => false) (.leaf 0) = false := by decide +kernel

/-! ## Findings -/

/-- Variable 0 is false, the others are true. -/
def env0 : Nat → Val := fun n => .b (n != 0)
/-- Variable 0 is true, the others are false. -/
def env1 : Nat → Val := fun n => .b (n == 0)

/-- `(a || b) == true && c` becomes `a || b && c`. -/
theorem parens_lost : ∃ (e t : Tr) (c : Ctx), comparison e = some t ∧ text (c.fill e) =
      (.par (.node .lor (.leaf 0) (.leaf 1)), [(.eq, .lit true), (.land, .leaf 2)]) ∧
    meaning env1 (text (c.fill t)) ≠ meaning env1 (text (c.fill e)) :=
  ⟨.node .eq (.par (.node .lor (.leaf 0) (.leaf 1))) (.lit true), .node .lor (.leaf 0) (.leaf 1), .left .land .hole (.leaf 2),
    by decide +kernel, by decide +kernel, by decide +kernel⟩

/-- `!(a || b) == false && c` becomes `a || b && c`. -/
theorem negation_lost : ∃ (e t : Tr) (c : Ctx), comparison e = some t ∧ text (c.fill e) =
      (.neg (.par (.node .lor (.leaf 0) (.leaf 1))), [(.eq, .lit false), (.land, .leaf 2)]) ∧
    meaning env1 (text (c.fill t)) ≠ meaning env1 (text (c.fill e)) :=
  ⟨.node .eq (.neg (.par (.node .lor (.leaf 0) (.leaf 1)))) (.lit false), .node .lor (.leaf 0) (.leaf 1), .left .land .hole (.leaf 2),
    by decide +kernel, by decide +kernel, by decide +kernel⟩

/-- `(x < y) == false` becomes `x >= y`: with a NaN the first is true and the second is not. -/
theorem nan_negated : ∃ (e t : Tr), comparison e = some t ∧ text e = (.par (.node .lt (.leaf 0) (.leaf 1)), [(.eq, .lit false)]) ∧
    t.eval (fun _ => .f none) ≠ e.eval (fun _ => .f none) :=
  ⟨.node .eq (.par (.node .lt (.leaf 0) (.leaf 1))) (.lit false), .node .ge (.leaf 0) (.leaf 1),
    by decide +kernel, by decide +kernel, by decide +kernel⟩

/-- `a | b & !c` becomes `a | b && !c`, which is `(a | b) && !c`. -/
theorem lazy_under_or : ∃ (e t : Tr) (c : Ctx), bitwise (fun _ => false) (fun _ => false) true e = some t ∧
    text (c.fill e) = (.leaf 0, [(.bor, .leaf 1), (.band, .neg (.leaf 0))]) ∧
    meaning env1 (text (c.fill t)) ≠ meaning env1 (text (c.fill e)) :=
  ⟨.node .band (.leaf 1) (.neg (.leaf 0)), .node .land (.leaf 1) (.neg (.leaf 0)), .right .bor (.leaf 0) .hole,
    by decide +kernel, by decide +kernel, by decide +kernel⟩

/-- `a == b & !b` becomes `a == b && !b`. -/
theorem lazy_under_eq : ∃ (e t : Tr) (c : Ctx), bitwise (fun _ => false) (fun _ => false) true e = some t ∧
    text (c.fill e) = (.leaf 0, [(.eq, .leaf 1), (.band, .neg (.leaf 1))]) ∧
    meaning env0 (text (c.fill t)) ≠ meaning env0 (text (c.fill e)) :=
  ⟨.node .band (.leaf 1) (.neg (.leaf 1)), .node .land (.leaf 1) (.neg (.leaf 1)), .right .eq (.leaf 0) .hole,
    by decide +kernel, by decide +kernel, by decide +kernel⟩

/-- `a && b | !a` becomes `a && b || !a`. -/
theorem lazy_under_and : ∃ (e t : Tr) (c : Ctx), bitwise (fun _ => false) (fun _ => false) true e = some t ∧
    text (c.fill e) = (.leaf 0, [(.land, .leaf 1), (.bor, .neg (.leaf 0))]) ∧
    meaning env0 (text (c.fill t)) ≠ meaning env0 (text (c.fill e)) :=
  ⟨.node .bor (.leaf 1) (.neg (.leaf 0)), .node .lor (.leaf 1) (.neg (.leaf 0)), .right .land (.leaf 0) .hole,
    by decide +kernel, by decide +kernel, by decide +kernel⟩

end Verif.BoolText
