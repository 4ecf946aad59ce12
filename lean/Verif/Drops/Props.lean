import Verif.Drops.Model

/-!
# Properties: when values are dropped (C126)
-/

namespace Verif.Drops

/-! ## Types -/

/-- The types whose drop is part of the drop of a type without an own one. -/
def comps (tab : Types) (t : Nat) : Option (List Nat) :=
  match tab t with
  | .container l => some l
  | .parts l => some l
  | .adt false l => some l
  | _ => none

/-- A type that was looked at. -/
def Done (sig : Nat → Bool) (tab : Types) (s : List Nat) (t : Nat) : Prop :=
  sig t = false ∨ ∃ l, comps tab t = some l ∧ ∀ c ∈ l, c ∈ s

theorem Done.mono {sig tab s s' t} (h : Done sig tab s t) (hs : ∀ c ∈ s, c ∈ s') : Done sig tab s' t := by
  rcases h with h | ⟨l, hl, h⟩
  · exact Or.inl h
  · exact Or.inr ⟨l, hl, fun c hc => hs c (h c hc)⟩

theorem needs_done (sig : Nat → Bool) (tab : Types) : ∀ n,
    (∀ t seen s, needsOrdered sig tab n t seen = some (false, s) →
      t ∈ s ∧ (∀ c ∈ seen, c ∈ s) ∧ ∀ u ∈ s, u ∈ seen ∨ Done sig tab s u) ∧
    (∀ l seen s, anyOrdered sig tab n l seen = some (false, s) →
      (∀ c ∈ l, c ∈ s) ∧ (∀ c ∈ seen, c ∈ s) ∧ ∀ u ∈ s, u ∈ seen ∨ Done sig tab s u)
  | 0 => ⟨fun _ _ _ h => by simp [needsOrdered] at h, fun _ _ _ h => by simp [anyOrdered] at h⟩
  | n + 1 => by
    obtain ⟨ih1, ih2⟩ := needs_done sig tab n
    constructor
    · intro t seen s h
      unfold needsOrdered at h
      by_cases h1 : t ∈ seen
      · rw [if_pos h1] at h
        simp only [Option.some.injEq, Prod.mk.injEq, true_and] at h
        subst h
        exact ⟨h1, fun _ h => h, fun u hu => Or.inl hu⟩
      · rw [if_neg h1] at h
        by_cases h2 : sig t = false
        · rw [if_pos h2] at h
          simp only [Option.some.injEq, Prod.mk.injEq, true_and] at h
          subst h
          refine ⟨List.mem_cons_self, fun _ h => List.mem_cons_of_mem _ h, fun u hu => ?_⟩
          rcases List.mem_cons.mp hu with rfl | hu
          · exact Or.inr (Or.inl h2)
          · exact Or.inl hu
        · rw [if_neg h2] at h
          have key : ∀ l, comps tab t = some l → anyOrdered sig tab n l (t :: seen) = some (false, s) →
              t ∈ s ∧ (∀ c ∈ seen, c ∈ s) ∧ ∀ u ∈ s, u ∈ seen ∨ Done sig tab s u := by
            intro l hl h
            obtain ⟨a, b, c⟩ := ih2 _ _ _ h
            refine ⟨b t List.mem_cons_self, fun c hc => b c (List.mem_cons_of_mem _ hc), fun u hu => ?_⟩
            rcases c u hu with h | h
            · rcases List.mem_cons.mp h with rfl | h
              · exact Or.inr (Or.inr ⟨l, hl, a⟩)
              · exact Or.inl h
            · exact Or.inr h
          split at h
          · rename_i l ht; exact key l (by simp [comps, ht]) h
          · rename_i l ht; exact key l (by simp [comps, ht]) h
          · rename_i l ht; exact key l (by simp [comps, ht]) h
          · simp at h
          · simp at h
          · simp at h
    · intro l seen s h
      cases l with
      | nil =>
        simp only [anyOrdered, Option.some.injEq, Prod.mk.injEq, true_and] at h
        subst h
        exact ⟨by simp, fun _ h => h, fun u hu => Or.inl hu⟩
      | cons c l =>
        simp only [anyOrdered] at h
        split at h
        · simp at h
        · simp at h
        · rename_i s1 h1
          obtain ⟨a, b, d⟩ := ih1 _ _ _ h1
          obtain ⟨a', b', d'⟩ := ih2 _ _ _ h
          refine ⟨fun x hx => ?_, fun x hx => b' x (b x hx), fun u hu => ?_⟩
          · rcases List.mem_cons.mp hx with rfl | hx
            · exact b' _ a
            · exact a' x hx
          · rcases d' u hu with h | h
            · rcases d u h with h | h
              · exact Or.inl h
              · exact Or.inr (h.mono b')
            · exact Or.inr h

/-- A type that is said not to need an ordered drop runs no code of the program when it is dropped — however
its parts refer to each other. (`sig`: the compiler's answer is right when it is "no".) -/
theorem ordered_sound (sig : Nat → Bool) (tab : Types) (hs : ∀ t, sig t = false → Silent tab t) (n t : Nat)
    (s : List Nat) (h : needsOrdered sig tab n t [] = some (false, s)) : Silent tab t := by
  obtain ⟨ht, _, hd⟩ := (needs_done sig tab n).1 t [] s h
  have : ∀ a u, Glue tab a u → a ∈ s → False := by
    intro a u hg
    induction hg with
    | @own a f e =>
      intro ha
      rcases hd a ha with h | h | ⟨l, hl, _⟩
      · cases h
      · exact hs a h a (.own e)
      · simp [comps, e] at hl
    | @any a e =>
      intro ha
      rcases hd a ha with h | h | ⟨l, hl, _⟩
      · cases h
      · exact hs a h a (.any e)
      · simp [comps, e] at hl
    | @field a d f c u e hc hg ih =>
      intro ha
      rcases hd a ha with h | h | ⟨l, hl, hm⟩
      · cases h
      · exact hs a h u (.field e hc hg)
      · cases d with
        | true => simp [comps, e] at hl
        | false =>
          simp only [comps, e, Option.some.injEq] at hl
          subst hl
          exact ih (hm c hc)
    | @part a f c u e hc hg ih =>
      intro ha
      rcases hd a ha with h | h | ⟨l, hl, hm⟩
      · cases h
      · exact hs a h u (.part e hc hg)
      · simp only [comps, e, Option.some.injEq] at hl
        subst hl
        exact ih (hm c hc)
    | @content a f c u e hc hg ih =>
      intro ha
      rcases hd a ha with h | h | ⟨l, hl, hm⟩
      · cases h
      · exact hs a h u (.content e hc hg)
      · simp only [comps, e, Option.some.injEq] at hl
        subst hl
        exact ih (hm c hc)
  intro u hu
  exact this t u hu ht

/-- `struct List(Option<Box<List>>, u8)`: 0 is `u8`, 1 the structure, 2 the option, 3 the box. -/
def listTypes : Types
  | 1 => .adt false [2, 0]
  | 2 => .adt false [3]
  | 3 => .container [1]
  | _ => .plain

example : needsOrdered (fun t => t != 0) listTypes 20 1 [] = some (false, [0, 3, 2, 1]) := by decide +kernel

/-- A type that is said to need an ordered drop may run code of the program. (`sig`: numbers and references
have no significant drop.) -/
theorem ordered_only (sig : Nat → Bool) (tab : Types) (hs : ∀ t, tab t = .plain → sig t = false) : ∀ n,
    (∀ t seen s, needsOrdered sig tab n t seen = some (true, s) → ∃ u, Glue tab t u) ∧
    (∀ l seen s, anyOrdered sig tab n l seen = some (true, s) → ∃ c ∈ l, ∃ u, Glue tab c u)
  | 0 => ⟨fun _ _ _ h => by simp [needsOrdered] at h, fun _ _ _ h => by simp [anyOrdered] at h⟩
  | n + 1 => by
    obtain ⟨ih1, ih2⟩ := ordered_only sig tab hs n
    constructor
    · intro t seen s h
      unfold needsOrdered at h
      by_cases h1 : t ∈ seen
      · rw [if_pos h1] at h; simp at h
      · rw [if_neg h1] at h
        by_cases h2 : sig t = false
        · rw [if_pos h2] at h; simp at h
        · rw [if_neg h2] at h
          split at h
          · rename_i l ht
            obtain ⟨c, hc, u, hu⟩ := ih2 _ _ _ h
            exact ⟨u, .content ht hc hu⟩
          · rename_i l ht
            obtain ⟨c, hc, u, hu⟩ := ih2 _ _ _ h
            exact ⟨u, .part ht hc hu⟩
          · rename_i l ht
            obtain ⟨c, hc, u, hu⟩ := ih2 _ _ _ h
            exact ⟨u, .field ht hc hu⟩
          · rename_i l ht; exact ⟨t, .own ht⟩
          · rename_i ht; exact absurd (hs t ht) h2
          · rename_i ht; exact ⟨t, .any ht⟩
    · intro l seen s h
      cases l with
      | nil => simp [anyOrdered] at h
      | cons c l =>
        simp only [anyOrdered] at h
        split at h
        · simp at h
        · rename_i s1 h1
          obtain ⟨u, hu⟩ := ih1 _ _ _ h1
          exact ⟨c, List.mem_cons_self, u, hu⟩
        · rename_i s1 h1
          obtain ⟨c', hc, hu⟩ := ih2 _ _ _ h
          exact ⟨c', List.mem_cons_of_mem _ hc, hu⟩

example : needsOrdered (fun t => t != 0) (fun t => if t = 4 then .adt true [] else listTypes t) 20 4 [] = some (true, [4]) ∧
    needsOrdered (fun _ => true) (fun t => if t = 1 then .container [2] else .adt true []) 20 1 [] = some (true, [2, 1]) := by
  decide +kernel

theorem needs_more (sig : Nat → Bool) (tab : Types) : ∀ n,
    (∀ t seen r, needsOrdered sig tab n t seen = some r → needsOrdered sig tab (n + 1) t seen = some r) ∧
    (∀ l seen r, anyOrdered sig tab n l seen = some r → anyOrdered sig tab (n + 1) l seen = some r)
  | 0 => ⟨fun _ _ _ h => by simp [needsOrdered] at h, fun _ _ _ h => by simp [anyOrdered] at h⟩
  | n + 1 => by
    obtain ⟨ih1, ih2⟩ := needs_more sig tab n
    constructor
    · intro t seen r h
      unfold needsOrdered at h ⊢
      by_cases h1 : t ∈ seen
      · rw [if_pos h1] at h ⊢; exact h
      · rw [if_neg h1] at h ⊢
        by_cases h2 : sig t = false
        · rw [if_pos h2] at h ⊢; exact h
        · rw [if_neg h2] at h ⊢
          cases ht : tab t with
          | container l => simp only [ht] at h ⊢; exact ih2 _ _ _ h
          | parts l => simp only [ht] at h ⊢; exact ih2 _ _ _ h
          | adt d l =>
            cases d with
            | false => simp only [ht] at h ⊢; exact ih2 _ _ _ h
            | true => simp only [ht] at h ⊢; exact h
          | plain => simp only [ht] at h ⊢; exact h
          | anything => simp only [ht] at h ⊢; exact h
    · intro l seen r h
      cases l with
      | nil => simpa [anyOrdered] using h
      | cons c l =>
        rw [anyOrdered] at h ⊢
        cases h1 : needsOrdered sig tab n c seen with
        | none => simp [h1] at h
        | some q =>
          rw [ih1 _ _ _ h1]
          obtain ⟨b, s⟩ := q
          cases b with
          | true => simpa [h1] using h
          | false => simp only [h1] at h ⊢; exact ih2 _ _ _ h

theorem needs_most (sig : Nat → Bool) (tab : Types) (n m : Nat) :
    (∀ t seen r, needsOrdered sig tab n t seen = some r → needsOrdered sig tab (n + m) t seen = some r) ∧
    (∀ l seen r, anyOrdered sig tab n l seen = some r → anyOrdered sig tab (n + m) l seen = some r) := by
  induction m with
  | zero => exact ⟨fun _ _ _ h => h, fun _ _ _ h => h⟩
  | succ m ih =>
    exact ⟨fun t seen r h => (needs_more sig tab (n + m)).1 t seen r (ih.1 t seen r h),
      fun l seen r h => (needs_more sig tab (n + m)).2 l seen r (ih.2 l seen r h)⟩

/-- The number of types not seen yet. -/
def unseen (all seen : List Nat) : Nat := (all.filter fun t => decide (t ∉ seen)).length

theorem unseen_le {all s s' : List Nat} (h : ∀ t ∈ s, t ∈ s') : unseen all s' ≤ unseen all s := by
  unfold unseen
  induction all with
  | nil => simp
  | cons a all ih =>
    simp only [List.filter_cons]
    by_cases h1 : a ∈ s
    · simp only [h1, h a h1, not_true_eq_false, decide_false, Bool.false_eq_true, if_false]; exact ih
    · by_cases h2 : a ∈ s'
      · simp only [h1, h2, not_true_eq_false, not_false_eq_true, decide_false, decide_true, Bool.false_eq_true,
          if_false, if_true, List.length_cons]
        omega
      · simp only [h1, h2, not_false_eq_true, decide_true, if_true, List.length_cons]
        omega

theorem unseen_lt {all s : List Nat} {t : Nat} (ht : t ∈ all) (h : t ∉ s) : unseen all (t :: s) < unseen all s := by
  induction all with
  | nil => simp at ht
  | cons a all ih =>
    have hle : unseen all (t :: s) ≤ unseen all s := unseen_le fun x hx => List.mem_cons_of_mem _ hx
    unfold unseen at hle ih ⊢
    simp only [List.filter_cons]
    by_cases ha : a = t
    · subst ha
      simp only [List.mem_cons_self, not_true_eq_false, decide_false, Bool.false_eq_true, if_false, h,
        not_false_eq_true, decide_true, if_true, List.length_cons]
      omega
    · have ht' : t ∈ all := by
        rcases List.mem_cons.mp ht with e | e
        · exact absurd e.symm ha
        · exact e
      have := ih ht'
      by_cases h1 : a ∈ s
      · have h2 : a ∈ t :: s := List.mem_cons_of_mem _ h1
        simp only [h1, h2, not_true_eq_false, decide_false, Bool.false_eq_true, if_false]
        exact this
      · have h2 : a ∉ t :: s := by simp [ha, h1]
        simp only [h1, h2, not_false_eq_true, decide_true, if_true, List.length_cons]
        omega

theorem seen_grows (sig : Nat → Bool) (tab : Types) : ∀ n,
    (∀ t seen r, needsOrdered sig tab n t seen = some r → ∀ c ∈ seen, c ∈ r.2) ∧
    (∀ l seen r, anyOrdered sig tab n l seen = some r → ∀ c ∈ seen, c ∈ r.2)
  | 0 => ⟨fun _ _ _ h => by simp [needsOrdered] at h, fun _ _ _ h => by simp [anyOrdered] at h⟩
  | n + 1 => by
    obtain ⟨ih1, ih2⟩ := seen_grows sig tab n
    constructor
    · intro t seen r h c hc
      unfold needsOrdered at h
      by_cases h1 : t ∈ seen
      · rw [if_pos h1] at h
        simp only [Option.some.injEq] at h
        subst h; exact hc
      · rw [if_neg h1] at h
        by_cases h2 : sig t = false
        · rw [if_pos h2] at h
          simp only [Option.some.injEq] at h
          subst h; exact List.mem_cons_of_mem _ hc
        · rw [if_neg h2] at h
          split at h
          · exact ih2 _ _ _ h c (List.mem_cons_of_mem _ hc)
          · exact ih2 _ _ _ h c (List.mem_cons_of_mem _ hc)
          · exact ih2 _ _ _ h c (List.mem_cons_of_mem _ hc)
          all_goals
            simp only [Option.some.injEq] at h
            subst h; exact List.mem_cons_of_mem _ hc
    · intro l seen r h c hc
      cases l with
      | nil =>
        simp only [anyOrdered, Option.some.injEq] at h
        subst h; exact hc
      | cons d l =>
        rw [anyOrdered] at h
        split at h
        · cases h
        · rename_i s1 h1
          simp only [Option.some.injEq] at h
          subst h; exact ih1 _ _ _ h1 c hc
        · rename_i s1 h1
          exact ih2 _ _ _ h c (ih1 _ _ _ h1 c hc)

theorem needs_ends (sig : Nat → Bool) (tab : Types) (all : List Nat)
    (hall : ∀ t ∈ all, ∀ l, comps tab t = some l → ∀ c ∈ l, c ∈ all) :
    ∀ k t seen, unseen all seen ≤ k → t ∈ all → ∃ n r, needsOrdered sig tab n t seen = some r := by
  intro k
  induction k with
  | zero =>
    intro t seen hk ht
    by_cases h1 : t ∈ seen
    · exact ⟨1, _, by rw [needsOrdered, if_pos h1]⟩
    · exact absurd (unseen_lt ht h1) (by omega)
  | succ k ih =>
    intro t seen hk ht
    by_cases h1 : t ∈ seen
    · exact ⟨1, _, by rw [needsOrdered, if_pos h1]⟩
    · by_cases h2 : sig t = false
      · exact ⟨1, _, by rw [needsOrdered, if_neg h1, if_pos h2]⟩
      · have lists : ∀ l : List Nat, (∀ c ∈ l, c ∈ all) → ∀ s, unseen all s ≤ k →
            ∃ n r, anyOrdered sig tab n l s = some r := by
          intro l
          induction l with
          | nil => intro _ s _; exact ⟨1, _, by rw [anyOrdered]⟩
          | cons c l ihl =>
            intro hl s hs
            obtain ⟨n, ⟨b, s1⟩, hn⟩ := ih c s hs (hl c List.mem_cons_self)
            cases b with
            | true => exact ⟨n + 1, _, by rw [anyOrdered, hn]⟩
            | false =>
              have hs1 : unseen all s1 ≤ k :=
                Nat.le_trans (unseen_le ((seen_grows sig tab n).1 c s _ hn)) hs
              obtain ⟨m, r, hm⟩ := ihl (fun x hx => hl x (List.mem_cons_of_mem _ hx)) s1 hs1
              refine ⟨n + m + 1, r, ?_⟩
              rw [anyOrdered, (needs_most sig tab n m).1 _ _ _ hn]
              simp only
              rw [Nat.add_comm n m]
              exact (needs_most sig tab m n).2 _ _ _ hm
        have hlt := unseen_lt ht h1
        cases hc : comps tab t with
        | none =>
          refine ⟨1, (true, t :: seen), ?_⟩
          rw [needsOrdered, if_neg h1, if_neg h2]
          unfold comps at hc
          cases hk : tab t with
          | adt d l => cases d <;> simp_all
          | _ => simp_all
        | some l =>
          obtain ⟨n, r, hn⟩ := lists l (hall t ht l hc) (t :: seen) (by omega)
          refine ⟨n + 1, r, ?_⟩
          rw [needsOrdered, if_neg h1, if_neg h2]
          unfold comps at hc
          cases hk : tab t with
          | adt d l => cases d <;> simp_all
          | _ => simp_all

/-- There is an answer for every type that is made of finitely many types, recursive ones included. -/
theorem ordered_ends (sig : Nat → Bool) (tab : Types) (all : List Nat)
    (hall : ∀ t ∈ all, ∀ d l, tab t = .container l ∨ tab t = .parts l ∨ tab t = .adt d l → ∀ c ∈ l, c ∈ all)
    (t : Nat) (ht : t ∈ all) : ∃ n r, needsOrdered sig tab n t [] = some r :=
  needs_ends sig tab all (fun t ht l hl c hc => by
    unfold comps at hl
    split at hl
    · rename_i l' h; simp only [Option.some.injEq] at hl; subst hl; exact hall t ht true l' (Or.inl h) c hc
    · rename_i l' h; simp only [Option.some.injEq] at hl; subst hl; exact hall t ht true l' (Or.inr (Or.inl h)) c hc
    · rename_i l' h; simp only [Option.some.injEq] at hl; subst hl; exact hall t ht false l' (Or.inr (Or.inr h)) c hc
    · cases hl) _ t [] (Nat.le_refl _) ht

example : ∃ n r, needsOrdered (fun t => t != 0) listTypes n 1 [] = some r :=
  ordered_ends _ _ [0, 1, 2, 3] (by
    intro t ht d l hl c hc
    simp only [List.mem_cons, List.not_mem_nil, or_false] at ht
    rcases ht with rfl | rfl | rfl | rfl <;> simp_all [listTypes]
    all_goals (obtain ⟨_, rfl⟩ := hl; simp_all) <;> omega) 1 (by simp)

/-! ## Temporaries -/

/-- The answers are right: what needs no ordered drop is dropped without effect. -/
def Right (I : Sem) (ord : Nat → Bool) : Prop := ∀ d, ord d = false → Inert I d

/-- The answers of `needs_ordered_drop` are right. -/
theorem right_answers (I : Sem) (sig : Nat → Bool) (tab : Types) (ho : Obeys I tab)
    (hs : ∀ t, sig t = false → Silent tab t) (ord : Nat → Bool)
    (h : ∀ d, ord d = false → ∃ n s, needsOrdered sig tab n d [] = some (false, s)) : Right I ord := by
  intro d hd
  obtain ⟨n, s, h⟩ := h d hd
  exact ho d (ordered_sound sig tab hs n d s h)

theorem mem_settle {W : Type} {own : Bool} {r : Nat × List Item × W} {i : Item} (h : i ∈ (settle own r).2.1) :
    i ∈ r.2.1 ∨ (own = false ∧ i = .tmp r.1) := by
  cases own with
  | true => exact Or.inl h
  | false =>
    simp only [settle, Bool.false_eq_true, if_false, List.mem_cons] at h
    rcases h with h | h
    · exact Or.inr ⟨rfl, h⟩
    · exact Or.inl h

theorem mem_call {own : Bool} {d : Nat} (h : own = false) : d ∈ call own d := by
  subst h; simp [call]

/-- Every temporary that an expression leaves is visited. Missing: `[e; n]`, constants and `Self` — see
`repeat_unseen`, `constant_unseen`, `self_unseen`. -/
theorem visited_partial (I : Sem) (ed : Edition) (e : E) (hc : Common e) :
    ∀ own w i, i ∈ (ev I ed own e w).2.1 → ∃ d, i = .tmp d ∧ (d = 0 ∨ d ∈ visited own e) := by
  have fin : ∀ (own : Bool) (d : Nat) (v : List Nat) (r : List Item) (w : I.W) (i : Item),
      i ∈ (settle own (d, r, w)).2.1 → (∀ i ∈ r, ∃ d, i = .tmp d ∧ (d = 0 ∨ d ∈ v)) →
      ∃ x, i = .tmp x ∧ (x = 0 ∨ x ∈ call own d ++ v) := by
    intro own d v r w i h hr
    rcases mem_settle h with h1 | ⟨h1, rfl⟩
    · obtain ⟨x, rfl, h2⟩ := hr i h1
      exact ⟨x, rfl, h2.imp id (fun h => List.mem_append_right _ h)⟩
    · exact ⟨d, rfl, Or.inr (List.mem_append_left _ (mem_call h1))⟩
  have fin0 : ∀ (own : Bool) (v : List Nat) (r : List Item) (w : I.W) (i : Item),
      i ∈ (settle own (0, r, w)).2.1 → (∀ i ∈ r, ∃ d, i = .tmp d ∧ (d = 0 ∨ d ∈ v)) →
      ∃ x, i = .tmp x ∧ (x = 0 ∨ x ∈ v) := by
    intro own v r w i h hr
    rcases mem_settle h with h | ⟨h, rfl⟩
    · exact hr i h
    · exact ⟨0, rfl, Or.inl rfl⟩
  have two : ∀ {a b : List Item} {v u : List Nat}, (∀ i ∈ a, ∃ d, i = .tmp d ∧ (d = 0 ∨ d ∈ v)) →
      (∀ i ∈ b, ∃ d, i = .tmp d ∧ (d = 0 ∨ d ∈ u)) → ∀ i ∈ b ++ a, ∃ d, i = .tmp d ∧ (d = 0 ∨ d ∈ v ++ u) := by
    intro a b v u ha hb i hi
    rcases List.mem_append.mp hi with h | h
    · obtain ⟨d, rfl, h2⟩ := hb i h
      exact ⟨d, rfl, h2.imp id (fun h => List.mem_append_right _ h)⟩
    · obtain ⟨d, rfl, h2⟩ := ha i h
      exact ⟨d, rfl, h2.imp id (fun h => List.mem_append_left _ h)⟩
  unfold Common at hc
  induction e with
  | loc x => intro own w i h; simp [ev] at h
  | mv x d => intro own w i h; cases own <;> simp [ev] at h
  | unit d s =>
    intro own w i h
    have : s = false := by
      cases s with
      | false => rfl
      | true => exact absurd (by simp [Made, IsSpecial]) hc
    subst this
    simpa [visited] using fin own d [] _ _ i h (by simp)
  | cst d => exact absurd (by simp [Made, IsSpecial]) hc
  | lit =>
    intro own w i h
    simpa [visited] using fin own 0 [] _ _ i h (by simp)
  | call k d b a ih =>
    simp only [Made, not_or] at hc
    intro own w i h
    simp only [ev] at h
    exact fin own d _ _ _ i h (ih hc.2 true w)
  | ref a ih =>
    simp only [Made, not_or] at hc
    intro own w i h
    simp only [ev] at h
    exact fin0 own _ _ _ i h (ih hc.2 false w)
  | deref a ih =>
    simp only [Made, not_or] at hc
    intro own w i h
    exact ih hc.2 false w i h
  | field a ih =>
    simp only [Made, not_or] at hc
    intro own w i h
    exact ih hc.2 false w i h
  | index a b iha ihb =>
    simp only [Made, not_or] at hc
    intro own w i h
    exact two (iha hc.2.1 false w) (ihb hc.2.2 true _) i h
  | auto a ih =>
    simp only [Made, not_or] at hc
    intro own w i h
    simp only [ev] at h
    exact fin0 own _ _ _ i h (ih hc.2 false w)
  | rep d a => exact absurd (by simp [Made, IsSpecial]) hc
  | tup d a ih =>
    simp only [Made, not_or] at hc
    intro own w i h
    simp only [ev] at h
    exact fin own d _ _ _ i h (ih hc.2 true w)
  | bin k d a b iha ihb =>
    simp only [Made, not_or] at hc
    intro own w i h
    simp only [ev] at h
    have := fin own d _ _ _ i h (two (iha hc.2.1 true w) (ihb hc.2.2 true _))
    simpa [visited, List.append_assoc] using this
  | blk d s a _ ih =>
    simp only [Made, not_or] at hc
    intro own w i h
    cases ed with
    | e2021 =>
      simp only [ev] at h
      exact fin own d _ _ _ i h (ih hc.2 true _)
    | e2024 =>
      simp only [ev] at h
      exact fin own d _ _ _ i h (by simp)
  | mtch k d s a ihs _ =>
    simp only [Made, not_or] at hc
    intro own w i h
    simp only [ev] at h
    exact fin own d _ _ _ i h (ihs hc.2 false w)
  | ite k d c a b ihc _ _ =>
    simp only [Made, not_or] at hc
    intro own w i h
    simp only [ev] at h
    obtain ⟨x, hx, h⟩ := fin own d _ _ _ i h (ihc hc.2 true w)
    refine ⟨x, hx, h.imp id fun h => ?_⟩
    simp only [visited, List.append_assoc, List.mem_append] at h ⊢
    rcases h with h | h
    · exact Or.inl h
    · exact Or.inr (Or.inl h)
  | dropTemps d a _ =>
    intro own w i h
    simp only [ev] at h
    simpa [visited] using fin own d [] _ _ i h (by simp)
  | anil => intro own w i h; simp [ev] at h
  | acons a b iha ihb =>
    simp only [Made, not_or] at hc
    intro own w i h
    exact two (iha hc.2.1 true w) (ihb hc.2.2 true _) i h
  | snil => intro own w i h; simp [ev] at h
  | slet x a b => exact absurd (by simp [Made, IsSpecial]) hc
  | ssemi a b => exact absurd (by simp [Made, IsSpecial]) hc

theorem dropAll_same {I : Sem} : ∀ (l : List Item), (∀ i ∈ l, ∀ w, I.drop i w = w) → ∀ w, dropAll I l w = w
  | [], _, _ => rfl
  | i :: l, h, w => by
    simp only [dropAll]
    rw [h i List.mem_cons_self w]
    exact dropAll_same l (fun j hj => h j (List.mem_cons_of_mem _ hj)) w

theorem dropAll_append {I : Sem} : ∀ (a b : List Item) (w : I.W), dropAll I (a ++ b) w = dropAll I b (dropAll I a w)
  | [], _, _ => rfl
  | i :: a, b, w => by simp only [List.cons_append, dropAll]; exact dropAll_append a b _

/-- If no temporary is said to need an ordered drop, the drop of all that are left has no effect. -/
theorem temporaries_inert_partial (I : Sem) (ed : Edition) (ord : Nat → Bool) (hr : Right I ord) (e : E)
    (hc : Common e) (h : anyTemporaries ord e = false) (w : I.W) :
    ∀ i ∈ (ev I ed true e w).2.1, ∀ v, I.drop i v = v := by
  intro i hi v
  obtain ⟨d, rfl, hd⟩ := visited_partial I ed e hc true w i hi
  rcases hd with rfl | hd
  · exact I.nothing v
  · refine hr d ?_ v
    unfold anyTemporaries at h
    rw [List.any_eq_false] at h
    simpa using h d hd

/-- `f(&g(x)).len()` -/
example : anyTemporaries (fun d => d == 7) (.call 0 1 false (.acons (.ref (.call 1 5 false (.acons (.loc 0) .anil))) .anil)) = false ∧
    anyTemporaries (fun d => d == 5) (.call 0 1 false (.acons (.ref (.call 1 5 false (.acons (.loc 0) .anil))) .anil)) = true := by
  decide

/-- A program for the counterexamples: the world is the list of what was done, and the variables that were
moved. -/
def prog : Sem :=
  { W := List Nat × List Nat, act := fun k w => (w.1 ++ [k], w.2), move := fun x w => (w.1, x :: w.2),
    choose := fun _ w => if w.1.length < 3 then 0 else 1,
    drop := fun i w => match i with
      | .var x => if x ∈ w.2 then (w.1, w.2.erase x) else (w.1 ++ [100 + x], w.2)
      | .tmp d => if d = 0 then w else (w.1 ++ [200 + d], w.2),
    moved := by intro x w; simp,
    nothing := by intro w; simp }

/-- `[f(&g()); 3]` leaves a temporary that is not visited. -/
theorem repeat_unseen : visited true (.rep 1 (.call 0 0 false (.acons (.ref (.call 1 5 false .anil)) .anil))) = [] ∧
    (ev prog .e2021 true (.rep 1 (.call 0 0 false (.acons (.ref (.call 1 5 false .anil)) .anil))) ([], [])).2.1 = [.tmp 5] :=
  ⟨by decide, rfl⟩

/-- `f(&C)` for a constant whose type implements `Drop` leaves a temporary that is not visited. -/
theorem constant_unseen : visited true (.call 0 0 false (.acons (.ref (.cst 5)) .anil)) = [] ∧
    (ev prog .e2021 true (.call 0 0 false (.acons (.ref (.cst 5)) .anil)) ([], [])).2.1 = [.tmp 5] :=
  ⟨by decide, rfl⟩

/-- `f(&Self)` for a structure without fields, too. -/
theorem self_unseen : visited true (.call 0 0 false (.acons (.ref (.unit 5 true)) .anil)) = [] ∧
    (ev prog .e2021 true (.call 0 0 false (.acons (.ref (.unit 5 true)) .anil)) ([], [])).2.1 = [.tmp 5] :=
  ⟨by decide, rfl⟩

/-! ## Statements -/

theorem ev_type (I : Sem) (ed : Edition) (e : E) (w : I.W) (h : ¬ ∃ a r, e = .ssemi a r) : (ev I ed true e w).1 = tyOf e := by
  cases e with
  | blk => cases ed <;> simp [ev, tyOf, settle]
  | ssemi a r => exact absurd ⟨a, r, rfl⟩ h
  | _ => simp [ev, tyOf, settle]

theorem ev_snoc (I : Sem) (ed : Edition) (f : E → E) : ∀ (s : E), Stmts s → ∀ w,
    (ev I ed true (snoc s f) w).2.1 = (ev I ed true (f .snil) (ev I ed true s w).2.2).2.1 ++ (ev I ed true s w).2.1 ∧
    (ev I ed true (snoc s f) w).2.2 = (ev I ed true (f .snil) (ev I ed true s w).2.2).2.2
  | .snil, _, w => by simp [snoc, ev]
  | .slet x e rest, h, w => by
    obtain ⟨h1, h2⟩ := ev_snoc I ed f rest h (dropAll I (ev I ed true e w).2.1 (ev I ed true e w).2.2)
    constructor
    · simp only [snoc, ev]; rw [h1, List.append_assoc]
    · simp only [snoc, ev]; rw [h2]
  | .ssemi e rest, h, w => by
    simp only [snoc, ev]
    exact ev_snoc I ed f rest h _

theorem noLet_none (I : Sem) (ed : Edition) : ∀ (s : E), Stmts s → NoLet s → ∀ w, (ev I ed true s w).2.1 = []
  | .snil, _, _, _ => rfl
  | .slet _ _ _, _, h, _ => h.elim
  | .ssemi e rest, h, hn, w => by simp only [ev]; exact noLet_none I ed rest h hn _

/-- What a statement with a block does, with the `;` outside … -/
theorem outer (I : Sem) (ed : Edition) (s e rest : E) (w : I.W) :
    ev I ed true (.ssemi (.blk (tyOf e) s e) rest) w =
      (let l := ev I ed true s w
       let r := ev I ed true e l.2.2
       match ed with
       | .e2021 => ev I ed true rest (dropAll I (.tmp (tyOf e) :: r.2.1) (dropAll I l.2.1 r.2.2))
       | .e2024 => ev I ed true rest (I.drop (.tmp (tyOf e)) (dropAll I l.2.1 (dropAll I r.2.1 r.2.2)))) := by
  cases ed <;> simp [ev, settle, dropAll]

/-- … and inside. -/
theorem inner (I : Sem) (ed : Edition) (s e rest : E) (hs : Stmts s) (he : ¬ ∃ a r, e = .ssemi a r) (w : I.W) :
    ev I ed true (.ssemi (.blk 0 (snoc s (.ssemi e)) .lit) rest) w =
      (let l := ev I ed true s w
       let r := ev I ed true e l.2.2
       ev I ed true rest (dropAll I l.2.1 (dropAll I (.tmp (tyOf e) :: r.2.1) r.2.2))) := by
  obtain ⟨h1, h2⟩ := ev_snoc I ed (.ssemi e) s hs w
  have ht := ev_type I ed e (ev I ed true s w).2.2 he
  cases ed <;>
    simp only [ev, settle, if_true, h1, h2, ht, dropAll, List.nil_append] <;>
    rw [I.nothing]

/-- In every edition the place of the `;` makes no difference if neither the value nor a temporary of the tail
needs an ordered drop. -/
theorem moved_same (I : Sem) (ed : Edition) (ord : Nat → Bool) (hr : Right I ord) (s e rest : E) (hs : Stmts s)
    (he : Common e) (hv : ord (tyOf e) = false) (ht : anyTemporaries ord e = false) (w : I.W) :
    ev I ed true (.ssemi (.blk (tyOf e) s e) rest) w =
      ev I ed true (.ssemi (.blk 0 (snoc s (.ssemi e)) .lit) rest) w := by
  have hne : ¬ ∃ a r, e = .ssemi a r := by
    rintro ⟨a, r, rfl⟩; exact he (by simp [Made, IsSpecial])
  rw [outer, inner I ed s e rest hs hne]
  have h1 := temporaries_inert_partial I ed ord hr e he ht (ev I ed true s w).2.2
  have hv' := hr _ hv
  cases ed with
  | e2021 =>
    simp only [dropAll]
    rw [dropAll_same _ h1, dropAll_same _ h1, hv', hv']
  | e2024 =>
    simp only [dropAll]
    rw [dropAll_same _ h1, dropAll_same _ h1, hv', hv']

/-- The suggestion to put the `;` inside keeps what the statement does. Missing: values and temporaries with
an ordered drop — see `inside_2021`, `inside_2024_value`. -/
theorem inside_partial (I : Sem) (ed : Edition) (ord : Nat → Bool) (hr : Right I ord) (targeted paren oneLine : Bool)
    (s e rest b : E) (h : inside targeted paren oneLine s e = some b) (hs : Stmts s) (he : Common e)
    (hv : ord (tyOf e) = false) (ht : anyTemporaries ord e = false) (w : I.W) :
    ev I ed true (.ssemi (.blk (tyOf e) s e) rest) w = ev I ed true (.ssemi b rest) w ∧ WellTyped targeted 0 := by
  have : b = .blk 0 (snoc s (.ssemi e)) .lit := by
    unfold inside at h
    cases targeted <;> cases paren <;> cases oneLine <;> simp at h
    exact h.2.symm
  subst this
  exact ⟨moved_same I ed ord hr s e rest hs he hv ht w, fun _ => rfl⟩

/-- There is such a suggestion unless the label is used, there is a parenthesis, or the option says no. -/
theorem inside_found (s e : E) (he : e ≠ .lit) :
    inside false false false s e = some (.blk 0 (snoc s (.ssemi e)) .lit) := by
  simp [inside, he]

/-- With the temporaries of edition 2024, only the value matters. -/
theorem inside_2024 (I : Sem) (s e rest b : E) (targeted paren oneLine : Bool)
    (h : inside targeted paren oneLine s e = some b) (hs : Stmts s) (he : ¬ ∃ a r, e = .ssemi a r)
    (hv : Inert I (tyOf e)) (w : I.W) :
    ev I .e2024 true (.ssemi (.blk (tyOf e) s e) rest) w = ev I .e2024 true (.ssemi b rest) w := by
  have : b = .blk 0 (snoc s (.ssemi e)) .lit := by
    unfold inside at h
    cases targeted <;> cases paren <;> cases oneLine <;> simp at h
    exact h.2.symm
  subst this
  rw [outer, inner I .e2024 s e rest hs he]
  simp only [dropAll]
  rw [hv, hv]

/-- Without variables in the block there is no difference in edition 2021. -/
theorem inside_2021_alone (I : Sem) (s e rest b : E) (targeted paren oneLine : Bool)
    (h : inside targeted paren oneLine s e = some b) (hs : Stmts s) (hn : NoLet s) (he : ¬ ∃ a r, e = .ssemi a r)
    (w : I.W) :
    ev I .e2021 true (.ssemi (.blk (tyOf e) s e) rest) w = ev I .e2021 true (.ssemi b rest) w := by
  have : b = .blk 0 (snoc s (.ssemi e)) .lit := by
    unfold inside at h
    cases targeted <;> cases paren <;> cases oneLine <;> simp at h
    exact h.2.symm
  subst this
  rw [outer, inner I .e2021 s e rest hs he]
  simp only [noLet_none I .e2021 s hs hn w, dropAll]

/-- `{ let a = A; f(&B()) };` in edition 2021: `a` is dropped before the temporary, and after it with the `;`
inside. -/
theorem inside_2021 :
    inside false false false (.slet 0 (.call 1 1 false .anil) .snil) (.call 2 0 false (.acons (.ref (.call 3 5 false .anil)) .anil)) =
      some (.blk 0 (.slet 0 (.call 1 1 false .anil) (.ssemi (.call 2 0 false (.acons (.ref (.call 3 5 false .anil)) .anil)) .snil)) .lit) ∧
    (ev prog .e2021 true (.ssemi (.blk 0 (.slet 0 (.call 1 1 false .anil) .snil)
      (.call 2 0 false (.acons (.ref (.call 3 5 false .anil)) .anil))) .snil) ([], [])).2.2 = ([1, 3, 2, 100, 205], []) ∧
    (ev prog .e2021 true (.ssemi (.blk 0 (.slet 0 (.call 1 1 false .anil)
      (.ssemi (.call 2 0 false (.acons (.ref (.call 3 5 false .anil)) .anil)) .snil)) .lit) .snil) ([], [])).2.2 =
        ([1, 3, 2, 205, 100], []) :=
  ⟨by decide, rfl, rfl⟩

/-- `{ let a = A; B() };` in edition 2024: the value is dropped after `a`, and before it with the `;` inside. -/
theorem inside_2024_value :
    inside false false false (.slet 0 (.call 1 1 false .anil) .snil) (.call 3 5 false .anil) =
      some (.blk 0 (.slet 0 (.call 1 1 false .anil) (.ssemi (.call 3 5 false .anil) .snil)) .lit) ∧
    (ev prog .e2024 true (.ssemi (.blk 5 (.slet 0 (.call 1 1 false .anil) .snil) (.call 3 5 false .anil)) .snil) ([], [])).2.2 =
      ([1, 3, 100, 205], []) ∧
    (ev prog .e2024 true (.ssemi (.blk 0 (.slet 0 (.call 1 1 false .anil) (.ssemi (.call 3 5 false .anil) .snil)) .lit) .snil) ([], [])).2.2 =
      ([1, 3, 205, 100], []) :=
  ⟨by decide, rfl, rfl⟩

theorem lastSemi_snoc : ∀ (s s' e : E), Stmts s → lastSemi s = some (s', e) → s = snoc s' (.ssemi e) ∧ Stmts s'
  | .ssemi a r, s', e, hs, h => by
    by_cases hr : r = .snil
    · subst hr
      simp only [lastSemi, Option.some.injEq, Prod.mk.injEq] at h
      obtain ⟨rfl, rfl⟩ := h
      exact ⟨rfl, trivial⟩
    · have : lastSemi (.ssemi a r) = match lastSemi r with
          | some (s, l) => some (.ssemi a s, l)
          | none => none := by
        cases r <;> first | rfl | exact absurd rfl hr
      rw [this] at h
      split at h
      · rename_i s1 l1 h1
        simp only [Option.some.injEq, Prod.mk.injEq] at h
        obtain ⟨rfl, rfl⟩ := h
        obtain ⟨e1, e2⟩ := lastSemi_snoc r s1 l1 hs h1
        exact ⟨by simp only [snoc]; rw [← e1], e2⟩
      · cases h
  | .slet x a r, s', e, hs, h => by
    simp only [lastSemi] at h
    split at h
    · rename_i s1 l1 h1
      simp only [Option.some.injEq, Prod.mk.injEq] at h
      obtain ⟨rfl, rfl⟩ := h
      obtain ⟨e1, e2⟩ := lastSemi_snoc r s1 l1 hs h1
      exact ⟨by simp only [snoc]; rw [← e1], e2⟩
    · cases h
  | .snil, _, _, _, h => by simp [lastSemi] at h

/-- The suggestion to put the `;` outside keeps what the statement does. Missing: as for `inside_partial`, and
labels — see `outside_label`. -/
theorem outside_partial (I : Sem) (ed : Edition) (ord : Nat → Bool) (hr : Right I ord) (targeted multiLine : Bool)
    (s rest b : E) (hs : Stmts s) (h : outside targeted multiLine s = some b) :
    ∃ s' e, b = .blk (tyOf e) s' e ∧ s = snoc s' (.ssemi e) ∧
      (Common e → ord (tyOf e) = false → anyTemporaries ord e = false →
        ∀ w, ev I ed true (.ssemi b rest) w = ev I ed true (.ssemi (.blk 0 s .lit) rest) w) := by
  unfold outside at h
  cases multiLine with
  | true => simp at h
  | false =>
    simp only [Bool.false_eq_true, if_false] at h
    split at h
    · rename_i s' e hl
      simp only [Option.some.injEq] at h
      obtain ⟨e1, e2⟩ := lastSemi_snoc s s' e hs hl
      refine ⟨s', e, h.symm, e1, fun hc hv ht w => ?_⟩
      subst h
      rw [e1]
      exact moved_same I ed ord hr s' e rest e2 hc hv ht w
    · cases h

example : outside false false (.slet 0 .lit (.ssemi (.call 1 0 false .anil) .snil)) =
    some (.blk 0 (.slet 0 .lit .snil) (.call 1 0 false .anil)) := by decide

/-- `'a: { if c { break 'a } f(); }` becomes `'a: { if c { break 'a } f() };`, which is not well-typed unless
`f()` is `()`. -/
theorem outside_label : outside true false (.ssemi (.call 1 5 false .anil) .snil) = some (.blk 5 .snil (.call 1 5 false .anil)) ∧
    ¬ WellTyped true 5 := ⟨by decide, fun h => absurd (h rfl) (by decide)⟩

/-! ## `let` and return -/

theorem lastLet_snoc : ∀ (s s' : E) (x : Nat) (e : E), Stmts s → lastLet s = some (s', x, e) →
    s = snoc s' (.slet x e) ∧ Stmts s'
  | .slet y a r, s', x, e, hs, h => by
    by_cases hr : r = .snil
    · subst hr
      simp only [lastLet, Option.some.injEq, Prod.mk.injEq] at h
      obtain ⟨rfl, rfl, rfl⟩ := h
      exact ⟨rfl, trivial⟩
    · have : lastLet (.slet y a r) = match lastLet r with
          | some (s, l) => some (.slet y a s, l)
          | none => none := by
        cases r <;> first | rfl | exact absurd rfl hr
      rw [this] at h
      split at h
      · rename_i s1 l1 h1
        simp only [Option.some.injEq, Prod.mk.injEq] at h
        obtain ⟨rfl, h2⟩ := h
        subst h2
        obtain ⟨e1, e2⟩ := lastLet_snoc r s1 x e hs h1
        exact ⟨by simp only [snoc]; rw [← e1], e2⟩
      · cases h
  | .ssemi a r, s', x, e, hs, h => by
    simp only [lastLet] at h
    split at h
    · rename_i s1 l1 h1
      simp only [Option.some.injEq, Prod.mk.injEq] at h
      obtain ⟨rfl, h2⟩ := h
      subst h2
      obtain ⟨e1, e2⟩ := lastLet_snoc r s1 x e hs h1
      exact ⟨by simp only [snoc]; rw [← e1], e2⟩
    · cases h
  | .snil, _, _, _, _, h => by simp [lastLet] at h

theorem letAndReturn_inv {ed : Edition} {d d' x : Nat} {s b : E} (hs : Stmts s)
    (h : letAndReturn ed (.blk d s (.mv x d')) = some b) :
    ∃ s' e, b = .blk d s' e ∧ s = snoc s' (.slet x e) ∧ Stmts s' := by
  simp only [letAndReturn] at h
  split at h
  · rename_i s' y e hl
    by_cases hc : x = y ∧ (ed = .e2024 ∨ borrows e = false)
    · rw [if_pos hc] at h
      obtain ⟨rfl, _⟩ := hc
      simp only [Option.some.injEq] at h
      obtain ⟨e1, e2⟩ := lastLet_snoc s s' x e hs hl
      exact ⟨s', e, h.symm, e1, e2⟩
    · rw [if_neg hc] at h; cases h
  · cases h

/-- The world after `{ s; let x = e; x }`, in every edition. -/
theorem let_block (I : Sem) (ed : Edition) (own : Bool) (d d' x : Nat) (s e : E) (hs : Stmts s) (w : I.W) :
    ev I ed own (.blk d (snoc s (.slet x e)) (.mv x d')) w =
      (let l := ev I ed true s w
       let r := ev I ed true e l.2.2
       settle own (d, [], dropAll I l.2.1 (dropAll I r.2.1 r.2.2))) := by
  obtain ⟨h1, h2⟩ := ev_snoc I ed (.slet x e) s hs w
  cases ed <;>
    simp only [ev, settle, if_true, h1, h2, List.nil_append, List.singleton_append, dropAll] <;>
    rw [I.moved]

/-- In edition 2024 the result is the same: value, what is left to drop, and all that was done. -/
theorem let_return_2024 (I : Sem) (own : Bool) (d d' x : Nat) (s b : E) (hs : Stmts s)
    (h : letAndReturn .e2024 (.blk d s (.mv x d')) = some b) (w : I.W) :
    ev I .e2024 own (.blk d s (.mv x d')) w = ev I .e2024 own b w := by
  obtain ⟨s', e, rfl, rfl, hs'⟩ := letAndReturn_inv hs h
  rw [let_block I .e2024 own d d' x s' e hs' w]
  simp only [ev]

/-- `{ f(); let x = g(&T()); x }` -/
example : letAndReturn .e2024 (.blk 5 (.ssemi (.call 1 0 false .anil)
    (.slet 0 (.call 2 5 true (.acons (.ref (.call 3 6 false .anil)) .anil)) .snil)) (.mv 0 5)) =
    some (.blk 5 (.ssemi (.call 1 0 false .anil) .snil) (.call 2 5 true (.acons (.ref (.call 3 6 false .anil)) .anil))) ∧
  letAndReturn .e2021 (.blk 5 (.ssemi (.call 1 0 false .anil)
    (.slet 0 (.call 2 5 true (.acons (.ref (.call 3 6 false .anil)) .anil)) .snil)) (.mv 0 5)) = none := by decide

/-- In edition 2021 it is the same if no temporary needs an ordered drop. Missing: the others — see
`let_return_2021`. -/
theorem let_return_2021_partial (I : Sem) (ord : Nat → Bool) (hr : Right I ord) (d d' x : Nat) (s b : E)
    (hs : Stmts s) (h : letAndReturn .e2021 (.blk d s (.mv x d')) = some b) :
    ∃ s' e, b = .blk d s' e ∧ (Common e → anyTemporaries ord e = false → ∀ w,
      (ev I .e2021 true (.blk d s (.mv x d')) w).1 = (ev I .e2021 true b w).1 ∧
      (ev I .e2021 true (.blk d s (.mv x d')) w).2.2 = (ev I .e2021 true b w).2.2 ∧
      (ev I .e2021 true (.blk d s (.mv x d')) w).2.1 = [] ∧
      ∀ i ∈ (ev I .e2021 true b w).2.1, ∀ v, I.drop i v = v) := by
  obtain ⟨s', e, rfl, rfl, hs'⟩ := letAndReturn_inv hs h
  refine ⟨s', e, rfl, fun hc ht w => ?_⟩
  have h1 := temporaries_inert_partial I .e2021 ord hr e hc ht (ev I .e2021 true s' w).2.2
  rw [let_block I .e2021 true d d' x s' e hs' w]
  simp only [ev, settle, if_true]
  exact ⟨trivial, by rw [dropAll_same _ h1], trivial, h1⟩

/-- In edition 2021 a call whose result may borrow from its arguments stays in the `let`, also one that stands
in front of a `?`, a field or an operator. -/
theorem borrowing_kept (d d' x : Nat) (s b : E) (h : letAndReturn .e2021 (.blk d s (.mv x d')) = some b) :
    ∃ s' e, b = .blk d s' e ∧ (∀ k t a, e ≠ .call k t true a) ∧ (∀ k t a, e ≠ .field (.call k t true a)) ∧
      ∀ o t k u a c, e ≠ .bin o t (.call k u true a) c := by
  simp only [letAndReturn] at h
  split at h
  · rename_i s' y e hl
    by_cases hc : x = y ∧ (Edition.e2021 = .e2024 ∨ borrows e = false)
    · rw [if_pos hc] at h
      have hb : borrows e = false := hc.2.resolve_left (by decide)
      refine ⟨s', e, (Option.some.inj h).symm, ?_, ?_, ?_⟩ <;> (intros; rintro rfl; simp [borrows] at hb)
    · rw [if_neg hc] at h; cases h
  · cases h

/-- `{ f(); let x = g(T()); x }` -/
example : letAndReturn .e2021 (.blk 5 (.ssemi (.call 1 0 false .anil)
    (.slet 0 (.call 2 5 false (.acons (.call 3 6 false .anil) .anil)) .snil)) (.mv 0 5)) =
    some (.blk 5 (.ssemi (.call 1 0 false .anil) .snil) (.call 2 5 false (.acons (.call 3 6 false .anil) .anil))) := by
  decide

/-- `{ let a = A(); let x = g(&T()); x }` in edition 2021: the temporary was dropped before `a`, and outlives
the block in the suggestion. -/
theorem let_return_2021 :
    letAndReturn .e2021 (.blk 0 (.slet 1 (.call 1 0 false .anil) (.slet 0 (.call 2 0 false (.acons (.ref (.call 3 5 false .anil)) .anil)) .snil))
      (.mv 0 0)) = some (.blk 0 (.slet 1 (.call 1 0 false .anil) .snil) (.call 2 0 false (.acons (.ref (.call 3 5 false .anil)) .anil))) ∧
    (ev prog .e2021 true (.blk 0 (.slet 1 (.call 1 0 false .anil)
      (.slet 0 (.call 2 0 false (.acons (.ref (.call 3 5 false .anil)) .anil)) .snil)) (.mv 0 0)) ([], [])).2 =
        ([], [1, 3, 2, 205, 101], []) ∧
    (ev prog .e2021 true (.blk 0 (.slet 1 (.call 1 0 false .anil) .snil)
      (.call 2 0 false (.acons (.ref (.call 3 5 false .anil)) .anil))) ([], [])).2 = ([.tmp 5], [1, 3, 2, 101], []) :=
  ⟨by decide, rfl, rfl⟩

/-! ## Loops -/

theorem visited_type (e : E) : ∀ d ∈ visited false e, d = tyOf e ∨ d ∈ visited true e := by
  intro d h
  cases e with
  | unit t s => cases s <;> simp_all [visited, call, tyOf]
  | _ => simp_all [visited, call, tyOf]

/-- A loop that is said to be a `while let` loop does the same as one: in every round, for every body.
Missing: as for `visited_partial`; and a `let … else` without further statements — see `last_let_else`. -/
theorem while_let_partial (I : Sem) (ed : Edition) (ord : Nat → Bool) (hr : Right I ord) (f : Form) (trailing : Bool)
    (d : Nat) (e : E) (h : couldBeWhileLet ord trailing d e = true) (hc : Common e) (hd : tyOf e = 0 ∨ tyOf e = d)
    (k : Nat) (binds : List Item) (hb : ord d = false → ∀ i ∈ binds, ∀ w, I.drop i w = w) (first rest : I.W → I.W)
    (ht : trailing = false → f ≠ .letElse ∧ ∀ w, rest w = w) (n : Nat) (w : I.W) :
    looped I ed f e k binds first rest n w = looped I ed .whileLet e k binds first rest n w := by
  induction n generalizing w with
  | zero => rfl
  | succ n ih =>
    have key : bodyOf I (ev I ed false e w).2.1 binds first rest f (ev I ed false e w).2.2 =
        bodyOf I (ev I ed false e w).2.1 binds first rest .whileLet (ev I ed false e w).2.2 := by
      cases trailing with
      | false =>
        obtain ⟨hf, hrest⟩ := ht rfl
        cases f with
        | ifLet => simp only [bodyOf, hrest]
        | letElse => exact absurd rfl hf
        | whileLet => rfl
      | true =>
        simp only [couldBeWhileLet, Bool.true_and, Bool.not_eq_true', Bool.or_eq_false_iff] at h
        have hl : ∀ i ∈ (ev I ed false e w).2.1, ∀ v, I.drop i v = v := by
          intro i hi v
          obtain ⟨t, rfl, hv⟩ := visited_partial I ed e hc false w i hi
          rcases hv with rfl | hv
          · exact I.nothing v
          · rcases visited_type e t hv with rfl | hv
            · rcases hd with h0 | h0
              · rw [h0]; exact I.nothing v
              · rw [h0]; exact hr d h.1 v
            · refine hr t ?_ v
              have := h.2
              unfold anyTemporaries at this
              rw [List.any_eq_false] at this
              simpa using this t hv
        have hb' := hb h.1
        cases f <;> simp only [bodyOf, dropAll_same _ hl, dropAll_same _ hb']
    unfold looped
    simp only [key]
    split
    · exact ih _
    · rfl

example : couldBeWhileLet (fun d => d == 7) true 3 (.call 1 3 false (.acons (.ref (.loc 0)) .anil)) = true ∧
    couldBeWhileLet (fun d => d == 3) true 3 (.call 1 3 false (.acons (.ref (.loc 0)) .anil)) = false ∧
    couldBeWhileLet (fun d => d == 3) false 3 (.call 1 3 false (.acons (.ref (.loc 0)) .anil)) = true := by decide

/-- A constant is dropped after the rest of the body in the suggestion, and was dropped before. -/
theorem while_let_constant :
    couldBeWhileLet (fun d => d == 5) true 0 (.call 1 0 false (.acons (.ref (.cst 5)) .anil)) = true ∧
    looped prog .e2021 .ifLet (.call 1 0 false (.acons (.ref (.cst 5)) .anil)) 0 [] id (prog.act 9) 3 ([], []) =
      some ([1, 205, 9, 1, 205], []) ∧
    looped prog .e2021 .whileLet (.call 1 0 false (.acons (.ref (.cst 5)) .anil)) 0 [] id (prog.act 9) 3 ([], []) =
      some ([1, 9, 205, 1, 205], []) :=
  ⟨by decide, rfl, rfl⟩

/-- `loop { let Some(x) = f(&T()) else { break }; }` drops the temporary before `x`, and after it in the
suggestion. -/
theorem last_let_else :
    couldBeWhileLet (fun _ => true) false 1 (.call 1 1 false (.acons (.ref (.call 2 5 false .anil)) .anil)) = true ∧
    looped prog .e2021 .letElse (.call 1 0 false (.acons (.ref (.call 2 5 false .anil)) .anil)) 0 [.var 3] id id 3 ([], []) =
      some ([2, 1, 205, 103, 2, 1, 205], []) ∧
    looped prog .e2021 .whileLet (.call 1 0 false (.acons (.ref (.call 2 5 false .anil)) .anil)) 0 [.var 3] id id 3 ([], []) =
      some ([2, 1, 103, 205, 2, 1, 205], []) :=
  ⟨by decide, rfl, rfl⟩

end Verif.Drops
