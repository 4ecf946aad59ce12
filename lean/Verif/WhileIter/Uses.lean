import Verif.WhileIter.Spec
import Verif.WhileIter.Model

/-!
# The search for uses finds every access
-/

namespace Verif.WhileIter

/-- No field is selected through a call of `deref` that the compiler puts in. -/
def noAuto : Expr → Bool
  | .lit _ | .brk | .path _ => true
  | .auto _ => false
  | .field e _ | .deref _ e | .wrap e | .addr e | .one _ e => noAuto e
  | .index a b | .two _ a b | .here _ a b => noAuto a && noAuto b

/-- There is no `let`-`else`. -/
def noElse : Expr → Bool
  | .lit _ | .brk | .path _ => true
  | .field e _ | .deref _ e | .wrap e | .addr e | .auto e | .one _ e => noElse e
  | .two (.letElse _) _ _ => false
  | .index a b | .two _ a b | .here _ a b => noElse a && noElse b

theorem parse_place : ∀ (e : Expr) (acc : List Field) (mv : Bool) (fs : List Field) (x : Var) (mv' : Bool),
    parse e acc mv = some (fs, x, mv') →
    ∃ p ex, (place e).1 = some ⟨x, p, ex⟩ ∧ fs = (if ex then acc else []) ++ p.reverse ∧
      (mv' = true → ex = true) ∧ quiet e = true
  | .path y, acc, mv, fs, x, mv', h => by
    simp only [parse, Option.some.injEq, Prod.mk.injEq] at h
    obtain ⟨rfl, rfl, rfl⟩ := h
    exact ⟨[], true, rfl, by simp, fun _ => rfl, rfl⟩
  | .field e f, acc, mv, fs, x, mv', h => by
    obtain ⟨p, ex, h1, h2, h3, h4⟩ := parse_place e _ _ _ _ _ h
    cases ex with
    | true => exact ⟨p ++ [f], true, by simp [place, h1, Place.select], by simp [h2], fun _ => rfl, h4⟩
    | false => exact ⟨p, false, by simp [place, h1, Place.select], by simpa using h2, h3, h4⟩
  | .deref true e, acc, mv, fs, x, mv', h => by
    obtain ⟨p, ex, h1, h2, h3, h4⟩ := parse_place e _ _ _ _ _ h
    exact ⟨p, ex, h1, h2, h3, h4⟩
  | .deref false e, acc, mv, fs, x, mv', h => by
    obtain ⟨p, ex, h1, h2, h3, h4⟩ := parse_place e _ _ _ _ _ h
    refine ⟨p, false, by simp [place, h1, Place.all], by simpa using h2, ?_, h4⟩
    intro hm
    exact absurd hm (parse_false e _ _ _ _ h)
  | .index e i, acc, mv, fs, x, mv', h => by
    simp only [parse] at h
    split at h
    · rename_i hq
      obtain ⟨p, ex, h1, h2, h3, h4⟩ := parse_place e _ _ _ _ _ h
      refine ⟨p, false, by simp [place, h1, Place.all], by simpa using h2, ?_, by simp [quiet, h4, hq]⟩
      intro hm
      exact absurd hm (parse_false e _ _ _ _ h)
    · exact nomatch h
  | .auto e, acc, mv, fs, x, mv', h => by
    obtain ⟨p, ex, h1, h2, h3, h4⟩ := parse_place e _ _ _ _ _ h
    refine ⟨p, false, by simp [place, h1, Place.all], by simpa using h2, ?_, h4⟩
    intro hm
    exact absurd hm (parse_false e _ _ _ _ h)
  | .wrap e, acc, mv, fs, x, mv', h => by
    obtain ⟨p, ex, h1, h2, h3, h4⟩ := parse_place e _ _ _ _ _ h
    exact ⟨p, ex, h1, h2, h3, h4⟩
  | .addr e, acc, mv, fs, x, mv', h => by
    obtain ⟨p, ex, h1, h2, h3, h4⟩ := parse_place e _ _ _ _ _ h
    exact ⟨p, ex, h1, h2, h3, h4⟩
  | .lit _, _, _, _, _, _, h => nomatch h
  | .brk, _, _, _, _, _, h => nomatch h
  | .one _ _, _, _, _, _, _, h => nomatch h
  | .two _ _ _, _, _, _, _, _, h => nomatch h
  | .here _ _ _, _, _, _, _, _, h => nomatch h
where
  parse_false : ∀ (e : Expr) (acc fs : List Field) (x : Var) (mv : Bool),
      parse e acc false = some (fs, x, mv) → ¬ mv = true
    | .path y, acc, fs, x, mv, h => by
      simp only [parse, Option.some.injEq, Prod.mk.injEq] at h
      simp [← h.2.2]
    | .field e f, _, _, _, _, h => parse_false e _ _ _ _ h
    | .deref true e, _, _, _, _, h => parse_false e _ _ _ _ h
    | .deref false e, _, _, _, _, h => parse_false e _ _ _ _ h
    | .index e i, _, _, _, _, h => by
      simp only [parse] at h
      split at h
      · exact parse_false e _ _ _ _ h
      · exact nomatch h
    | .auto e, _, _, _, _, h => parse_false e _ _ _ _ h
    | .wrap e, _, _, _, _, h => parse_false e _ _ _ _ h
    | .addr e, _, _, _, _, h => parse_false e _ _ _ _ h
    | .lit _, _, _, _, _, h => nomatch h
    | .brk, _, _, _, _, h => nomatch h
    | .one _ _, _, _, _, _, h => nomatch h
    | .two _ _ _, _, _, _, _, h => nomatch h
    | .here _ _ _, _, _, _, _, h => nomatch h

/-- The variable left when all fields are stripped off. -/
def stem : Expr → Option Var
  | .path x => some x
  | .field e _ | .wrap e | .auto e => stem e
  | _ => none

theorem stem_place : ∀ (e : Expr) (y : Var), stem e = some y →
    ∃ q ex, place e = (some ⟨y, q, ex⟩, []) ∧ (noAuto e = true → ex = true)
  | .path x, y, h => by
    simp only [stem, Option.some.injEq] at h
    exact ⟨[], true, by simp [place, h], fun _ => rfl⟩
  | .field e f, y, h => by
    obtain ⟨q, ex, h1, h2⟩ := stem_place e y h
    cases ex with
    | true => exact ⟨q ++ [f], true, by simp [place, h1, Place.select], fun _ => rfl⟩
    | false => exact ⟨q, false, by simp [place, h1, Place.select], h2⟩
  | .wrap e, y, h => by
    obtain ⟨q, ex, h1, h2⟩ := stem_place e y h
    exact ⟨q, ex, h1, h2⟩
  | .auto e, y, h => by
    obtain ⟨q, ex, h1, h2⟩ := stem_place e y h
    exact ⟨q, false, by simp [place, h1, Place.all], by simp [noAuto]⟩

theorem sameField_stem (x : Var) : ∀ (e : Expr) (y : Var) (q fs : List Field), stem e = some y → noAuto e = true →
    (place e).1 = some ⟨y, q, true⟩ → (sameField x e fs = true ↔ y = x ∧ fs = q.reverse)
  | .path z, y, q, fs, h, _, hp => by
    simp only [stem, Option.some.injEq] at h
    simp only [place, Option.some.injEq, Place.mk.injEq] at hp
    cases fs with
    | nil => simp [sameField, ← hp.2.1, h]
    | cons a as => simp [sameField, ← hp.2.1]
  | .field e f, y, q, fs, h, hn, hp => by
    obtain ⟨q', ex, h1, h2⟩ := stem_place e y h
    have : ex = true := h2 hn
    subst this
    simp only [place, h1, Option.map, Place.select, Option.some.injEq, Place.mk.injEq, if_true] at hp
    obtain ⟨_, rfl, _⟩ := hp
    cases fs with
    | nil => simp [sameField]
    | cons a as =>
      have ih := sameField_stem x e y q' as h hn (by rw [h1])
      simp only [sameField, Bool.and_eq_true, beq_iff_eq, ih]
      simp only [List.reverse_append, List.reverse_cons, List.reverse_nil, List.nil_append, List.cons_append,
        List.cons.injEq]
      constructor
      · rintro ⟨a, b, c⟩; exact ⟨b, a.symm, c⟩
      · rintro ⟨a, b, c⟩; exact ⟨b.symm, a, c⟩
  | .wrap e, y, q, fs, h, hn, hp => by
    have := sameField_stem x e y q fs h hn hp
    simpa [sameField] using this

theorem sameOrParent_iff (x : Var) (e : Expr) (f : Field) (y : Var) (q : List Field) (hs : stem e = some y)
    (hn : noAuto e = true) (hp : (place e).1 = some ⟨y, q, true⟩) : ∀ fs : List Field,
    (sameOrParent x e f fs = true ↔ y = x ∧ f :: q.reverse <:+ fs)
  | [] => by simp [sameOrParent]
  | g :: fs => by
    have ih := sameOrParent_iff x e f y q hs hn hp fs
    have h1 := sameField_stem x e y q fs hs hn hp
    simp only [sameOrParent, Bool.or_eq_true, Bool.and_eq_true, beq_iff_eq, h1, ih, List.suffix_cons_iff,
      List.cons.injEq]
    constructor
    · rintro (⟨a, b, c⟩ | ⟨a, b⟩)
      · exact ⟨b, Or.inl ⟨a, c.symm⟩⟩
      · exact ⟨a, Or.inr b⟩
    · rintro ⟨a, ⟨b, c⟩ | b⟩
      · exact Or.inl ⟨b, a, c.symm⟩
      · exact Or.inr ⟨a, b⟩

theorem child_iff (x : Var) (fs : List Field) : ∀ (e : Expr) (y : Var) (q : List Field), stem e = some y →
    noAuto e = true → (place e).1 = some ⟨y, q, true⟩ → (child x fs e = true ↔ y = x ∧ fs <:+ q.reverse)
  | .path z, y, q, h, _, hp => by
    simp only [stem, Option.some.injEq] at h
    simp only [place, Option.some.injEq, Place.mk.injEq] at hp
    obtain ⟨_, rfl, _⟩ := hp
    simp only [child, Bool.and_eq_true, beq_iff_eq, List.isEmpty_iff, List.reverse_nil, List.suffix_nil, h]
    exact and_comm
  | .field e f, y, q, h, hn, hp => by
    obtain ⟨q', ex, h1, h2⟩ := stem_place e y h
    have hx : ex = true := h2 hn
    subst hx
    have hs := sameField_stem x (.field e f) y q fs h hn hp
    simp only [place, h1, Option.map, Place.select, Option.some.injEq, Place.mk.injEq, if_true] at hp
    obtain ⟨_, rfl, _⟩ := hp
    have ih := child_iff x fs e y q' h hn (by rw [h1])
    simp only [child, Bool.or_eq_true, hs, ih, List.reverse_append, List.reverse_cons, List.reverse_nil,
      List.nil_append, List.cons_append, List.suffix_cons_iff]
    constructor
    · rintro (⟨a, b⟩ | ⟨a, b⟩)
      · exact ⟨a, Or.inl b⟩
      · exact ⟨a, Or.inr b⟩
    · rintro ⟨a, b | b⟩
      · exact Or.inl ⟨a, b⟩
      · exact Or.inr ⟨a, b⟩
  | .wrap e, y, q, h, hn, hp => by
    have := child_iff x fs e y q h hn hp
    simpa [child] using this

/-- On fields of variables `is_expr_same_child_or_parent_field` is exact. -/
theorem related_iff (x : Var) (p : List Field) : ∀ (e : Expr) (y : Var) (q : List Field), stem e = some y →
    noAuto e = true → (place e).1 = some ⟨y, q, true⟩ →
    (related x p.reverse e = true ↔ y = x ∧ Overlap p q)
  | .path z, y, q, h, _, hp => by
    simp only [stem, Option.some.injEq] at h
    simp only [place, Option.some.injEq, Place.mk.injEq] at hp
    obtain ⟨_, rfl, _⟩ := hp
    simp [related, h, Overlap]
  | .field e f, y, q, h, hn, hp => by
    obtain ⟨q', ex, h1, h2⟩ := stem_place e y h
    have hx : ex = true := h2 hn
    subst hx
    simp only [place, h1, Option.map, Place.select, Option.some.injEq, Place.mk.injEq, if_true] at hp
    obtain ⟨_, rfl, _⟩ := hp
    have i1 := sameOrParent_iff x e f y q' h hn (by rw [h1]) p.reverse
    have i2 := child_iff x p.reverse e y q' h hn (by rw [h1])
    have e1 : f :: q'.reverse = (q' ++ [f]).reverse := by simp
    simp only [related, Bool.or_eq_true, i1, i2, e1, List.reverse_suffix, Overlap]
    constructor
    · rintro (⟨a, b⟩ | ⟨a, b⟩)
      · exact ⟨a, Or.inr b⟩
      · exact ⟨a, Or.inl (b.trans (List.prefix_append _ _))⟩
    · rintro ⟨a, b | b⟩
      · rcases List.prefix_concat_iff.1 b with rfl | c
        · exact Or.inl ⟨a, List.prefix_rfl⟩
        · exact Or.inr ⟨a, c⟩
      · exact Or.inl ⟨a, b⟩
  | .wrap e, y, q, h, hn, hp => by
    have := related_iff x p e y q h hn hp
    simpa [related] using this

theorem child_nil (x : Var) : ∀ e : Expr, stem e = some x → child x [] e = true
  | .path z, h => by
    simp only [stem, Option.some.injEq] at h
    simp [child, h]
  | .field e f, h => by simp [child, child_nil x e h]
  | .wrap e, h => by simp [child, child_nil x e h]
  | .auto e, h => by simp [child, child_nil x e h]

theorem related_nil (x : Var) : ∀ e : Expr, stem e = some x → related x [] e = true
  | .path z, h => by
    simp only [stem, Option.some.injEq] at h
    simp [related, h]
  | .field e f, h => by simp [related, child_nil x e h]
  | .wrap e, h => by simp [related, related_nil x e h]
  | .auto e, h => by simp [related, related_nil x e h]

/-- An access that is not one of the iterator at the fields `p` of `x`. -/
def Safe (x : Var) (p : List Field) (a : Access) : Prop := a.1 = x → ¬ Overlap p a.2

theorem Overlap.select {p q : List Field} {f : Field} (h : Overlap p (q ++ [f])) : Overlap p q := by
  rcases h with h | h
  · rcases List.prefix_concat_iff.1 h with rfl | c
    · exact Or.inr (List.prefix_append _ _)
    · exact Or.inl c
  · exact Or.inr ((List.prefix_append _ _).trans h)

theorem Safe.select {x : Var} {p : List Field} {pl : Place} {f : Field} (h : Safe x p pl.access) :
    Safe x p (pl.select f).access := by
  obtain ⟨y, q, ex⟩ := pl
  cases ex with
  | true => exact fun hy ho => h hy (Overlap.select ho)
  | false => exact h

theorem Safe.all {x : Var} {p : List Field} {pl : Place} (h : Safe x p pl.access) : Safe x p pl.all.access := h

theorem safe_stem (x : Var) (p : List Field) (e : Expr) (y : Var) (hs : stem e = some y)
    (hn : noAuto e = true ∨ p = []) (hr : related x p.reverse e = false) (pl : Place)
    (hp : (place e).1 = some pl) : Safe x p pl.access := by
  obtain ⟨q, ex, h1, h2⟩ := stem_place e y hs
  rw [h1] at hp
  cases hp
  intro hy ho
  rcases hn with hn | rfl
  · have hx : ex = true := h2 hn
    subst hx
    have := (related_iff x p e y q hs hn (by rw [h1])).2 ⟨hy, ho⟩
    rw [hr] at this
    exact nomatch this
  · have hy' : y = x := hy
    subst hy'
    have := related_nil y e hs
    rw [List.reverse_nil, this] at hr
    exact nomatch hr

theorem mem_flush {r : Option Place × List Access} {a : Access} :
    a ∈ flush r ↔ (∃ pl, r.1 = some pl ∧ a = pl.access) ∨ a ∈ r.2 := by
  obtain ⟨o, l⟩ := r
  cases o <;> simp [flush]

theorem occurs_place (x : Var) : ∀ e : Expr, occurs x e = false →
    (∀ a ∈ (place e).2, a.1 ≠ x) ∧ (∀ pl, (place e).1 = some pl → pl.var ≠ x)
  | .lit _, _ => ⟨by simp [place], by simp [place]⟩
  | .brk, _ => ⟨by simp [place], by simp [place]⟩
  | .path y, h => by
    refine ⟨by simp [place], ?_⟩
    intro pl hp
    simp only [place, Option.some.injEq] at hp
    subst hp
    simpa [occurs] using h
  | .field e f, h => by
    obtain ⟨h1, h2⟩ := occurs_place x e h
    refine ⟨h1, ?_⟩
    intro pl hp
    simp only [place, Option.map_eq_some_iff] at hp
    obtain ⟨pl', e1, rfl⟩ := hp
    have := h2 pl' e1
    unfold Place.select
    split <;> exact this
  | .deref true e, h => occurs_place x e h
  | .deref false e, h => by
    obtain ⟨h1, h2⟩ := occurs_place x e h
    refine ⟨h1, ?_⟩
    intro pl hp
    simp only [place, Option.map_eq_some_iff] at hp
    obtain ⟨pl', e1, rfl⟩ := hp
    exact h2 pl' e1
  | .index e i, h => by
    simp only [occurs, Bool.or_eq_false_iff] at h
    obtain ⟨h1, h2⟩ := occurs_place x e h.1
    obtain ⟨h3, h4⟩ := occurs_place x i h.2
    refine ⟨?_, ?_⟩
    · intro a ha
      simp only [place, List.mem_append, mem_flush] at ha
      rcases ha with ha | ⟨pl, e1, rfl⟩ | ha
      · exact h1 a ha
      · exact h4 pl e1
      · exact h3 a ha
    · intro pl hp
      simp only [place, Option.map_eq_some_iff] at hp
      obtain ⟨pl', e1, rfl⟩ := hp
      exact h2 pl' e1
  | .wrap e, h => occurs_place x e h
  | .addr e, h => occurs_place x e h
  | .auto e, h => by
    obtain ⟨h1, h2⟩ := occurs_place x e h
    refine ⟨h1, ?_⟩
    intro pl hp
    simp only [place, Option.map_eq_some_iff] at hp
    obtain ⟨pl', e1, rfl⟩ := hp
    exact h2 pl' e1
  | .one k e, h => by
    obtain ⟨h1, h2⟩ := occurs_place x e h
    refine ⟨?_, by simp [place]⟩
    intro a ha
    simp only [place, mem_flush] at ha
    rcases ha with ⟨pl, e1, rfl⟩ | ha
    · exact h2 pl e1
    · exact h1 a ha
  | .two _ e i, h => by
    simp only [occurs, Bool.or_eq_false_iff] at h
    obtain ⟨h1, h2⟩ := occurs_place x e h.1
    obtain ⟨h3, h4⟩ := occurs_place x i h.2
    refine ⟨?_, by simp [place]⟩
    intro a ha
    simp only [place, List.mem_append, mem_flush] at ha
    rcases ha with (⟨pl, e1, rfl⟩ | ha) | ⟨pl, e1, rfl⟩ | ha
    · exact h2 pl e1
    · exact h1 a ha
    · exact h4 pl e1
    · exact h3 a ha
  | .here _ e i, h => by
    simp only [occurs, Bool.or_eq_false_iff] at h
    obtain ⟨h1, h2⟩ := occurs_place x e h.1
    obtain ⟨h3, h4⟩ := occurs_place x i h.2
    refine ⟨?_, by simp [place]⟩
    intro a ha
    simp only [place, List.mem_append, mem_flush] at ha
    rcases ha with (⟨pl, e1, rfl⟩ | ha) | ⟨pl, e1, rfl⟩ | ha
    · exact h2 pl e1
    · exact h1 a ha
    · exact h4 pl e1
    · exact h3 a ha

/-- What a visit that finds nothing says. -/
def Clear (x : Var) (p : List Field) (skip : Bool) (e : Expr) : Prop :=
  (∀ a ∈ (place e).2, Safe x p a) ∧
    ((skip = false ∨ stem e = none) → ∀ pl, (place e).1 = some pl → Safe x p pl.access)

theorem Clear.accs {x : Var} {p : List Field} {e : Expr} (h : Clear x p false e) : ∀ a ∈ accs e, Safe x p a := by
  intro a ha
  rcases mem_flush.1 ha with ⟨pl, e1, rfl⟩ | ha
  · exact h.2 (Or.inl rfl) pl e1
  · exact h.1 a ha

theorem or_noAuto {a b : Bool} {p : List Field} (h : (a && b) = true ∨ p = []) :
    (a = true ∨ p = []) ∧ (b = true ∨ p = []) := by
  rcases h with h | h
  · simp only [Bool.and_eq_true] at h
    exact ⟨Or.inl h.1, Or.inl h.2⟩
  · exact ⟨Or.inr h, Or.inr h⟩

theorem clear_two {x : Var} {p : List Field} {a b : Expr} (ha : Clear x p false a) (hb : Clear x p false b) :
    ∀ c ∈ flush (place a) ++ flush (place b), Safe x p c := by
  intro c hc
  rcases List.mem_append.1 hc with hc | hc
  · exact ha.accs c hc
  · exact hb.accs c hc

theorem visit_clear (x : Var) (p : List Field) : ∀ (e : Expr) (skip : Bool), (noAuto e = true ∨ p = []) →
    visit true x p.reverse skip e = false → Clear x p skip e
  | .lit _, _, _, _ => ⟨by simp [place], by simp [place]⟩
  | .brk, _, _, _ => ⟨by simp [place], by simp [place]⟩
  | .path y, skip, hn, h => by
    refine ⟨by simp [place], ?_⟩
    intro hs pl hp
    have hs' : skip = false := by
      rcases hs with hs | hs
      · exact hs
      · exact nomatch hs
    subst hs'
    simp only [visit, Bool.not_false, Bool.true_and] at h
    exact safe_stem x p (.path y) y rfl hn h pl hp
  | .field e f, skip, hn, h => by
    simp only [visit, Bool.or_eq_false_iff] at h
    obtain ⟨h1, h2⟩ := visit_clear x p e true hn h.2
    refine ⟨h1, ?_⟩
    intro hs pl hp
    cases hst : stem e with
    | none =>
      simp only [place, Option.map_eq_some_iff] at hp
      obtain ⟨pl', e1, rfl⟩ := hp
      exact (h2 (Or.inr hst) pl' e1).select
    | some y =>
      have hs' : skip = false := by
        rcases hs with hs | hs
        · exact hs
        · simp [stem, hst] at hs
      subst hs'
      exact safe_stem x p (.field e f) y hst hn (by simpa using h.1) pl hp
  | .wrap e, skip, hn, h => by
    simp only [visit, Bool.or_eq_false_iff] at h
    obtain ⟨h1, h2⟩ := visit_clear x p e true hn h.2
    refine ⟨h1, ?_⟩
    intro hs pl hp
    cases hst : stem e with
    | none => exact h2 (Or.inr hst) pl hp
    | some y =>
      have hs' : skip = false := by
        rcases hs with hs | hs
        · exact hs
        · simp [stem, hst] at hs
      subst hs'
      exact safe_stem x p (.wrap e) y hst hn (by simpa using h.1) pl hp
  | .auto e, skip, hn, h => by
    have hn' : p = [] := by
      rcases hn with hn | hn
      · exact nomatch hn
      · exact hn
    obtain ⟨h1, h2⟩ := visit_clear x p e skip (Or.inr hn') h
    refine ⟨h1, ?_⟩
    intro hs pl hp
    simp only [place, Option.map_eq_some_iff] at hp
    obtain ⟨pl', e1, rfl⟩ := hp
    exact (h2 hs pl' e1).all
  | .deref true e, skip, hn, h => by
    obtain ⟨h1, h2⟩ := visit_clear x p e false hn h
    exact ⟨h1, fun _ => h2 (Or.inl rfl)⟩
  | .deref false e, skip, hn, h => by
    obtain ⟨h1, h2⟩ := visit_clear x p e false hn h
    refine ⟨h1, ?_⟩
    intro _ pl hp
    simp only [place, Option.map_eq_some_iff] at hp
    obtain ⟨pl', e1, rfl⟩ := hp
    exact (h2 (Or.inl rfl) pl' e1).all
  | .addr e, skip, hn, h => by
    simp only [visit, Bool.or_eq_false_iff] at h
    obtain ⟨h1, h2⟩ := visit_clear x p e false hn h.2
    exact ⟨h1, fun _ => h2 (Or.inl rfl)⟩
  | .index e i, skip, hn, h => by
    simp only [visit, Bool.or_eq_false_iff] at h
    have hn' := or_noAuto hn
    have ih1 := visit_clear x p e false hn'.1 h.1
    have ih2 := visit_clear x p i false hn'.2 h.2
    refine ⟨?_, ?_⟩
    · intro a ha
      rcases List.mem_append.1 ha with ha | ha
      · exact ih1.1 a ha
      · exact ih2.accs a ha
    · intro _ pl hp
      simp only [place, Option.map_eq_some_iff] at hp
      obtain ⟨pl', e1, rfl⟩ := hp
      exact (ih1.2 (Or.inl rfl) pl' e1).all
  | .one (.closure o) e, skip, hn, h => by
    obtain ⟨h1, h2⟩ := occurs_place x e h
    refine ⟨?_, by simp [place]⟩
    intro a ha hy
    rcases mem_flush.1 ha with ⟨pl, e1, rfl⟩ | ha
    · exact absurd hy (h2 pl e1)
    · exact absurd hy (h1 a ha)
  | .one .next e, skip, hn, h =>
    ⟨(visit_clear x p e false hn h).accs, by simp [place]⟩
  | .one (.bind _) e, skip, hn, h =>
    ⟨(visit_clear x p e false hn h).accs, by simp [place]⟩
  | .one .loop e, skip, hn, h =>
    ⟨(visit_clear x p e false hn h).accs, by simp [place]⟩
  | .two k a b, skip, hn, h => by
    have hn' := or_noAuto hn
    have h' : visit true x p.reverse false a = false ∧ visit true x p.reverse false b = false := by
      cases k <;> simpa [visit] using h
    exact ⟨clear_two (visit_clear x p a false hn'.1 h'.1) (visit_clear x p b false hn'.2 h'.2), by simp [place]⟩
  | .here _ a b, skip, hn, h => by
    simp only [visit, Bool.or_eq_false_iff] at h
    have hn' := or_noAuto hn
    exact ⟨clear_two (visit_clear x p a false hn'.1 h.1) (visit_clear x p b false hn'.2 h.2), by simp [place]⟩

/-- The block of a `let`-`else` makes the only difference. -/
theorem visit_noElse (x : Var) (fs : List Field) : ∀ (e : Expr) (skip : Bool), noElse e = true →
    visit false x fs skip e = visit true x fs skip e
  | .lit _, _, _ => rfl
  | .brk, _, _ => rfl
  | .path _, _, _ => rfl
  | .field e f, skip, h => by simp only [visit]; rw [visit_noElse x fs e true h]
  | .wrap e, skip, h => by simp only [visit]; rw [visit_noElse x fs e true h]
  | .auto e, skip, h => by simp only [visit]; rw [visit_noElse x fs e skip h]
  | .deref _ e, skip, h => by simp only [visit]; rw [visit_noElse x fs e false h]
  | .addr e, skip, h => by simp only [visit]; rw [visit_noElse x fs e false h]
  | .index a b, skip, h => by
    simp only [noElse, Bool.and_eq_true] at h
    simp only [visit]; rw [visit_noElse x fs a false h.1, visit_noElse x fs b false h.2]
  | .one (.closure _) e, skip, h => rfl
  | .one .next e, skip, h => by simp only [visit]; rw [visit_noElse x fs e false h]
  | .one (.bind _) e, skip, h => by simp only [visit]; rw [visit_noElse x fs e false h]
  | .one .loop e, skip, h => by simp only [visit]; rw [visit_noElse x fs e false h]
  | .two .seq a b, skip, h => by
    simp only [noElse, Bool.and_eq_true] at h
    simp only [visit]; rw [visit_noElse x fs a false h.1, visit_noElse x fs b false h.2]
  | .two .lazily a b, skip, h => by
    simp only [noElse, Bool.and_eq_true] at h
    simp only [visit]; rw [visit_noElse x fs a false h.1, visit_noElse x fs b false h.2]
  | .two .set a b, skip, h => by
    simp only [noElse, Bool.and_eq_true] at h
    simp only [visit]; rw [visit_noElse x fs a false h.1, visit_noElse x fs b false h.2]
  | .two (.letElse _) a b, skip, h => nomatch h
  | .here _ a b, skip, h => by
    simp only [noElse, Bool.and_eq_true] at h
    simp only [visit]; rw [visit_noElse x fs a false h.1, visit_noElse x fs b false h.2]

end Verif.WhileIter
