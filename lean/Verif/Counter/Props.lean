import Verif.Counter.Spec

/-!
# Reported variables count the rounds
-/

namespace Verif.Counter

/-! ### Executions -/

/-- What isn't set doesn't change, and this value is read. -/
theorem eval_sets (ρ : Nat → Nat) : ∀ (n : Nat) (e : E) (v : Nat) (o : Out) (v' : Nat) (t : List Nat), e.sets = false → eval ρ n e v o v' t →
    v' = v ∧ ∀ u ∈ t, u = v := by
  intro n
  induction n with
  | zero => rintro e v o v' t _ ⟨_, rfl, rfl⟩; exact ⟨rfl, by simp⟩
  | succ n ih =>
    have two : ∀ (a : E) (m : M) (v : Nat) (o : Out) (v' : Nat) (t : List Nat), a.sets = false →
        (∀ v o v' t, m v o v' t → v' = v ∧ ∀ u ∈ t, u = v) → andThen (eval ρ n a) m v o v' t → v' = v ∧ ∀ u ∈ t, u = v := by
      rintro a m v o v' t ha hm (⟨v1, t1, t2, h1, h2, rfl⟩ | ⟨_, h1⟩)
      · obtain ⟨rfl, e1⟩ := ih a _ _ _ _ ha h1
        obtain ⟨rfl, e2⟩ := hm _ _ _ _ h2
        refine ⟨rfl, fun u hu => ?_⟩
        rcases List.mem_append.mp hu with hu | hu
        · exact e1 u hu
        · exact e2 u hu
      · exact ih a _ _ _ _ ha h1
    intro e v o v' t hs h
    cases e with
    | blank => obtain ⟨_, rfl, rfl⟩ := h; exact ⟨rfl, by simp⟩
    | use p => obtain ⟨_, rfl, rfl⟩ := h; exact ⟨rfl, by simp⟩
    | inc => simp [E.sets] at hs
    | assign k => simp [E.sets] at hs
    | change => simp [E.sets] at hs
    | autoref => simp [E.sets] at hs
    | seq a b =>
      simp only [eval] at h
      simp only [E.sets, Bool.or_eq_false_iff] at hs
      exact two a _ v o v' t hs.1 (fun v o v' t h => ih b v o v' t hs.2 h) h
    | cond c a b =>
      simp only [eval] at h
      simp only [E.sets, Bool.or_eq_false_iff] at hs
      refine two c _ v o v' t hs.1.1 ?_ h
      rintro v o v' t (h | h)
      · exact ih a v o v' t hs.1.2 h
      · exact ih b v o v' t hs.2 h
    | lazy a b =>
      simp only [eval] at h
      simp only [E.sets, Bool.or_eq_false_iff] at hs
      refine two a _ v o v' t hs.1 ?_ h
      rintro v o v' t (⟨_, rfl, rfl⟩ | h)
      · exact ⟨rfl, by simp⟩
      · exact ih b v o v' t hs.2 h
    | letElse a b =>
      simp only [eval] at h
      simp only [E.sets, Bool.or_eq_false_iff] at hs
      refine two a _ v o v' t hs.1 ?_ h
      rintro v o v' t (⟨_, rfl, rfl⟩ | ⟨_, h⟩)
      · exact ⟨rfl, by simp⟩
      · exact ih b v o v' t hs.2 h
    | loop l a =>
      simp only [E.sets] at hs
      rcases h with ⟨o1, v1, t1, t2, h1, _, h2, rfl⟩ | ⟨_, h⟩ | ⟨_, _, _, h⟩
      · obtain ⟨rfl, e1⟩ := ih a _ _ _ _ hs h1
        obtain ⟨rfl, e2⟩ := ih (.loop l a) _ _ _ _ hs h2
        refine ⟨rfl, fun u hu => ?_⟩
        rcases List.mem_append.mp hu with hu | hu
        · exact e1 u hu
        · exact e2 u hu
      · exact ih a _ _ _ _ hs h
      · exact ih a _ _ _ _ hs h
    | block l a =>
      simp only [E.sets] at hs
      rcases h with ⟨_, h⟩ | ⟨_, h⟩
      · exact ih a _ _ _ _ hs h
      · exact ih a _ _ _ _ hs h
    | brk l => obtain ⟨_, rfl, rfl⟩ := h; exact ⟨rfl, by simp⟩
    | cont l => obtain ⟨_, rfl, rfl⟩ := h; exact ⟨rfl, by simp⟩
    | ret => obtain ⟨_, rfl, rfl⟩ := h; exact ⟨rfl, by simp⟩
    | closure a =>
      simp only [E.sets] at hs
      rcases h with ⟨_, rfl, rfl⟩ | ⟨_, h | h⟩ | ⟨_, h⟩
      · exact ⟨rfl, by simp⟩
      · exact ih a _ _ _ _ hs h
      · exact ih a _ _ _ _ hs h
      · exact ih a _ _ _ _ hs h

theorem sets_of_mentions : ∀ e : E, e.mentions = false → e.sets = false := by
  intro e
  induction e <;> simp_all [E.mentions, E.sets]

/-- What isn't mentioned isn't read. -/
theorem eval_mentions (ρ : Nat → Nat) : ∀ (n : Nat) (e : E) (v : Nat) (o : Out) (v' : Nat) (t : List Nat), e.mentions = false → eval ρ n e v o v' t →
    t = [] := by
  intro n
  induction n with
  | zero => rintro e v o v' t _ ⟨_, rfl, rfl⟩; rfl
  | succ n ih =>
    have two : ∀ (a : E) (m : M) (v : Nat) (o : Out) (v' : Nat) (t : List Nat), a.mentions = false →
        (∀ v o v' t, m v o v' t → t = []) → andThen (eval ρ n a) m v o v' t → t = [] := by
      rintro a m v o v' t ha hm (⟨v1, t1, t2, h1, h2, rfl⟩ | ⟨_, h1⟩)
      · rw [ih a _ _ _ _ ha h1, hm _ _ _ _ h2]; rfl
      · exact ih a _ _ _ _ ha h1
    intro e v o v' t hs h
    cases e with
    | blank => exact h.2.2
    | use p => simp [E.mentions] at hs
    | inc => simp [E.mentions] at hs
    | assign k => simp [E.mentions] at hs
    | change => simp [E.mentions] at hs
    | autoref => simp [E.mentions] at hs
    | seq a b =>
      simp only [eval] at h
      simp only [E.mentions, Bool.or_eq_false_iff] at hs
      exact two a _ v o v' t hs.1 (fun v o v' t h => ih b v o v' t hs.2 h) h
    | cond c a b =>
      simp only [eval] at h
      simp only [E.mentions, Bool.or_eq_false_iff] at hs
      refine two c _ v o v' t hs.1.1 ?_ h
      rintro v o v' t (h | h)
      · exact ih a v o v' t hs.1.2 h
      · exact ih b v o v' t hs.2 h
    | lazy a b =>
      simp only [eval] at h
      simp only [E.mentions, Bool.or_eq_false_iff] at hs
      refine two a _ v o v' t hs.1 ?_ h
      rintro v o v' t (⟨_, rfl, rfl⟩ | h)
      · rfl
      · exact ih b v o v' t hs.2 h
    | letElse a b =>
      simp only [eval] at h
      simp only [E.mentions, Bool.or_eq_false_iff] at hs
      refine two a _ v o v' t hs.1 ?_ h
      rintro v o v' t (⟨_, rfl, rfl⟩ | ⟨_, h⟩)
      · rfl
      · exact ih b v o v' t hs.2 h
    | loop l a =>
      simp only [E.mentions] at hs
      rcases h with ⟨o1, v1, t1, t2, h1, _, h2, rfl⟩ | ⟨_, h⟩ | ⟨_, _, _, h⟩
      · rw [ih a _ _ _ _ hs h1, ih (.loop l a) _ _ _ _ hs h2]; rfl
      · exact ih a _ _ _ _ hs h
      · exact ih a _ _ _ _ hs h
    | block l a =>
      simp only [E.mentions] at hs
      rcases h with ⟨_, h⟩ | ⟨_, h⟩
      · exact ih a _ _ _ _ hs h
      · exact ih a _ _ _ _ hs h
    | brk l => exact h.2.2
    | cont l => exact h.2.2
    | ret => exact h.2.2
    | closure a =>
      simp only [E.mentions] at hs
      rcases h with ⟨_, rfl, rfl⟩ | ⟨_, h | h⟩ | ⟨_, h⟩
      · rfl
      · exact ih a _ _ _ _ hs h
      · exact ih a _ _ _ _ hs h
      · exact ih a _ _ _ _ hs h

/-- How many `continue` the visitor counts. -/
def E.conts : E → Nat
  | .cont _ => 1
  | .seq a b | .lazy a b | .letElse a b => a.conts + b.conts
  | .cond c a b => c.conts + a.conts + b.conts
  | .loop _ a | .block _ a => a.conts
  | _ => 0

/-- Jumps come from somewhere. -/
theorem eval_jump (ρ : Nat → Nat) : ∀ (n : Nat) (e : E) (v : Nat) (o : Out) (v' : Nat) (t : List Nat), eval ρ n e v o v' t →
    (∀ l, o = .brk l → l ∈ e.brks) ∧ (∀ l, o = .cont l → e.conts > 0) := by
  intro n
  induction n with
  | zero => rintro e v o v' t ⟨rfl, rfl, rfl⟩; exact ⟨fun l h => (by cases h), fun l h => (by cases h)⟩
  | succ n ih =>
    have hn : ∀ {P : Nat → Prop} {Q : Nat → Prop} {o : Out}, o = .normal → (∀ l, o = .brk l → P l) ∧ (∀ l, o = .cont l → Q l) := by
      rintro P Q o rfl; exact ⟨fun l h => (by cases h), fun l h => (by cases h)⟩
    have two : ∀ (a : E) (m : M) (P : Nat → Prop) (Q : Prop) (v : Nat) (o : Out) (v' : Nat) (t : List Nat),
        (∀ l, l ∈ a.brks → P l) → (a.conts > 0 → Q) →
        (∀ v o v' t, m v o v' t → (∀ l, o = .brk l → P l) ∧ (∀ l, o = .cont l → Q)) → andThen (eval ρ n a) m v o v' t →
        (∀ l, o = .brk l → P l) ∧ (∀ l, o = .cont l → Q) := by
      rintro a m P Q v o v' t hp hq hm (⟨v1, t1, t2, h1, h2, rfl⟩ | ⟨_, h1⟩)
      · exact hm _ _ _ _ h2
      · exact ⟨fun l hl => hp l ((ih a _ _ _ _ h1).1 l hl), fun l hl => hq ((ih a _ _ _ _ h1).2 l hl)⟩
    intro e v o v' t h
    cases e with
    | blank => exact hn h.1
    | use p => exact hn h.1
    | inc => exact hn h.1
    | assign k => exact hn h.1
    | change => exact hn h.1
    | autoref => exact hn h.1
    | ret => obtain ⟨rfl, _⟩ := h; exact ⟨fun l h => (by cases h), fun l h => (by cases h)⟩
    | brk l => obtain ⟨rfl, _⟩ := h; exact ⟨fun l h => (by cases h; simp [E.brks]), fun l h => (by cases h)⟩
    | cont l => obtain ⟨rfl, _⟩ := h; exact ⟨fun l h => (by cases h), fun l h => (by simp [E.conts])⟩
    | seq a b =>
      simp only [eval] at h
      refine two a _ _ _ v o v' t (fun l hl => by simp [E.brks, hl]) (fun h => by simp only [E.conts]; omega) ?_ h
      intro v o v' t h
      exact ⟨fun l hl => by simp [E.brks, (ih b _ _ _ _ h).1 l hl], fun l hl => by have := (ih b _ _ _ _ h).2 l hl; simp only [E.conts]; omega⟩
    | lazy a b =>
      simp only [eval] at h
      refine two a _ _ _ v o v' t (fun l hl => by simp [E.brks, hl]) (fun h => by simp only [E.conts]; omega) ?_ h
      rintro v o v' t (⟨h, _⟩ | h)
      · exact hn h
      · exact ⟨fun l hl => by simp [E.brks, (ih b _ _ _ _ h).1 l hl], fun l hl => by have := (ih b _ _ _ _ h).2 l hl; simp only [E.conts]; omega⟩
    | letElse a b =>
      simp only [eval] at h
      refine two a _ _ _ v o v' t (fun l hl => by simp [E.brks, hl]) (fun h => by simp only [E.conts]; omega) ?_ h
      rintro v o v' t (⟨h, _⟩ | ⟨_, h⟩)
      · exact hn h
      · exact ⟨fun l hl => by simp [E.brks, (ih b _ _ _ _ h).1 l hl], fun l hl => by have := (ih b _ _ _ _ h).2 l hl; simp only [E.conts]; omega⟩
    | cond c a b =>
      simp only [eval] at h
      refine two c _ _ _ v o v' t (fun l hl => by simp [E.brks, hl]) (fun h => by simp only [E.conts]; omega) ?_ h
      rintro v o v' t (h | h)
      · exact ⟨fun l hl => by simp [E.brks, (ih a _ _ _ _ h).1 l hl], fun l hl => by have := (ih a _ _ _ _ h).2 l hl; simp only [E.conts]; omega⟩
      · exact ⟨fun l hl => by simp [E.brks, (ih b _ _ _ _ h).1 l hl], fun l hl => by have := (ih b _ _ _ _ h).2 l hl; simp only [E.conts]; omega⟩
    | loop l a =>
      rcases h with ⟨o1, v1, t1, t2, h1, _, h2, rfl⟩ | ⟨h, _⟩ | ⟨_, _, _, h⟩
      · exact ih (.loop l a) _ _ _ _ h2
      · exact hn h
      · exact ih a _ _ _ _ h
    | block l a =>
      rcases h with ⟨h, _⟩ | ⟨_, h⟩
      · exact hn h
      · exact ih a _ _ _ _ h
    | closure a =>
      rcases h with ⟨h, _⟩ | ⟨h, _⟩ | ⟨rfl, h⟩
      · exact hn h
      · exact hn h
      · exact ⟨fun l h => (by cases h), fun l h => (by cases h)⟩

/-! ### The visitor of the body -/

theorem inc_depth : ∀ (e : E) (s : IncState) (d : Nat), (visitInc e (s, d)).2 = d + e.conts
  | .blank, _, _ | .brk _, _, _ | .ret, _, _ | .closure _, _, _ | .autoref, _, _ | .inc, _, _ | .assign _, _, _ | .change, _, _ => rfl
  | .use p, _, _ => by cases p <;> rfl
  | .cont _, _, _ => rfl
  | .seq a b, s, d => by
    simp only [visitInc, E.conts]
    rw [show visitInc a (s, d) = ((visitInc a (s, d)).1, d + a.conts) by rw [← inc_depth a s d], inc_depth b]
    omega
  | .lazy a b, s, d => by
    simp only [visitInc, E.conts]
    rw [show visitInc a (s, d) = ((visitInc a (s, d)).1, d + a.conts) by rw [← inc_depth a s d], inc_depth b]
    omega
  | .letElse a b, s, d => by
    simp only [visitInc, E.conts, inc_depth b, inc_depth a]
    omega
  | .cond c a b, s, d => by
    simp only [visitInc, E.conts]
    rw [show visitInc c (s, d + 1) = ((visitInc c (s, d + 1)).1, d + 1 + c.conts) by rw [← inc_depth c s (d + 1)],
      show ∀ s', visitInc a (s', d + 1 + c.conts) = ((visitInc a (s', d + 1 + c.conts)).1, d + 1 + c.conts + a.conts) by
        intro s'; rw [← inc_depth a s' (d + 1 + c.conts)], inc_depth b]
    omega
  | .loop _ a, s, d => by simp only [visitInc, E.conts, inc_depth a]; omega
  | .block _ a, s, d => by simp only [visitInc, E.conts, inc_depth a]

theorem inc_eq (e : E) (p : IncState × Nat) : visitInc e p = ((visitInc e p).1, p.2 + e.conts) := by
  obtain ⟨s, d⟩ := p
  rw [← inc_depth e s d]

theorem inc_dont : ∀ (e : E) (d : Nat), (visitInc e (.dontWarn, d)).1 = .dontWarn := by
  intro e
  induction e with
  | use p => intro d; cases p <;> rfl
  | seq a b iha ihb | lazy a b iha ihb =>
    intro d
    simp only [visitInc]
    rw [inc_eq a, iha, ihb]
  | letElse a b iha ihb =>
    intro d
    simp only [visitInc, iha, ihb]
  | cond c a b ihc iha ihb =>
    intro d
    simp only [visitInc]
    rw [inc_eq c, ihc, inc_eq a, iha, ihb]
  | loop l a ih => intro d; simp only [visitInc, ih]
  | block l a ih => intro d; simp only [visitInc, ih]
  | _ => intro d; rfl

/-- After the increment the variable doesn't occur. -/
theorem inc_after : ∀ (e : E) (d : Nat), e.Visible → (visitInc e (.incrOnce, d)).1 ≠ .dontWarn →
    (visitInc e (.incrOnce, d)).1 = .incrOnce ∧ e.mentions = false := by
  intro e
  induction e with
  | blank => intro d _ _; exact ⟨rfl, rfl⟩
  | brk => intro d _ _; exact ⟨rfl, rfl⟩
  | cont => intro d _ _; exact ⟨rfl, rfl⟩
  | ret => intro d _ _; exact ⟨rfl, rfl⟩
  | closure a ih => intro d hv _; exact ⟨rfl, hv⟩
  | use p => intro d hv h; cases hv; simp [visitInc] at h
  | inc => intro d hv h; simp [visitInc] at h
  | assign k => intro d hv h; simp [visitInc] at h
  | change => intro d hv h; simp [visitInc] at h
  | autoref => intro d hv h; simp [visitInc] at h
  | seq a b iha ihb | lazy a b iha ihb =>
    intro d hv h
    simp only [visitInc] at h ⊢
    have ha : (visitInc a (.incrOnce, d)).1 ≠ .dontWarn := fun he => h (by rw [inc_eq a, he]; exact inc_dont b _)
    obtain ⟨e1, m1⟩ := iha d hv.1 ha
    rw [inc_eq a, e1] at h ⊢
    obtain ⟨e2, m2⟩ := ihb _ hv.2 h
    exact ⟨e2, by simp [E.mentions, m1, m2]⟩
  | letElse a b iha ihb =>
    intro d hv h
    simp only [visitInc] at h ⊢
    have ha : (visitInc a (.incrOnce, d)).1 ≠ .dontWarn := fun he => h (by rw [he]; exact inc_dont b _)
    obtain ⟨e1, m1⟩ := iha d hv.1 ha
    rw [e1] at h ⊢
    obtain ⟨e2, m2⟩ := ihb _ hv.2 h
    exact ⟨e2, by simp [E.mentions, m1, m2]⟩
  | cond c a b ihc iha ihb =>
    intro d hv h
    simp only [visitInc] at h ⊢
    have hc : (visitInc c (.incrOnce, d + 1)).1 ≠ .dontWarn := fun he => h (by rw [inc_eq c, he, inc_eq a, inc_dont a]; exact inc_dont b _)
    obtain ⟨e0, m0⟩ := ihc _ hv.1 hc
    rw [inc_eq c, e0] at h ⊢
    have ha : (visitInc a (.incrOnce, d + 1 + c.conts)).1 ≠ .dontWarn := fun he => h (by rw [inc_eq a, he]; exact inc_dont b _)
    obtain ⟨e1, m1⟩ := iha _ hv.2.1 ha
    rw [inc_eq a, e1] at h ⊢
    obtain ⟨e2, m2⟩ := ihb _ hv.2.2 h
    exact ⟨e2, by simp [E.mentions, m0, m1, m2]⟩
  | loop l a ih => intro d hv h; exact ih _ hv h
  | block l a ih => intro d hv h; exact ih _ hv h

/-- Without the increment the variable isn't set. -/
theorem inc_before : ∀ (e : E) (d : Nat), e.Visible → e.Straight → (visitInc e (.initial, d)).1 = .initial → e.sets = false := by
  intro e
  induction e with
  | blank => intro d _ _ _; rfl
  | brk => intro d _ _ _; rfl
  | cont => intro d _ _ _; rfl
  | ret => intro d _ _ _; rfl
  | closure a ih => intro d hv _ _; exact sets_of_mentions _ hv
  | use p => intro d _ _ _; rfl
  | inc => intro d hv _ h; simp only [visitInc] at h; split at h <;> cases h
  | assign k => intro d hv _ h; simp [visitInc] at h
  | change => intro d hv _ h; simp [visitInc] at h
  | autoref => intro d hv hs h; exact hs.elim
  | seq a b iha ihb =>
    intro d hv hs h
    simp only [visitInc] at h
    cases ha : (visitInc a (.initial, d)).1 with
    | initial =>
      rw [inc_eq a, ha] at h
      simp [E.sets, iha d hv.1 hs.1 ha, ihb _ hv.2 hs.2 h]
    | incrOnce =>
      rw [inc_eq a, ha] at h
      have := (inc_after b _ hv.2 (by rw [h]; simp)).1
      rw [this] at h; cases h
    | dontWarn => rw [inc_eq a, ha, inc_dont] at h; cases h
  | lazy a b iha ihb =>
    intro d hv hs h
    simp only [visitInc] at h
    cases ha : (visitInc a (.initial, d)).1 with
    | initial => simp [E.sets, iha d hv.1 hs.1 ha, hs.2.2]
    | incrOnce =>
      rw [inc_eq a, ha] at h
      have := (inc_after b _ hv.2 (by rw [h]; simp)).1
      rw [this] at h; cases h
    | dontWarn => rw [inc_eq a, ha, inc_dont] at h; cases h
  | letElse a b iha ihb =>
    intro d hv hs h
    simp only [visitInc] at h
    cases ha : (visitInc a (.initial, d)).1 with
    | initial => simp [E.sets, iha d hv.1 hs.1 ha, hs.2.2]
    | incrOnce =>
      rw [ha] at h
      have := (inc_after b _ hv.2 (by rw [h]; simp)).1
      rw [this] at h; cases h
    | dontWarn => rw [ha, inc_dont] at h; cases h
  | cond c a b ihc iha ihb =>
    intro d hv hs h
    simp only [visitInc] at h
    cases hc : (visitInc c (.initial, d + 1)).1 with
    | initial =>
      rw [inc_eq c, hc] at h
      cases ha : (visitInc a (.initial, d + 1 + c.conts)).1 with
      | initial =>
        rw [inc_eq a, ha] at h
        simp [E.sets, ihc _ hv.1 hs.1 hc, iha _ hv.2.1 hs.2.1 ha, ihb _ hv.2.2 hs.2.2 h]
      | incrOnce =>
        rw [inc_eq a, ha] at h
        have := (inc_after b _ hv.2.2 (by rw [h]; simp)).1
        rw [this] at h; cases h
      | dontWarn => rw [inc_eq a, ha, inc_dont] at h; cases h
    | incrOnce =>
      rw [inc_eq c, hc] at h
      cases ha : (visitInc a (.incrOnce, d + 1 + c.conts)).1 with
      | dontWarn => rw [inc_eq a, ha, inc_dont] at h; cases h
      | initial => have := (inc_after a _ hv.2.1 (by rw [ha]; simp)).1; rw [ha] at this; cases this
      | incrOnce =>
        rw [inc_eq a, ha] at h
        have := (inc_after b _ hv.2.2 (by rw [h]; simp)).1
        rw [this] at h; cases h
    | dontWarn => rw [inc_eq c, hc, inc_eq a, inc_dont, inc_dont] at h; cases h
  | loop l a ih => intro d hv hs h; exact ih _ hv hs h
  | block l a ih => intro d hv hs h; exact ih _ hv hs.1 h

/-- The increment is seen at depth 0 only. -/
theorem inc_deep : ∀ (e : E) (d : Nat), d > 0 → (visitInc e (.initial, d)).1 ≠ .incrOnce := by
  intro e
  induction e with
  | use p => intro d _; cases p <;> simp [visitInc]
  | inc => intro d hd; simp only [visitInc]; split <;> simp; omega
  | seq a b iha ihb | lazy a b iha ihb =>
    intro d hd
    simp only [visitInc]
    cases ha : (visitInc a (.initial, d)).1 with
    | initial => rw [inc_eq a, ha]; exact ihb _ (by simp only; omega)
    | incrOnce => exact absurd ha (iha d hd)
    | dontWarn => rw [inc_eq a, ha, inc_dont]; simp
  | letElse a b iha ihb =>
    intro d hd
    simp only [visitInc]
    cases ha : (visitInc a (.initial, d)).1 with
    | initial => exact ihb _ (by omega)
    | incrOnce => exact absurd ha (iha d hd)
    | dontWarn => rw [inc_dont]; simp
  | cond c a b ihc iha ihb =>
    intro d hd
    simp only [visitInc]
    cases hc : (visitInc c (.initial, d + 1)).1 with
    | initial =>
      rw [inc_eq c, hc]
      cases ha : (visitInc a (.initial, d + 1 + c.conts)).1 with
      | initial => rw [inc_eq a, ha]; exact ihb _ (by simp only; omega)
      | incrOnce => exact absurd ha (iha _ (by omega))
      | dontWarn => rw [inc_eq a, ha, inc_dont]; simp
    | incrOnce => exact absurd hc (ihc _ (by omega))
    | dontWarn => rw [inc_eq c, hc, inc_eq a, inc_dont, inc_dont]; simp
  | loop l a ih => intro d hd; simp only [visitInc]; exact ih _ (by omega)
  | block l a ih => intro d hd; simp only [visitInc]; exact ih _ hd
  | _ => intro d hd; simp [visitInc]

theorem cond_not_once {c a b : E} {d : Nat} : (visitInc (.cond c a b) (.initial, d)).1 ≠ .incrOnce := by
  have h := inc_deep (.seq c (.seq a b)) (d + 1) (by omega)
  simpa only [visitInc] using h

/-- No increment is seen if the variable isn't set. -/
theorem inc_unset : ∀ (e : E) (d : Nat), e.sets = false → (visitInc e (.initial, d)).1 ≠ .incrOnce := by
  intro e
  induction e with
  | use p => intro d _; cases p <;> simp [visitInc]
  | inc => intro d h; simp [E.sets] at h
  | seq a b iha ihb | lazy a b iha ihb =>
    intro d h
    simp only [E.sets, Bool.or_eq_false_iff] at h
    simp only [visitInc]
    cases ha : (visitInc a (.initial, d)).1 with
    | initial => rw [inc_eq a, ha]; exact ihb _ h.2
    | incrOnce => exact absurd ha (iha d h.1)
    | dontWarn => rw [inc_eq a, ha, inc_dont]; simp
  | letElse a b iha ihb =>
    intro d h
    simp only [E.sets, Bool.or_eq_false_iff] at h
    simp only [visitInc]
    cases ha : (visitInc a (.initial, d)).1 with
    | initial => exact ihb _ h.2
    | incrOnce => exact absurd ha (iha d h.1)
    | dontWarn => rw [inc_dont]; simp
  | cond c a b ihc iha ihb => intro d h; exact cond_not_once
  | loop l a ih => intro d h; exact inc_deep a _ (by omega)
  | block l a ih => intro d h; exact ih _ h
  | _ => intro d hd; simp [visitInc]

/-- What is read and left by a body with one increment. -/
theorem inc_once (ρ : Nat → Nat) : ∀ (e : E) (d : Nat), e.Visible → e.Straight → (visitInc e (.initial, d)).1 = .incrOnce →
    ∀ (n v : Nat) (o : Out) (v' : Nat) (t : List Nat), eval ρ n e v o v' t →
      (∀ u ∈ t, u = v) ∧ (o = .normal ∨ (∃ l, o = .cont l) → v' = v + 1) := by
  intro e d hv hs h n
  have hzero : ∀ (e : E) (v : Nat) (o : Out) (v' : Nat) (t : List Nat), eval ρ 0 e v o v' t →
      (∀ u ∈ t, u = v) ∧ (o = .normal ∨ (∃ l, o = .cont l) → v' = v + 1) := by
    rintro e v o v' t ⟨rfl, rfl, rfl⟩
    exact ⟨by simp, fun h => by rcases h with h | ⟨l, h⟩ <;> cases h⟩
  revert n
  induction e generalizing d with
  | blank => simp [visitInc] at h
  | brk => simp [visitInc] at h
  | cont => simp [visitInc] at h
  | ret => simp [visitInc] at h
  | closure a ih => simp [visitInc] at h
  | use p => cases p <;> simp [visitInc] at h
  | assign k => simp [visitInc] at h
  | change => simp [visitInc] at h
  | autoref => simp [visitInc] at h
  | inc =>
    intro n v o v' t hx
    cases n with
    | zero => exact hzero _ _ _ _ _ hx
    | succ n => obtain ⟨_, rfl, rfl⟩ := hx; exact ⟨by simp, fun _ => rfl⟩
  | seq a b iha ihb =>
    intro n v o v' t hx
    cases n with
    | zero => exact hzero _ _ _ _ _ hx
    | succ n =>
    simp only [visitInc] at h
    cases ha : (visitInc a (.initial, d)).1 with
    | dontWarn => rw [inc_eq a, ha, inc_dont] at h; cases h
    | initial =>
      rw [inc_eq a, ha] at h
      have hset := inc_before a d hv.1 hs.1 ha
      have hd : d + a.conts = 0 := by
        apply Decidable.byContradiction
        intro hne
        exact inc_deep b _ (by simp only; omega) h
      rcases hx with ⟨v1, t1, t2, h1, h2, rfl⟩ | ⟨hne, h1⟩
      · obtain ⟨rfl, e1⟩ := eval_sets ρ _ _ _ _ _ _ hset h1
        obtain ⟨e2, e3⟩ := ihb _ hv.2 hs.2 h n _ _ _ _ h2
        refine ⟨fun u hu => ?_, e3⟩
        rcases List.mem_append.mp hu with hu | hu
        · exact e1 u hu
        · exact e2 u hu
      · refine ⟨(eval_sets ρ _ _ _ _ _ _ hset h1).2, ?_⟩
        rintro (ho | ⟨l, ho⟩)
        · exact absurd ho hne
        · have := (eval_jump ρ _ _ _ _ _ _ h1).2 l ho
          omega
    | incrOnce =>
      rw [inc_eq a, ha] at h
      have hm := (inc_after b _ hv.2 (by rw [h]; simp)).2
      rcases hx with ⟨v1, t1, t2, h1, h2, rfl⟩ | ⟨hne, h1⟩
      · obtain ⟨e1, e2⟩ := iha _ hv.1 hs.1 ha n _ _ _ _ h1
        have e3 := eval_mentions ρ _ _ _ _ _ _ hm h2
        have e4 := (eval_sets ρ _ _ _ _ _ _ (sets_of_mentions _ hm) h2).1
        subst e3
        rw [List.append_nil]
        exact ⟨e1, fun _ => by rw [e4]; exact e2 (.inl rfl)⟩
      · exact iha _ hv.1 hs.1 ha n _ _ _ _ h1
  | lazy a b iha ihb =>
    intro n v o v' t hx
    cases n with
    | zero => exact hzero _ _ _ _ _ hx
    | succ n =>
    simp only [visitInc] at h
    cases ha : (visitInc a (.initial, d)).1 with
    | dontWarn => rw [inc_eq a, ha, inc_dont] at h; cases h
    | initial =>
      rw [inc_eq a, ha] at h
      exact absurd h (inc_unset b _ hs.2.2)
    | incrOnce =>
      rw [inc_eq a, ha] at h
      have hm := (inc_after b _ hv.2 (by rw [h]; simp)).2
      rcases hx with ⟨v1, t1, t2, h1, h2, rfl⟩ | ⟨hne, h1⟩
      · obtain ⟨e1, e2⟩ := iha _ hv.1 hs.1 ha n _ _ _ _ h1
        have h3 : v' = v1 ∧ t2 = [] := by
          rcases h2 with ⟨_, rfl, rfl⟩ | h2
          · exact ⟨rfl, rfl⟩
          · exact ⟨(eval_sets ρ _ _ _ _ _ _ (sets_of_mentions _ hm) h2).1, eval_mentions ρ _ _ _ _ _ _ hm h2⟩
        obtain ⟨rfl, rfl⟩ := h3
        rw [List.append_nil]
        exact ⟨e1, fun _ => e2 (.inl rfl)⟩
      · exact iha _ hv.1 hs.1 ha n _ _ _ _ h1
  | letElse a b iha ihb =>
    intro n v o v' t hx
    cases n with
    | zero => exact hzero _ _ _ _ _ hx
    | succ n =>
    simp only [visitInc] at h
    cases ha : (visitInc a (.initial, d)).1 with
    | dontWarn => rw [ha, inc_dont] at h; cases h
    | initial => rw [ha] at h; exact absurd h (inc_deep b _ (by omega))
    | incrOnce =>
      rw [ha] at h
      have hm := (inc_after b _ hv.2 (by rw [h]; simp)).2
      rcases hx with ⟨v1, t1, t2, h1, h2, rfl⟩ | ⟨hne, h1⟩
      · obtain ⟨e1, e2⟩ := iha _ hv.1 hs.1 ha n _ _ _ _ h1
        have h3 : v' = v1 ∧ t2 = [] := by
          rcases h2 with ⟨_, rfl, rfl⟩ | ⟨_, h2⟩
          · exact ⟨rfl, rfl⟩
          · exact ⟨(eval_sets ρ _ _ _ _ _ _ (sets_of_mentions _ hm) h2).1, eval_mentions ρ _ _ _ _ _ _ hm h2⟩
        obtain ⟨rfl, rfl⟩ := h3
        rw [List.append_nil]
        exact ⟨e1, fun _ => e2 (.inl rfl)⟩
      · exact iha _ hv.1 hs.1 ha n _ _ _ _ h1
  | cond c a b ihc iha ihb => exact absurd h cond_not_once
  | loop l a ih => exact absurd h (inc_deep a _ (by omega))
  | block l a ih =>
    intro n v o v' t hx
    cases n with
    | zero => exact hzero _ _ _ _ _ hx
    | succ n =>
    have ih' := ih d hv hs.1 h n
    rcases hx with ⟨_, hx⟩ | ⟨_, hx⟩
    · rcases hs.2 with hset | hb
      · exact absurd h (inc_unset a _ hset)
      · exact absurd ((eval_jump ρ _ _ _ _ _ _ hx).1 l rfl) hb
    · exact ih' _ _ _ _ hx

/-! ### The visitor of the block -/

/-- What the state says about the value. -/
def InitState.Says (ρ : Nat → Nat) (v : Nat) : InitState → Prop
  | .init k => v = ρ k
  | _ => True

theorem init_dont : ∀ (e : E) (d : Nat), visitInit e d .dontWarn = .dontWarn := by
  intro e d; cases e <;> simp [visitInit]

/-- Without assignments the state stays. -/
theorem init_unset : ∀ (e : E) (d : Nat) (s : InitState), e.sets = false → visitInit e d s = s ∨ visitInit e d s = .dontWarn := by
  intro e
  have hdi : ∀ (e : E) (d : Nat) (s : InitState), s = .dontWarn ∨ s = .initial → visitInit e d s = s := by
    rintro e d s (rfl | rfl) <;> cases e <;> simp [visitInit]
  induction e with
  | inc => intro d s h; simp [E.sets] at h
  | assign k => intro d s h; simp [E.sets] at h
  | change => intro d s h; simp [E.sets] at h
  | autoref => intro d s h; simp [E.sets] at h
  | seq a b iha ihb | lazy a b iha ihb | letElse a b iha ihb =>
    intro d s h
    simp only [E.sets, Bool.or_eq_false_iff] at h
    by_cases hs : s = .dontWarn ∨ s = .initial
    · exact .inl (hdi _ _ _ hs)
    · cases s with
      | dontWarn => simp at hs
      | initial => simp at hs
      | declared | init k =>
        simp only [visitInit]
        rcases iha d _ h.1 with e1 | e1
        · rw [e1]; exact ihb d _ h.2
        · rw [e1, init_dont]; exact .inr rfl
  | cond c a b ihc iha ihb =>
    intro d s h
    simp only [E.sets, Bool.or_eq_false_iff] at h
    by_cases hs : s = .dontWarn ∨ s = .initial
    · exact .inl (hdi _ _ _ hs)
    · cases s with
      | dontWarn => simp at hs
      | initial => simp at hs
      | declared | init k =>
        simp only [visitInit]
        rcases ihc (d + 1) _ h.1.1 with e0 | e0
        · rw [e0]
          rcases iha (d + 1) _ h.1.2 with e1 | e1
          · rw [e1]; exact ihb _ _ h.2
          · rw [e1, init_dont]; exact .inr rfl
        · rw [e0, init_dont, init_dont]; exact .inr rfl
  | block l a ih | closure a ih =>
    intro d s h
    by_cases hs : s = .dontWarn ∨ s = .initial
    · exact .inl (hdi _ _ _ hs)
    · cases s with
      | dontWarn => simp at hs
      | initial => simp at hs
      | declared | init k => simp only [visitInit]; exact ih d _ h
  | loop l a ih => intro d s h; cases s <;> simp [visitInit]
  | _ => intro d s h; cases s <;> simp [visitInit]

/-- The states in which expressions are visited. -/
def InitState.live : InitState → Bool
  | .declared | .init _ => true
  | _ => false

theorem init_live : ∀ (e : E) (d : Nat) (s : InitState), s.live = true → visitInit e d s ≠ .dontWarn → (visitInit e d s).live = true := by
  intro e
  have step : ∀ (s : InitState), s ≠ .dontWarn → s ≠ .initial → s.live = true := by intro s; cases s <;> simp [InitState.live]
  induction e with
  | assign k => intro d s h hn; cases s <;> simp [InitState.live] at h <;> simp only [visitInit] at hn ⊢ <;> split at hn <;> simp_all [InitState.live]
  | seq a b iha ihb | lazy a b iha ihb | letElse a b iha ihb =>
    intro d s h hn
    cases s with
    | dontWarn => cases h
    | initial => cases h
    | declared | init k =>
      simp only [visitInit] at hn ⊢
      exact ihb d _ (iha d _ rfl (fun he => hn (by rw [he, init_dont]))) hn
  | cond c a b ihc iha ihb =>
    intro d s h hn
    cases s with
    | dontWarn => cases h
    | initial => cases h
    | declared | init k =>
      simp only [visitInit] at hn ⊢
      exact ihb _ _ (iha _ _ (ihc _ _ rfl (fun he => hn (by rw [he, init_dont, init_dont]))) (fun he => hn (by rw [he, init_dont]))) hn
  | block l a ih | closure a ih =>
    intro d s h hn
    cases s with
    | dontWarn => cases h
    | initial => cases h
    | declared | init k => simp only [visitInit] at hn ⊢; exact ih d _ rfl hn
  | _ => intro d s h hn; cases s <;> simp_all [InitState.live, visitInit]

/-- Within conditions nothing is set. -/
theorem init_deep : ∀ (e : E) (d : Nat) (s : InitState), d > 0 → e.Straight → s.live = true → visitInit e d s ≠ .dontWarn → e.sets = false := by
  intro e
  induction e with
  | inc => intro d s hd _ h hn; cases s <;> simp [InitState.live, visitInit] at h hn
  | change => intro d s hd _ h hn; cases s <;> simp [InitState.live, visitInit] at h hn
  | autoref => intro d s hd hs; exact hs.elim
  | assign k =>
    intro d s hd _ h hn
    cases s <;> simp [InitState.live] at h <;> simp only [visitInit] at hn <;> split at hn <;> first | omega | simp at hn
  | seq a b iha ihb =>
    intro d s hd hs h hn
    cases s with
    | dontWarn => cases h
    | initial => cases h
    | declared | init k =>
      simp only [visitInit] at hn
      have ha : visitInit a d _ ≠ .dontWarn := fun he => hn (by rw [he, init_dont])
      simp [E.sets, iha d _ hd hs.1 rfl ha, ihb d _ hd hs.2 (init_live a d _ rfl ha) hn]
  | lazy a b iha ihb | letElse a b iha ihb =>
    intro d s hd hs h hn
    cases s with
    | dontWarn => cases h
    | initial => cases h
    | declared | init k =>
      simp only [visitInit] at hn
      have ha : visitInit a d _ ≠ .dontWarn := fun he => hn (by rw [he, init_dont])
      simp [E.sets, iha d _ hd hs.1 rfl ha, hs.2.2]
  | cond c a b ihc iha ihb =>
    intro d s hd hs h hn
    cases s with
    | dontWarn => cases h
    | initial => cases h
    | declared | init k =>
      simp only [visitInit] at hn
      have hc : visitInit c (d + 1) _ ≠ .dontWarn := fun he => hn (by rw [he, init_dont, init_dont])
      have ha : visitInit a (d + 1) _ ≠ .dontWarn := fun he => hn (by rw [he, init_dont])
      have lc := init_live c (d + 1) _ rfl hc
      have la := init_live a (d + 1) _ lc ha
      simp [E.sets, ihc _ _ (by omega) hs.1 rfl hc, iha _ _ (by omega) hs.2.1 lc ha, ihb _ _ (by omega) hs.2.2 la hn]
  | block l a ih =>
    intro d s hd hs h hn
    cases s with
    | dontWarn => cases h
    | initial => cases h
    | declared | init k => simp only [visitInit] at hn; exact ih d _ hd hs.1 rfl hn
  | closure a ih => intro d s hd hs h hn; exact hs.2
  | loop l a ih => intro d s hd hs h hn; cases s <;> simp [InitState.live, visitInit] at h hn
  | _ => intro d s hd hs h hn; rfl

/-- The state says the value. -/
theorem init_says (ρ : Nat → Nat) : ∀ (e : E) (s : InitState), e.Straight → s.live = true → visitInit e 0 s ≠ .dontWarn →
    ∀ (n v v' : Nat) (t : List Nat), eval ρ n e v .normal v' t → s.Says ρ v → (visitInit e 0 s).Says ρ v' := by
  have hunset : ∀ (e : E) (s : InitState), e.sets = false → visitInit e 0 s ≠ .dontWarn →
      ∀ (n v v' : Nat) (t : List Nat) (o : Out), eval ρ n e v o v' t → s.Says ρ v → (visitInit e 0 s).Says ρ v' := by
    intro e s hs hn n v v' t o hx hsay
    rw [(init_unset e 0 s hs).resolve_right hn, (eval_sets ρ _ _ _ _ _ _ hs hx).1]
    exact hsay
  intro e
  induction e with
  | inc => intro s _ h hn; cases s <;> simp [InitState.live, visitInit] at h hn
  | change => intro s _ h hn; cases s <;> simp [InitState.live, visitInit] at h hn
  | autoref => intro s hs; exact hs.elim
  | loop l a ih => intro s _ h hn; cases s <;> simp [InitState.live, visitInit] at h hn
  | assign k =>
    intro s _ h hn n v v' t hx _
    cases n with
    | zero => cases hx.1
    | succ n =>
      obtain ⟨_, rfl, _⟩ := hx
      cases s <;> simp [InitState.live] at h <;> simp [visitInit, InitState.Says]
  | seq a b iha ihb =>
    intro s hs h hn n v v' t hx hsay
    cases n with
    | zero => cases hx.1
    | succ n =>
    have he : visitInit (.seq a b) 0 s = visitInit b 0 (visitInit a 0 s) := by cases s <;> simp [InitState.live] at h <;> simp [visitInit]
    rw [he] at hn ⊢
    have ha : visitInit a 0 s ≠ .dontWarn := fun e => hn (by rw [e, init_dont])
    rcases hx with ⟨v1, t1, t2, h1, h2, rfl⟩ | ⟨hne, _⟩
    · exact ihb _ hs.2 (init_live a 0 s h ha) hn n _ _ _ h2 (iha s hs.1 h ha n _ _ _ h1 hsay)
    · exact absurd rfl hne
  | lazy a b iha ihb =>
    intro s hs h hn n v v' t hx hsay
    cases n with
    | zero => cases hx.1
    | succ n =>
    have he : visitInit (.lazy a b) 0 s = visitInit b 0 (visitInit a 0 s) := by cases s <;> simp [InitState.live] at h <;> simp [visitInit]
    rw [he] at hn ⊢
    have ha : visitInit a 0 s ≠ .dontWarn := fun e => hn (by rw [e, init_dont])
    rcases hx with ⟨v1, t1, t2, h1, h2, rfl⟩ | ⟨hne, _⟩
    · have hsa := iha s hs.1 h ha n _ _ _ h1 hsay
      rcases h2 with ⟨_, rfl, _⟩ | h2
      · rw [(init_unset b 0 _ hs.2.2).resolve_right hn]; exact hsa
      · exact hunset b _ hs.2.2 hn n _ _ _ _ h2 hsa
    · exact absurd rfl hne
  | letElse a b iha ihb =>
    intro s hs h hn n v v' t hx hsay
    cases n with
    | zero => cases hx.1
    | succ n =>
    have he : visitInit (.letElse a b) 0 s = visitInit b 0 (visitInit a 0 s) := by cases s <;> simp [InitState.live] at h <;> simp [visitInit]
    rw [he] at hn ⊢
    have ha : visitInit a 0 s ≠ .dontWarn := fun e => hn (by rw [e, init_dont])
    rcases hx with ⟨v1, t1, t2, h1, h2, rfl⟩ | ⟨hne, _⟩
    · have hsa := iha s hs.1 h ha n _ _ _ h1 hsay
      rcases h2 with ⟨_, rfl, _⟩ | ⟨hne, _⟩
      · rw [(init_unset b 0 _ hs.2.2).resolve_right hn]; exact hsa
      · exact absurd rfl hne
    · exact absurd rfl hne
  | cond c a b ihc iha ihb =>
    intro s hs h hn n v v' t hx hsay
    have hset : (E.cond c a b).sets = false := by
      have he : visitInit (.cond c a b) 0 s = visitInit (.seq c (.seq a b)) 1 s := by
        cases s <;> simp [InitState.live] at h <;> simp only [visitInit] <;>
          (cases hcv : visitInit c 1 _ <;> first | rfl | (simp only [hcv, visitInit, init_dont]; try cases a <;> cases b <;> rfl))
      have := init_deep (.seq c (.seq a b)) 1 s (by omega) ⟨hs.1, hs.2.1, hs.2.2⟩ h (he ▸ hn)
      simpa [E.sets, Bool.or_assoc] using this
    exact hunset _ s hset hn n v v' t _ hx hsay
  | block l a ih =>
    intro s hs h hn n v v' t hx hsay
    cases n with
    | zero => cases hx.1
    | succ n =>
    have he : visitInit (.block l a) 0 s = visitInit a 0 s := by cases s <;> simp [InitState.live] at h <;> simp [visitInit]
    rw [he] at hn ⊢
    rcases hx with ⟨_, hx⟩ | ⟨_, hx⟩
    · rcases hs.2 with hset | hb
      · exact hunset a s hset hn n _ _ _ _ hx hsay
      · exact absurd ((eval_jump ρ _ _ _ _ _ _ hx).1 l rfl) hb
    · exact ih s hs.1 h hn n _ _ _ hx hsay
  | closure a ih =>
    intro s hs h hn n v v' t hx hsay
    exact hunset (.closure a) s hs.2 hn n v v' t _ hx hsay
  | _ => intro s hs h hn n v v' t hx hsay; exact hunset _ s rfl hn n v v' t _ hx hsay

/-- The statements before the loop are straight. -/
def Block.StraightPre (b : Block) : Prop := ∀ e, .expr e ∈ b.pre → e.Straight

theorem pre_says (ρ : Nat → Nat) (n k : Nat) : ∀ (ss : List Stmt) (s : InitState) (v v' : Nat) (t : List Nat), (∀ e, .expr e ∈ ss → e.Straight) →
    ss.foldl (fun s x => visitStmt x s) s = .init k → s.Says ρ v → runPre ρ n ss v .normal v' t → v' = ρ k
  | [], s, v, v', t, _, h, hsay, hx => by
    obtain ⟨_, rfl, _⟩ := hx
    simp only [List.foldl_nil] at h
    subst h
    exact hsay
  | .decl (some k') :: ss, s, v, v', t, hs, h, hsay, hx =>
    pre_says ρ n k ss _ _ v' t (fun e he => hs e (by simp [he])) h rfl hx
  | .decl none :: ss, s, v, v', t, hs, h, hsay, hx => by
    obtain ⟨v1, hx⟩ := hx
    exact pre_says ρ n k ss _ v1 v' t (fun e he => hs e (by simp [he])) h trivial hx
  | .expr e :: ss, s, v, v', t, hs, h, hsay, hx => by
    simp only [List.foldl_cons, visitStmt] at h
    rcases hx with ⟨v1, t1, t2, h1, h2, rfl⟩ | ⟨hne, _⟩
    · refine pre_says ρ n k ss _ v1 v' t2 (fun e he => hs e (by simp [he])) h ?_ h2
      cases hl : s.live with
      | true =>
        by_cases hd : visitInit e 0 s = .dontWarn
        · rw [hd]; trivial
        · exact init_says ρ e s (hs e (by simp)) hl hd n _ _ _ h1 hsay
      | false =>
        have : visitInit e 0 s = s := by
          cases s <;> simp [InitState.live] at hl <;> cases e <;> simp [visitInit]
        rw [this]
        cases s <;> simp [InitState.live] at hl <;> trivial
    · exact absurd rfl hne

/-! ### The counter -/

theorem rounds_count (ρ : Nat → Nat) (n : Nat) (e : E) (hv : e.Visible) (hs : e.Straight) (h : (visitInc e (.initial, 0)).1 = .incrOnce) :
    ∀ (v : Nat) (ts : List (List Nat)), Rounds ρ n e v ts → ∀ j t, ts[j]? = some t → ∀ u ∈ t, u = v + j := by
  intro v ts hr
  induction hr with
  | done v => intro j t ht; simp at ht
  | last hx _ _ =>
    intro j t ht u hu
    cases j with
    | zero =>
      simp only [List.getElem?_cons_zero, Option.some.injEq] at ht
      subst ht
      simpa using (inc_once ρ e 0 hv hs h _ _ _ _ _ hx).1 u hu
    | succ j => simp at ht
  | next hx ho _ ih =>
    intro j t ht u hu
    obtain ⟨e1, e2⟩ := inc_once ρ e 0 hv hs h _ _ _ _ _ hx
    cases j with
    | zero =>
      simp only [List.getElem?_cons_zero, Option.some.injEq] at ht
      subst ht
      simpa using e1 u hu
    | succ j =>
      simp only [List.getElem?_cons_succ] at ht
      have h1 := ih j t ht u hu
      have h2 := e2 (ho.imp id (fun h => ⟨0, h⟩))
      omega

/-- If a loop is reported, then in each execution of the block the variable is the initial value plus the number of the round, whenever it is read
in the loop, and it isn't read afterwards.

What is missing: variables that occur in closures, in `let y = x;` and the like, behind `&&`, or in blocks with labels, and methods which borrow them
mutably, for which it is false (`Witness`). -/
theorem counter_partial (ρ : Nat → Nat) {b : Block} {k : Nat} (h : b.counter = some k) (hv : b.body.Visible) (hs : b.body.Straight)
    (hp : b.StraightPre) {n v0 v : Nat} {t0 : List Nat} (h0 : runPre ρ n b.pre v0 .normal v t0) :
    (∀ ts, Rounds ρ n b.body v ts → ∀ j t, ts[j]? = some t → ∀ u ∈ t, u = ρ k + j) ∧
    ∀ w o w' t, eval ρ n b.post w o w' t → t = [] := by
  unfold Block.counter at h
  split at h
  · next hi =>
    split at h
    · next k' hf =>
      split at h
      · cases h
      · next hm =>
        cases h
        have := pre_says ρ n _ b.pre .initial v0 v t0 hp hf trivial h0
        subst this
        exact ⟨fun ts hr => rounds_count ρ n b.body hv hs hi _ ts hr,
          fun w o w' t hx => eval_mentions ρ _ _ _ _ _ _ (by simpa using hm) hx⟩
    · cases h
  · cases h

/-! ### The suggestion -/

theorem takeRun_eq (max : Nat) : ∀ (n start : Nat), start + n ≤ max → takeRun max start n = ((List.range n).map (start + ·), false)
  | 0, start, _ => rfl
  | n + 1, start, h => by
    simp only [takeRun]
    rw [if_neg (by omega), takeRun_eq max n (start + 1) (by omega), List.range_succ_eq_map]
    simp only [List.map_cons, List.map_map, Nat.add_zero]
    have he : (List.range n).map (start + 1 + ·) = (List.range n).map ((start + ·) ∘ Nat.succ) :=
      List.map_congr_left fun x _ => by simp only [Function.comp]; omega
    rw [he]

theorem zipRun_eq (max : Nat) : ∀ (n start : Nat), start + n ≤ max → zipRun max start n = ((List.range n).map (start + ·), decide (start + n = max))
  | 0, start, _ => by simp only [zipRun, Nat.add_zero]; exact Prod.ext rfl (by by_cases h : start = max <;> simp [h])
  | n + 1, start, h => by
    simp only [zipRun]
    rw [if_neg (by omega), zipRun_eq max n (start + 1) (by omega), List.range_succ_eq_map]
    simp only [List.map_cons, List.map_map, Nat.add_zero]
    have he : (List.range n).map (start + 1 + ·) = (List.range n).map ((start + ·) ∘ Nat.succ) :=
      List.map_congr_left fun x _ => by simp only [Function.comp]; omega
    have hd : decide (start + 1 + n = max) = decide (start + (n + 1) = max) := by simp only [decide_eq_decide]; omega
    rw [he, hd]

/-- The numbers the suggested loop gives to the counter, and whether it panics. `enumerate` counts from `0` in `usize`. -/
def Sugg.run (max start n : Nat) : Sugg → List Nat × Bool
  | .enumerate => (List.range n, false)
  | .take => takeRun max start n
  | .zip => zipRun max start n

/-- If the counter doesn't overflow in the loop, the suggested loop has the same numbers. It panics only with `zip`, and only if the counter is the
largest number in the end.

What is missing: that it doesn't panic, which is false (`zip_panics`). -/
theorem numbers_partial (ty : Ty) (zero unused : Bool) (max start n : Nat) (hz : zero = true → start = 0) (h : start + n ≤ max) :
    ((suggestion ty zero unused).run max start n).1 = (List.range n).map (start + ·) ∧
    (((suggestion ty zero unused).run max start n).2 = true → suggestion ty zero unused = .zip ∧ start + n = max) := by
  cases hsg : suggestion ty zero unused with
  | enumerate =>
    have : zero = true := by
      unfold suggestion at hsg
      cases zero with
      | true => rfl
      | false => split at hsg <;> cases unused <;> simp at hsg
    subst this
    rw [hz rfl]
    simp [Sugg.run]
  | take => simp [Sugg.run, takeRun_eq max n start h]
  | zip => simp [Sugg.run, zipRun_eq max n start h]

/-- 255 elements and a counter of type `u8` that starts at `0`: the loop is fine, but the suggestion panics (with overflow checks). -/
theorem zip_panics : suggestion (.other 255) true false = .zip ∧ (zipRun 255 0 255).2 = true ∧ 0 + 255 ≤ 255 := by
  refine ⟨rfl, ?_, by omega⟩
  rw [zipRun_eq 255 255 0 (by omega)]; rfl

end Verif.Counter
