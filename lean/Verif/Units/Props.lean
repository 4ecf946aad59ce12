import Verif.Units.Model

/-!
# Durations in larger units (C114)
-/

namespace Verif.Units

/-- Entries follow each other: each is its factor times the one before, and says when it is available. -/
def Chain (meets : Version → Bool) (feature : Bool) : Unit → List Model.Entry → Prop
  | _, [] => True
  | u, e :: es =>
    e.constructor.ns = u.ns * e.factor ∧ 1 < e.factor ∧ e.since.all meets = available meets feature e.constructor ∧
      Chain meets feature e.constructor es

theorem chain_bigger {meets : Version → Bool} {feature : Bool} : ∀ {es : List Model.Entry} {u : Unit}, 0 < u.ns →
    Chain meets feature u es → ∀ e ∈ es, u.ns < e.constructor.ns ∧ u.ns ∣ e.constructor.ns
  | e :: es, u, hu, ⟨h1, h2, _, h3⟩, e', he => by
    have hlt : u.ns < e.constructor.ns := by
      rw [h1]; exact Nat.lt_mul_iff_one_lt_right hu |>.mpr h2
    have hd : u.ns ∣ e.constructor.ns := by rw [h1]; exact Nat.dvd_mul_right _ _
    rcases List.mem_cons.mp he with rfl | he
    · exact ⟨hlt, hd⟩
    · have := chain_bigger (Nat.lt_trans hu hlt) h3 e' he
      exact ⟨Nat.lt_trans hlt this.1, Nat.dvd_trans hd this.2⟩

theorem fold_spec {meets : Version → Bool} {feature : Bool} : ∀ {es : List Model.Entry} {u : Unit} {v : Nat}, 0 < u.ns →
    Chain meets feature u es →
    (Model.fold meets (u, v) es).2 * (Model.fold meets (u, v) es).1.ns = v * u.ns ∧
      (Model.fold meets (u, v) es).2 ≤ v ∧
      ((Model.fold meets (u, v) es).1 = u ∨ (u.ns < (Model.fold meets (u, v) es).1.ns ∧
        available meets feature (Model.fold meets (u, v) es).1 = true)) ∧
      ∀ e ∈ es, (Model.fold meets (u, v) es).1.ns < e.constructor.ns →
        (∀ e' ∈ es, e'.constructor.ns ≤ e.constructor.ns → available meets feature e'.constructor = true) →
        ¬ e.constructor.ns ∣ v * u.ns
  | [], u, v, hu, _ => by simp [Model.fold]
  | e :: es, u, v, hu, hc => by
    have hb := chain_bigger hu hc
    obtain ⟨h1, h2, h3, h4⟩ := hc
    have he0 : 0 < e.constructor.ns := Nat.lt_trans hu (hb e List.mem_cons_self).1
    have hrest := chain_bigger he0 h4
    simp only [Model.fold, Model.divExact]
    by_cases hm : v % e.factor = 0
    · have hv : v / e.factor * e.constructor.ns = v * u.ns := by
        rw [h1, Nat.mul_comm u.ns, ← Nat.mul_assoc, Nat.div_mul_cancel (Nat.dvd_of_mod_eq_zero hm)]
      simp only [hm, if_true]
      by_cases hs : e.since.all meets = true
      · simp only [hs, if_true]
        have ih := fold_spec (v := v / e.factor) he0 h4
        rw [hv] at ih
        obtain ⟨i1, i2, i3, i4⟩ := ih
        refine ⟨i1, Nat.le_trans i2 (Nat.div_le_self _ _), .inr ?_, ?_⟩
        · rcases i3 with i3 | i3
          · rw [i3]; exact ⟨(hb e List.mem_cons_self).1, by rw [← h3]; exact hs⟩
          · exact ⟨Nat.lt_trans (hb e List.mem_cons_self).1 i3.1, i3.2⟩
        · intro e' he' hlt ha
          rcases List.mem_cons.mp he' with rfl | he''
          · rcases i3 with i3 | i3
            · rw [i3] at hlt; omega
            · omega
          · exact i4 e' he'' hlt fun e2 h5 h6 => ha e2 (List.mem_cons_of_mem _ h5) h6
      · simp only [hs, Bool.false_eq_true, if_false]
        refine ⟨trivial, Nat.le_refl _, .inl trivial, ?_⟩
        intro e' he' _ ha
        have : e.constructor.ns ≤ e'.constructor.ns := by
          rcases List.mem_cons.mp he' with rfl | he''
          · exact Nat.le_refl _
          · exact Nat.le_of_lt (hrest e' he'').1
        have := ha e List.mem_cons_self this
        rw [← h3] at this
        exact absurd this hs
    · simp only [hm, if_false]
      refine ⟨trivial, Nat.le_refl _, .inl trivial, ?_⟩
      intro e' he' _ _ hd
      have hd' : e.constructor.ns ∣ v * u.ns := by
        rcases List.mem_cons.mp he' with rfl | he''
        · exact hd
        · exact Nat.dvd_trans (hrest e' he'').2 hd
      rw [h1, Nat.mul_comm v] at hd'
      exact hm (Nat.mod_eq_zero_of_dvd (Nat.dvd_of_mul_dvd_mul_left hu hd'))

/-- The units after a unit. -/
theorem after (meets : Version → Bool) (feature : Bool) (u : Unit) :
    Chain meets feature u (((Model.newUnits feature).dropWhile (·.constructor != u)).drop 1) := by
  cases feature <;> cases u <;>
    simp +decide [Model.newUnits, Model.units, Model.extendedUnits, Chain, Unit.ns, available, List.dropWhile_cons]

theorem ns_pos (u : Unit) : 0 < u.ns := by cases u <;> decide

/-- The units that the list has. -/
theorem after_mem (feature : Bool) (u w : Unit) (h : u.ns < w.ns) (hw : feature = true ∨ (w ≠ .days ∧ w ≠ .weeks)) :
    ∃ e ∈ ((Model.newUnits feature).dropWhile (·.constructor != u)).drop 1, e.constructor = w := by
  cases feature <;> cases u <;> cases w <;>
    simp_all +decide [Model.newUnits, Model.units, Model.extendedUnits, Unit.ns, List.dropWhile_cons]

/-- A promoted value makes the same duration with a larger unit that is available, and the constructor doesn't panic. -/
theorem promote_same {meets : Version → Bool} {feature : Bool} {name u : Unit} {value v : Nat}
    (h : Model.promote meets feature name value = some (u, v)) :
    duration u v = duration name value ∧ name.ns < u.ns ∧ available meets feature u = true ∧ v ≤ value ∧ v * u.ns = value * name.ns := by
  have hs := fold_spec (meets := meets) (feature := feature) (v := value) (ns_pos name) (after meets feature name)
  simp only [Model.promote] at h
  split at h
  · rename_i hne
    rw [Option.some.inj h] at hs hne
    obtain ⟨h1, h2, h3, -⟩ := hs
    rcases h3 with h3 | h3
    · exact absurd h3 hne
    · exact ⟨by simp only [duration, h1], h3.1, h3.2, h2, h1⟩
  · cases h

/-- The promoted unit is the largest one: no larger unit that can be reached through available ones divides the duration. -/
theorem promote_largest {meets : Version → Bool} {feature : Bool} {name u : Unit} {value v : Nat}
    (h : Model.promote meets feature name value = some (u, v)) {w : Unit} (hw : u.ns < w.ns)
    (ha : ∀ w', name.ns < w'.ns → w'.ns ≤ w.ns → available meets feature w' = true) : ¬ w.ns ∣ value * name.ns := by
  have hs := (fold_spec (meets := meets) (feature := feature) (v := value) (ns_pos name) (after meets feature name)).2.2.2
  have hb := chain_bigger (ns_pos name) (after meets feature name)
  have hsame := promote_same h
  simp only [Model.promote] at h
  split at h
  · rw [Option.some.inj h] at hs
    have hnw := Nat.lt_trans hsame.2.1 hw
    have hf : feature = true ∨ (w ≠ .days ∧ w ≠ .weeks) := by
      have := ha w hnw (Nat.le_refl _)
      cases w <;> simp_all [available]
    obtain ⟨e, he, rfl⟩ := after_mem feature name w hnw hf
    exact hs e he hw fun e' he' hle => ha _ (hb e' he').1 hle
  · cases h

/-- Whatever can be said with a larger unit that can be reached through available ones is promoted. -/
theorem promote_found {meets : Version → Bool} {feature : Bool} {name w : Unit} {value : Nat} (hw : name.ns < w.ns)
    (ha : ∀ w', name.ns < w'.ns → w'.ns ≤ w.ns → available meets feature w' = true) (hd : w.ns ∣ value * name.ns) :
    ∃ u v, Model.promote meets feature name value = some (u, v) ∧ w.ns ≤ u.ns := by
  have hs := (fold_spec (meets := meets) (feature := feature) (v := value) (ns_pos name) (after meets feature name)).2.2.2
  have hb := chain_bigger (ns_pos name) (after meets feature name)
  have hf : feature = true ∨ (w ≠ .days ∧ w ≠ .weeks) := by
    have := ha w hw (Nat.le_refl _)
    cases w <;> simp_all [available]
  obtain ⟨e, he, rfl⟩ := after_mem feature name w hw hf
  have hle : e.constructor.ns ≤ (Model.fold meets (name, value) (((Model.newUnits feature).dropWhile (·.constructor != name)).drop 1)).1.ns :=
    Nat.not_lt.mp fun hlt => hs e he hlt (fun e' he' hle => ha _ (hb e' he').1 hle) hd
  refine ⟨_, (Model.fold meets (name, value) (((Model.newUnits feature).dropWhile (·.constructor != name)).drop 1)).2, ?_, hle⟩
  simp only [Model.promote]
  rw [if_pos]
  intro heq
  rw [heq] at hle
  omega

/-- What is reported: nonzero values that can be promoted, and literals only if the new value is above ten. -/
theorem report_iff {meets : Version → Bool} {feature literal : Bool} {name u : Unit} {value v : Nat} :
    Model.check meets feature literal name value = some (u, v) ↔
      value ≠ 0 ∧ Model.promote meets feature name value = some (u, v) ∧ (literal = true → 10 < v) := by
  simp only [Model.check]
  by_cases h0 : value = 0
  · simp [h0]
  · simp only [ne_eq, h0, not_false_eq_true, if_true, true_and]
    cases Model.promote meets feature name value with
    | none => simp
    | some p =>
      obtain ⟨u', v'⟩ := p
      cases literal <;> simp
      constructor
      · rintro ⟨h, rfl, rfl⟩; exact ⟨⟨rfl, rfl⟩, h⟩
      · rintro ⟨⟨rfl, rfl⟩, h⟩; exact ⟨h, rfl, rfl⟩

/-- The suggestion makes the same duration. -/
theorem suggestion_same {meets : Version → Bool} {feature literal : Bool} {name u : Unit} {value v : Nat}
    (h : Model.check meets feature literal name value = some (u, v)) :
    duration u v = duration name value ∧ available meets feature u = true ∧ v < value ∧ 0 < v := by
  obtain ⟨h0, hp, -⟩ := report_iff.mp h
  obtain ⟨h1, h2, h3, h4, h5⟩ := promote_same hp
  have hv : 0 < v := by
    rcases Nat.eq_zero_or_pos v with rfl | hv
    · have := Nat.mul_pos (Nat.pos_of_ne_zero h0) (ns_pos name)
      omega
    · exact hv
  refine ⟨h1, h3, ?_, hv⟩
  refine Nat.lt_of_le_of_ne h4 fun he => ?_
  subst he
  have := Nat.mul_lt_mul_of_pos_left h2 hv
  omega

/-- A suggested constructor panics only if the one that was written does; with `u64` values it doesn't, for units up to seconds. -/
theorem no_panic {u : Unit} {v : Nat} (hu : u.ns ≤ Unit.secs.ns) (hv : v < u64) : (duration u v).isSome = true := by
  simp only [duration]
  rw [if_pos]
  · rfl
  · exact Nat.lt_of_le_of_lt (Nat.mul_le_mul_left v hu) (Nat.mul_lt_mul_of_pos_right hv (by decide))

example : Model.check (fun _ => true) false false .millis (5 * 60 * 1000) = some (.mins, 5) ∧ duration .mins 5 = some 300000000000 := by
  decide +kernel

example : Model.check (fun _ => true) true true .secs 7257600 = some (.weeks, 12) := by decide +kernel

example : Model.check (fun v => v != .minutesHours) true false .secs 604800 = none := by decide +kernel

example : ∀ w', Unit.millis.ns < w'.ns → w'.ns ≤ Unit.hours.ns → available (fun _ => true) false w' = true := by
  intro w; cases w <;> decide

end Verif.Units
