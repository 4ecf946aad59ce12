import Verif.StrCase.Model

/-!
# Properties: matches on strings in another case
-/

namespace Verif.StrCase

/-! ## Texts that a method can return -/

theorem lowerFrom_mem (U : Unicode) (hU : U.Sound) (s : List Char) : ∀ b, ∀ d ∈ lowerFrom U b s, U.lower d = [d] := by
  induction s with
  | nil => intro b d h; cases h
  | cons c r ih =>
    intro b d h
    rw [lowerFrom] at h
    rcases List.mem_append.1 h with h | h
    · by_cases hc : c = 'Σ'
      · rw [if_pos hc] at h
        cases hf : U.final b r with
        | true =>
          rw [hf, if_pos rfl, List.mem_singleton] at h
          rw [h]; exact hU.sigma_end
        | false =>
          rw [hf, if_neg (by simp), List.mem_singleton] at h
          rw [h]; exact hU.sigma_small
      · rw [if_neg hc] at h
        exact hU.lower_lower c d h
    · exact ih _ d h

theorem lowerFrom_id (U : Unicode) (hU : U.Sound) (s : List Char) (h : ∀ d ∈ s, U.lower d = [d]) : ∀ b, lowerFrom U b s = s := by
  induction s with
  | nil => intro b; rfl
  | cons c r ih =>
    intro b
    have hc := h c (by simp)
    have hn : c ≠ 'Σ' := by
      intro e
      rw [e, hU.sigma] at hc
      revert hc
      decide
    rw [lowerFrom, if_neg hn, hc, ih (fun d hd => h d (by simp [hd]))]
    rfl

theorem small_range (c : Char) (h : ¬ ('A' ≤ c ∧ c ≤ 'Z')) : isUp c = false := by
  have : ¬ (65 ≤ c.toNat ∧ c.toNat ≤ 90) := h
  simp only [isUp, Bool.and_eq_false_iff, decide_eq_false_iff_not]
  omega

theorem large_range (c : Char) (h : ¬ ('a' ≤ c ∧ c ≤ 'z')) : isLow c = false := by
  have : ¬ (97 ≤ c.toNat ∧ c.toNat ≤ 122) := h
  simp only [isLow, Bool.and_eq_false_iff, decide_eq_false_iff_not]
  omega

theorem toNat_ofNat (n : Nat) (h : n < 1000) : (Char.ofNat n).toNat = n := by
  have hv : n.isValidChar := Or.inl (by omega)
  simp only [Char.ofNat, dif_pos hv]
  rfl

theorem asciiSmall_not (c : Char) : isUp (asciiSmall c) = false := by
  unfold asciiSmall
  by_cases h : 'A' ≤ c ∧ c ≤ 'Z'
  · rw [if_pos h]
    have h' : 65 ≤ c.toNat ∧ c.toNat ≤ 90 := h
    simp only [isUp, Bool.and_eq_false_iff, decide_eq_false_iff_not]
    rw [toNat_ofNat _ (by omega)]
    omega
  · rw [if_neg h]
    exact small_range c h

theorem asciiLarge_not (c : Char) : isLow (asciiLarge c) = false := by
  unfold asciiLarge
  by_cases h : 'a' ≤ c ∧ c ≤ 'z'
  · rw [if_pos h]
    have h' : 97 ≤ c.toNat ∧ c.toNat ≤ 122 := h
    simp only [isLow, Bool.and_eq_false_iff, decide_eq_false_iff_not]
    rw [toNat_ofNat _ (by omega)]
    omega
  · rw [if_neg h]
    exact large_range c h

theorem asciiSmall_id (c : Char) (h : isUp c = false) : asciiSmall c = c := by
  unfold asciiSmall
  rw [if_neg]
  intro k
  have k' : 65 ≤ c.toNat ∧ c.toNat ≤ 90 := k
  rw [isUp, decide_eq_true k'.1, decide_eq_true k'.2] at h
  cases h

theorem asciiLarge_id (c : Char) (h : isLow c = false) : asciiLarge c = c := by
  unfold asciiLarge
  rw [if_neg]
  intro k
  have k' : 97 ≤ c.toNat ∧ c.toNat ≤ 122 := k
  rw [isLow, decide_eq_true k'.1, decide_eq_true k'.2] at h
  cases h

theorem map_id_of (f : Char → Char) (s : List Char) (h : ∀ c ∈ s, f c = c) : s.map f = s := by
  induction s with
  | nil => rfl
  | cons c s ih => rw [List.map_cons, h c (by simp), ih (fun d hd => h d (by simp [hd]))]

theorem flatMap_id_of (f : Char → List Char) (s : List Char) (h : ∀ c ∈ s, f c = [c]) : s.flatMap f = s := by
  induction s with
  | nil => rfl
  | cons c s ih => rw [List.flatMap_cons, h c (by simp), ih (fun d hd => h d (by simp [hd]))]; rfl

theorem firstIs_iff (f : Char → List Char) (h : ∀ c, (f c).head? = some c → f c = [c]) (c : Char) : firstIs f c = true ↔ f c = [c] := by
  rw [firstIs, beq_iff_eq]
  refine ⟨h c, fun k => by rw [k]; rfl⟩

/-- What a method returns passes its check. -/
theorem run_check (U : Unicode) (hU : U.Sound) (m : Method) (s : List Char) : caseCheck U m (m.run U s) = true := by
  cases m with
  | lower =>
    simp only [caseCheck, Method.run, List.all_eq_true]
    intro d hd
    exact (firstIs_iff U.lower hU.lower_self d).2 (lowerFrom_mem U hU s [] d hd)
  | asciiLower =>
    simp only [caseCheck, Method.run, Bool.not_eq_true', List.any_eq_false, List.mem_map]
    rintro d ⟨c, _, e⟩
    rw [← e, asciiSmall_not]
    simp
  | upper =>
    simp only [caseCheck, Method.run, List.all_eq_true, List.mem_flatMap]
    rintro d ⟨c, _, hd⟩
    exact (firstIs_iff U.upper hU.upper_self d).2 (hU.upper_upper c d hd)
  | asciiUpper =>
    simp only [caseCheck, Method.run, Bool.not_eq_true', List.any_eq_false, List.mem_map]
    rintro d ⟨c, _, e⟩
    rw [← e, asciiLarge_not]
    simp

/-- A text that passes the check of a method is left alone by it. -/
theorem check_run (U : Unicode) (hU : U.Sound) (m : Method) (t : List Char) (h : caseCheck U m t = true) : m.run U t = t := by
  cases m with
  | lower =>
    simp only [caseCheck, List.all_eq_true] at h
    exact lowerFrom_id U hU t (fun d hd => (firstIs_iff U.lower hU.lower_self d).1 (h d hd)) []
  | asciiLower =>
    simp only [caseCheck, Bool.not_eq_true', List.any_eq_false] at h
    exact map_id_of _ t (fun c hc => asciiSmall_id c (by simpa using h c hc))
  | upper =>
    simp only [caseCheck, List.all_eq_true] at h
    exact flatMap_id_of _ t (fun d hd => (firstIs_iff U.upper hU.upper_self d).1 (h d hd))
  | asciiUpper =>
    simp only [caseCheck, Bool.not_eq_true', List.any_eq_false] at h
    exact map_id_of _ t (fun c hc => asciiLarge_id c (by simpa using h c hc))

/-- The check says whether the method can return the text. -/
theorem check_iff (U : Unicode) (hU : U.Sound) (m : Method) (t : List Char) : caseCheck U m t = true ↔ ∃ s, m.run U s = t :=
  ⟨fun h => ⟨t, check_run U hU m t h⟩, fun ⟨s, e⟩ => by rw [← e]; exact run_check U hU m s⟩

theorem suggestion_eq (U : Unicode) (m : Method) (t : List Char) : suggestion U m t = m.run U t := by cases m <;> rfl

theorem run_run (U : Unicode) (hU : U.Sound) (m : Method) (s : List Char) : m.run U (m.run U s) = m.run U s :=
  check_run U hU m _ (run_check U hU m s)

/-! ## Which arms are reported -/

theorem verify_iff (U : Unicode) (m : Method) (arms : List Pat) : ∀ i t, verifyCase U m arms = some (i, t) ↔
    arms[i]? = some (.text t) ∧ caseCheck U m t = false ∧ ∀ j < i, ∀ t', arms[j]? = some (.text t') → caseCheck U m t' = true := by
  induction arms with
  | nil => intro i t; simp [verifyCase]
  | cons p r ih =>
    intro i t
    have step : ∀ (_ : ∀ t', p = .text t' → caseCheck U m t' = true),
        (((verifyCase U m r).map fun p => (p.1 + 1, p.2)) = some (i, t) ↔
        (p :: r)[i]? = some (.text t) ∧ caseCheck U m t = false ∧ ∀ j < i, ∀ t', (p :: r)[j]? = some (.text t') → caseCheck U m t' = true) := by
      intro hp
      cases i with
      | zero =>
        constructor
        · intro h
          rw [Option.map_eq_some_iff] at h
          obtain ⟨q, _, e⟩ := h
          simp at e
        · rintro ⟨h1, h2, _⟩
          rw [List.getElem?_cons_zero] at h1
          injection h1 with h1
          rw [hp t h1] at h2
          cases h2
      | succ i =>
        rw [List.getElem?_cons_succ]
        constructor
        · intro h
          rw [Option.map_eq_some_iff] at h
          obtain ⟨⟨i', t'⟩, hq, e⟩ := h
          simp only [Prod.mk.injEq, Nat.add_right_cancel_iff] at e
          rw [e.1, e.2] at hq
          obtain ⟨h1, h2, h3⟩ := (ih i t).1 hq
          refine ⟨h1, h2, fun j hj t' ht => ?_⟩
          cases j with
          | zero =>
            rw [List.getElem?_cons_zero] at ht
            injection ht with ht
            exact hp t' ht
          | succ j => exact h3 j (by omega) t' ht
        · rintro ⟨h1, h2, h3⟩
          rw [(ih i t).2 ⟨h1, h2, fun j hj t' ht => h3 (j + 1) (by omega) t' ht⟩]
          rfl
    cases p with
    | other k =>
      rw [verifyCase]
      exact step (fun t' e => by cases e)
    | text t0 =>
      rw [verifyCase]
      cases hc : caseCheck U m t0 with
      | true =>
        rw [if_neg (by simp)]
        exact step (fun t' e => by cases e; exact hc)
      | false =>
        rw [if_pos (by rfl)]
        constructor
        · intro h
          cases h
          exact ⟨rfl, hc, fun j hj => absurd hj (by omega)⟩
        · rintro ⟨h1, h2, h3⟩
          cases i with
          | zero =>
            rw [List.getElem?_cons_zero] at h1
            cases h1
            rfl
          | succ i =>
            have := h3 0 (by omega) t0 rfl
            rw [hc] at this
            cases this

theorem visit_direct (m : Method) (e : Scr) (h : Direct m e) : visit e = some m := by
  induction h with
  | meth e => rfl
  | same e _ ih => exact ih

theorem value_direct (U : Unicode) (v : Env) (m : Method) (e : Scr) (h : Direct m e) : ∃ s, e.value U v = m.run U s := by
  induction h with
  | meth e => exact ⟨_, rfl⟩
  | same e _ ih => exact ih

/-- For a match on what a method returns, the arm reported is the first one with a text the method never returns, and its new text is what the
method makes of the old one. -/
theorem reported_iff (U : Unicode) (hU : U.Sound) (m : Method) (e : Scr) (h : Direct m e) (arms : List Pat) (i : Nat) (u : List Char) :
    check U e arms = some (i, u) ↔ ∃ t, arms[i]? = some (.text t) ∧ (∀ s, m.run U s ≠ t) ∧ u = m.run U t ∧
      ∀ j < i, ∀ t', arms[j]? = some (.text t') → ∃ s, m.run U s = t' := by
  have hf : ∀ t, caseCheck U m t = false ↔ ∀ s, m.run U s ≠ t := by
    intro t
    constructor
    · intro k s e
      have := (check_iff U hU m t).2 ⟨s, e⟩
      rw [k] at this
      cases this
    · intro k
      cases hc : caseCheck U m t with
      | false => rfl
      | true =>
        obtain ⟨s, e⟩ := (check_iff U hU m t).1 hc
        exact absurd e (k s)
  rw [check, visit_direct m e h]
  simp only [Option.map_eq_some_iff]
  constructor
  · rintro ⟨⟨i', t⟩, hv, e⟩
    simp only [Prod.mk.injEq] at e
    obtain ⟨h1, h2, h3⟩ := (verify_iff U m arms i' t).1 hv
    rw [e.1] at h1 h3
    refine ⟨t, h1, (hf t).1 h2, by rw [← e.2, suggestion_eq], fun j hj t' ht => (check_iff U hU m t').1 (h3 j hj t' ht)⟩
  · rintro ⟨t, h1, h2, h3, h4⟩
    refine ⟨(i, t), (verify_iff U m arms i t).2 ⟨h1, (hf t).2 h2, fun j hj t' ht => (check_iff U hU m t').2 (h4 j hj t' ht)⟩, ?_⟩
    rw [h3, suggestion_eq]

/-- Nothing is reported when no method that changes the case of a string is called. -/
theorem not_strings (U : Unicode) (e : Scr) (h : Plain e) (arms : List Pat) : check U e arms = none := by
  have hv : visit e = none := by
    induction h with
    | var k => rfl
    | meth m e _ ih => exact ih
    | same e _ ih => exact ih
    | other k a b _ _ ha hb => rw [visit, ha, hb]; rfl
  rw [check, hv]

example : Plain (.other 0 (.meth .lower false (.var 0)) (.same (.var 1))) := .other _ _ _ (.meth _ _ (.var 0)) (.same _ (.var 1))

/-- The arm that is reported is never taken. -/
theorem never_taken (U : Unicode) (hU : U.Sound) (m : Method) (e : Scr) (h : Direct m e) (arms : List Pat) (i : Nat) (u : List Char)
    (hc : check U e arms = some (i, u)) (O : Nat → List Char → Bool) (v : Env) : taken O (e.value U v) arms ≠ some i := by
  obtain ⟨t, h1, h2, _⟩ := (reported_iff U hU m e h arms i u).1 hc
  obtain ⟨s, hs⟩ := value_direct U v m e h
  rw [hs]
  have key : ∀ (arms : List Pat) (i : Nat), arms[i]? = some (.text t) → taken O (m.run U s) arms ≠ some i := by
    intro arms
    induction arms with
    | nil => intro i k; simp at k
    | cons p r ih =>
      intro i k hk
      rw [taken] at hk
      by_cases hm : p.matches O (m.run U s) = true
      · rw [if_pos hm] at hk
        cases hk
        rw [List.getElem?_cons_zero] at k
        cases k
        rw [Pat.matches, beq_iff_eq] at hm
        exact h2 s hm
      · rw [if_neg hm, Option.map_eq_some_iff] at hk
        obtain ⟨j, hj, e⟩ := hk
        rw [← e, List.getElem?_cons_succ] at k
        exact ih j k hj
  exact key arms i h1

/-- With its new text the method can return the text of the arm, and other strings take the same arms as before. -/
theorem fixed (U : Unicode) (hU : U.Sound) (m : Method) (e : Scr) (h : Direct m e) (arms : List Pat) (i : Nat) (u : List Char)
    (hc : check U e arms = some (i, u)) (O : Nat → List Char → Bool) :
    (∃ s, m.run U s = u) ∧ ∀ v, e.value U v ≠ u → taken O (e.value U v) (fixArm arms i u) = taken O (e.value U v) arms := by
  obtain ⟨t, h1, h2, h3, _⟩ := (reported_iff U hU m e h arms i u).1 hc
  refine ⟨⟨t, h3.symm⟩, fun v hv => ?_⟩
  obtain ⟨s, hs⟩ := value_direct U v m e h
  have hne : e.value U v ≠ t := by rw [hs]; exact h2 s
  generalize e.value U v = w at hv hne
  have key : ∀ (arms : List Pat) (i : Nat), arms[i]? = some (.text t) → taken O w (arms.set i (.text u)) = taken O w arms := by
    intro arms
    induction arms with
    | nil => intro i k; simp at k
    | cons p r ih =>
      intro i k
      cases i with
      | zero =>
        rw [List.getElem?_cons_zero] at k
        cases k
        rw [List.set_cons_zero, taken, taken, Pat.matches, Pat.matches, beq_false_of_ne hv, beq_false_of_ne hne]
      | succ i =>
        rw [List.getElem?_cons_succ] at k
        rw [List.set_cons_succ, taken, taken, ih i k]
  exact key arms i h1

/-- Applying the suggestions one after the other ends: afterwards the first arm reported is a later one. -/
theorem later (U : Unicode) (hU : U.Sound) (m : Method) (e : Scr) (h : Direct m e) (arms : List Pat) (i j : Nat) (u w : List Char)
    (hc : check U e arms = some (i, u)) (hd : check U e (fixArm arms i u) = some (j, w)) : i < j := by
  obtain ⟨t, h1, h2, h3, h4⟩ := (reported_iff U hU m e h arms i u).1 hc
  obtain ⟨t', k1, k2, k3, k4⟩ := (reported_iff U hU m e h _ j w).1 hd
  rcases Nat.lt_trichotomy i j with hl | hl | hl
  · exact hl
  · subst hl
    have hi : i < arms.length := by
      rcases Nat.lt_or_ge i arms.length with hi | hi
      · exact hi
      · rw [List.getElem?_eq_none hi] at h1; cases h1
    rw [fixArm, List.getElem?_set_self hi] at k1
    cases k1
    exact absurd h3.symm (k2 t)
  · rw [fixArm, List.getElem?_set_ne (by omega)] at k1
    obtain ⟨s, hs⟩ := h4 j hl t' k1
    exact absurd hs (k2 s)

/-! ## The text of the suggestion -/

theorem readFrom_plain (t : List Char) (h : ∀ c ∈ t, c ≠ '"' ∧ c ≠ '\\') : readFrom (t ++ ['"']) = some (t, []) := by
  induction t with
  | nil => rfl
  | cons c t ih =>
    have hc := h c (by simp)
    rw [List.cons_append, readFrom, ih (fun d hd => h d (by simp [hd]))]
    · rfl
    all_goals simp_all

/-- Without quotes and backslashes, what is suggested reads as the new text. -/
theorem reads (t : List Char) (h : ∀ c ∈ t, c ≠ '"' ∧ c ≠ '\\') : readLit (rendered t) = some t := by
  rw [rendered, readLit, readFrom_plain t h]

/-- Quotes and backslashes are not escaped again: the suggestion does not parse or is another text. -/
theorem not_escaped : readLit (rendered ['a', '"']) = none ∧ readLit (rendered ['a', '\\', 'n']) = some ['a', '\n'] := by decide +kernel

/-! ## Cases -/

/-- Tables for ASCII and the sigma. -/
def U0 : Unicode where
  lower c := if c = 'Σ' then ['σ'] else [asciiSmall c]
  upper c := [asciiLarge c]
  final _ after := after.isEmpty

theorem U0_sound : U0.Sound where
  lower_lower := by
    intro c d h
    have key : ∀ x, asciiSmall (asciiSmall x) = asciiSmall x := fun x => asciiSmall_id _ (asciiSmall_not x)
    have hs : ∀ x, x ≠ 'Σ' → asciiSmall x ≠ 'Σ' := by
      intro x hx e
      unfold asciiSmall at e
      by_cases h : 'A' ≤ x ∧ x ≤ 'Z'
      · rw [if_pos h] at e
        have h' : 65 ≤ x.toNat ∧ x.toNat ≤ 90 := h
        have := congrArg Char.toNat e
        rw [toNat_ofNat _ (by omega)] at this
        have e3 : 'Σ'.toNat = 931 := rfl
        omega
      · rw [if_neg h] at e
        exact hx e
    simp only [U0] at h ⊢
    by_cases hc : c = 'Σ'
    · rw [if_pos hc, List.mem_singleton] at h
      rw [h]
      decide
    · rw [if_neg hc, List.mem_singleton] at h
      rw [h, if_neg (hs c hc), key]
  upper_upper := by
    intro c d h
    simp only [U0, List.mem_singleton] at h ⊢
    rw [h, asciiLarge_id _ (asciiLarge_not c)]
  lower_self := by
    intro c h
    simp only [U0] at h ⊢
    by_cases hc : c = 'Σ'
    · rw [if_pos hc] at h
      rw [hc] at h
      exact absurd h (by decide)
    · rw [if_neg hc] at h ⊢
      simp only [List.head?_cons, Option.some.injEq] at h
      rw [h]
  upper_self := by
    intro c h
    simp only [U0, List.head?_cons, Option.some.injEq] at h ⊢
    rw [h]
  sigma := rfl
  sigma_small := by decide
  sigma_end := by decide

example : check U0 (.same (.meth .lower true (.var 0))) [.text "foo".toList, .other 0, .text "BaΣ".toList, .text "X".toList] = some (2, "baς".toList) := by
  decide +kernel

/-- Code between the match and the method is looked through, although the value can then be anything: here the arm that is reported is taken. -/
theorem false_alarm : ∃ (e : Scr) (arms : List Pat) (v : Env), check U0 e arms = some (0, ['a']) ∧
    taken (fun _ _ => false) (e.value U0 v) arms = some 0 ∧ taken (fun _ _ => false) (e.value U0 v) (fixArm arms 0 ['a']) = none := by
  refine ⟨.other 0 (.meth .lower true (.var 0)) (.var 1), [.text ['A']], ⟨fun _ => [], fun _ s => s, fun _ _ _ => ['A']⟩, ?_, ?_, ?_⟩ <;> decide +kernel

end Verif.StrCase
