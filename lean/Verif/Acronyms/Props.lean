import Verif.Acronyms.Model

/-!
# Properties: acronyms in names
-/

namespace Verif.Acronyms

theorem isUp_iff (c : Char) : isUp c = true ↔ Up c := by
  show (decide (65 ≤ c.toNat) && decide (c.toNat ≤ 90)) = true ↔ 65 ≤ c.toNat ∧ c.toNat ≤ 90
  rw [Bool.and_eq_true, decide_eq_true_eq, decide_eq_true_eq]

theorem isUp_false (c : Char) : isUp c = false ↔ ¬ Up c := by
  rw [← isUp_iff]; cases isUp c <;> simp

theorem toLow_not (c : Char) : ¬ Up (toLow c) := by
  unfold toLow
  by_cases h : isUp c = true
  · rw [if_pos h]
    have h' := (isUp_iff c).1 h
    obtain ⟨h1, h2⟩ := h'
    have e1 : 'A'.toNat = 65 := rfl
    have e2 : 'Z'.toNat = 90 := rfl
    rw [e1] at h1; rw [e2] at h2
    have e : (Char.ofNat (c.toNat + 32)).toNat = c.toNat + 32 := by
      have hv : (c.toNat + 32).isValidChar := Or.inl (by omega)
      simp only [Char.ofNat, dif_pos hv]
      rfl
    rintro ⟨_, k⟩
    rw [e, e2] at k
    omega
  · rw [if_neg h]
    exact fun k => h ((isUp_iff c).2 k)

theorem folded_toLow (c : Char) : folded (toLow c) = folded c := by
  have h := toLow_not c
  rw [folded, if_neg h]
  unfold toLow folded
  by_cases h : isUp c = true
  · rw [if_pos h, if_pos ((isUp_iff c).1 h)]
  · rw [if_neg h, if_neg (fun k => h ((isUp_iff c).2 k))]

theorem toLow_id (c : Char) (h : ¬ Up c) : toLow c = c := by
  rw [toLow, if_neg (fun k => h ((isUp_iff c).1 k))]

theorem toLow_ne (c : Char) (h : Up c) : toLow c ≠ c := fun e => toLow_not c (by rw [e]; exact h)

/-! ## Which names contain an acronym -/

/-- Three in a row, or two at the end. -/
def acr : List Bool → Bool
  | [] => false
  | [_] => false
  | [x, y] => x && y
  | x :: y :: z :: r => (x && y && z) || acr (y :: z :: r)

theorem acronym_cons (x : Char) (s : List Char) (h : Acronym s) : Acronym (x :: s) := by
  rcases h with ⟨a, p, q, r, b, e, h⟩ | ⟨a, p, q, e, h⟩
  · exact Or.inl ⟨x :: a, p, q, r, b, by rw [e]; rfl, h⟩
  · exact Or.inr ⟨x :: a, p, q, by rw [e]; rfl, h⟩

theorem acronym_append (a s : List Char) (h : Acronym s) : Acronym (a ++ s) := by
  induction a with
  | nil => exact h
  | cons x a ih => exact acronym_cons x _ ih

theorem acr_iff (s : List Char) : acr (s.map isUp) = true ↔ Acronym s := by
  induction s with
  | nil =>
    refine ⟨(fun h => by cases h), ?_⟩
    rintro (⟨a, x, y, z, b, e, _⟩ | ⟨a, x, y, e, _⟩)
    · simp at e
    · simp at e
  | cons x s ih =>
    match s, ih with
    | [], _ =>
      refine ⟨(fun h => by cases h), ?_⟩
      rintro (⟨a, p, q, r, b, e, _⟩ | ⟨a, p, q, e, _⟩)
      · have := congrArg List.length e; simp at this; omega
      · have := congrArg List.length e; simp at this
    | [y], _ =>
      simp only [List.map_cons, List.map_nil, acr, Bool.and_eq_true, isUp_iff]
      constructor
      · exact fun h => Or.inr ⟨[], x, y, rfl, h⟩
      · rintro (⟨a, p, q, r, b, e, _⟩ | ⟨a, p, q, e, h⟩)
        · have := congrArg List.length e; simp at this; omega
        · have ha : a = [] := by
            have := congrArg List.length e; simp at this; exact this
          rw [ha] at e
          simp only [List.nil_append, List.cons.injEq, and_true] at e
          rw [e.1, e.2]
          exact h
    | y :: z :: r, ih =>
      simp only [List.map_cons, acr, Bool.or_eq_true, Bool.and_eq_true, isUp_iff] at ih ⊢
      rw [ih]
      constructor
      · rintro (⟨⟨h1, h2⟩, h3⟩ | h)
        · exact Or.inl ⟨[], x, y, z, r, rfl, h1, h2, h3⟩
        · exact acronym_cons x _ h
      · rintro (⟨a, p, q, t, b, e, h⟩ | ⟨a, p, q, e, h⟩)
        · cases a with
          | nil =>
            simp only [List.nil_append, List.cons.injEq] at e
            refine Or.inl ⟨⟨?_, ?_⟩, ?_⟩
            · rw [e.1]; exact h.1
            · rw [e.2.1]; exact h.2.1
            · rw [e.2.2.1]; exact h.2.2
          | cons a0 a =>
            simp only [List.cons_append, List.cons.injEq] at e
            exact Or.inr (Or.inl ⟨a, p, q, t, b, e.2, h⟩)
        · cases a with
          | nil => simp at e
          | cons a0 a =>
            simp only [List.cons_append, List.cons.injEq] at e
            exact Or.inr (Or.inr ⟨a, p, q, e.2, h⟩)

theorem acr_false (r : List Bool) : acr (false :: r) = acr r := by
  match r with
  | [] => rfl
  | [_] => rfl
  | _ :: _ :: _ => simp [acr]

theorem acr_run (k : Nat) (hk : k < 3) (r : List Bool) : acr (List.replicate k true ++ false :: r) = acr r := by
  match k with
  | 0 => exact acr_false r
  | 1 =>
    cases r with
    | nil => rfl
    | cons y r =>
      show acr (true :: false :: y :: r) = _
      simp only [acr, Bool.and_false, Bool.false_and, Bool.false_or]
      exact acr_false _
  | 2 =>
    show acr (true :: true :: false :: r) = _
    simp only [acr, Bool.and_false, Bool.false_or]
    cases r with
    | nil => rfl
    | cons y r =>
      simp only [acr, Bool.and_false, Bool.false_and, Bool.false_or]
      exact acr_false _
  | k + 3 => omega

theorem containsFrom_eq (s : List Char) : ∀ k, k < 3 → containsFrom k s = acr (List.replicate k true ++ s.map isUp) := by
  induction s with
  | nil =>
    intro k hk
    match k with
    | 0 => rfl
    | 1 => rfl
    | 2 => rfl
    | k + 3 => omega
  | cons c s ih =>
    intro k hk
    rw [containsFrom, List.map_cons]
    by_cases h : isUp c = true
    · rw [if_pos h, h]
      by_cases h2 : k = 2
      · subst h2
        rfl
      · have hb : ¬ ((k + 1 == 3) = true) := by simp; omega
        rw [if_neg hb, ih (k + 1) (by omega), List.replicate_succ', List.append_assoc]
        rfl
    · rw [if_neg h]
      have h' : isUp c = false := by simpa using h
      rw [h', ih 0 (by omega), acr_run k hk]
      rfl

theorem contains_iff (s : List Char) : containsAcronym s = true ↔ Acronym s := by
  rw [containsAcronym, containsFrom_eq s 0 (by omega), ← acr_iff]
  rfl

/-! ## Which names are reported -/

theorem utf8_pos (c : Char) : 1 ≤ c.utf8Size := Char.utf8Size_pos c

theorem bytes_up (s : List Char) (h : ∀ c ∈ s, Up c) : bytes s = s.length := by
  induction s with
  | nil => rfl
  | cons c s ih =>
    have hc := h c (by simp)
    have h1 : c.utf8Size = 1 := by
      obtain ⟨_, k⟩ := hc
      have e2 : 'Z'.toNat = 90 := rfl
      rw [e2] at k
      have k' : c.val ≤ 127 := by
        rw [UInt32.le_iff_toNat_le]
        have : c.val.toNat = c.toNat := rfl
        have e3 : (127 : UInt32).toNat = 127 := rfl
        omega
      exact if_pos k'
    rw [bytes, h1, ih (fun x hx => h x (by simp [hx])), List.length_cons]
    omega

theorem caps_iff (s : List Char) : (decide (2 < bytes s) && s.all isUp) = true ↔ AllCaps s := by
  simp only [Bool.and_eq_true, decide_eq_true_eq, List.all_eq_true, isUp_iff, AllCaps]
  constructor
  · rintro ⟨h1, h2⟩
    rw [bytes_up s h2] at h1
    exact ⟨h1, h2⟩
  · rintro ⟨h1, h2⟩
    rw [bytes_up s h2]
    exact ⟨h1, h2⟩

theorem trimmed_spec (s : List Char) : ∃ n, s = List.replicate n '_' ++ trimmed s := by
  induction s with
  | nil => exact ⟨0, rfl⟩
  | cons c s ih =>
    rw [trimmed]
    by_cases h : (c == '_') = true
    · rw [if_pos h]
      obtain ⟨n, e⟩ := ih
      have hc : c = '_' := by simpa using h
      refine ⟨n + 1, ?_⟩
      rw [List.replicate_succ, List.cons_append, ← e, hc]
    · rw [if_neg h]
      exact ⟨0, rfl⟩

theorem trimmed_replicate (n : Nat) (c : Char) (r : List Char) (h : Up c) : trimmed (List.replicate n '_' ++ c :: r) = c :: r := by
  induction n with
  | zero =>
    show trimmed (c :: r) = _
    rw [trimmed, if_neg]
    intro k
    have hc : c = '_' := by simpa using k
    rw [hc] at h
    exact absurd h (by decide)
  | succ n ih =>
    rw [List.replicate_succ, List.cons_append, trimmed, if_pos (by rfl), ih]

theorem inner_iff (s : List Char) : (startsUp (trimmed s) && containsAcronym (trimmed s)) = true ↔
    ∃ n c r, s = List.replicate n '_' ++ c :: r ∧ Up c ∧ Acronym (c :: r) := by
  rw [Bool.and_eq_true, contains_iff]
  constructor
  · rintro ⟨h1, h2⟩
    obtain ⟨n, e⟩ := trimmed_spec s
    generalize hu : trimmed s = u at h1 h2 e
    cases u with
    | nil => cases h1
    | cons c r => exact ⟨n, c, r, e, (isUp_iff c).1 h1, h2⟩
  · rintro ⟨n, c, r, e, h1, h2⟩
    rw [e, trimmed_replicate n c r h1]
    exact ⟨(isUp_iff c).2 h1, h2⟩

/-- A name is reported exactly when it consists of capital letters or, if asked for, starts with one and has an acronym in it. -/
theorem reported_iff (g : Bool) (s : List Char) : (checkIdent g s).isSome = true ↔ Flagged g s := by
  unfold checkIdent Flagged
  by_cases h1 : (decide (2 < bytes s) && s.all isUp) = true
  · rw [if_pos h1]
    exact ⟨fun _ => Or.inl ((caps_iff s).1 h1), fun _ => rfl⟩
  · rw [if_neg h1]
    have h1' : ¬ AllCaps s := fun k => h1 ((caps_iff s).2 k)
    by_cases h2 : (g && startsUp (trimmed s) && containsAcronym (trimmed s)) = true
    · rw [if_pos h2]
      rw [Bool.and_assoc, Bool.and_eq_true] at h2
      exact ⟨fun _ => Or.inr ⟨h2.1, (inner_iff s).1 h2.2⟩, fun _ => rfl⟩
    · rw [if_neg h2]
      refine ⟨(fun k => by cases k), ?_⟩
      rintro (k | ⟨k1, k2⟩)
      · exact absurd k h1'
      · exact absurd (by rw [Bool.and_assoc, Bool.and_eq_true]; exact ⟨k1, (inner_iff s).2 k2⟩) h2

example : Flagged false "WASD".toList ∧ Flagged true "__HTTPResponse".toList ∧ ¬ Flagged false "HTTPResponse".toList := by
  refine ⟨(reported_iff _ _).1 (by decide +kernel), (reported_iff _ _).1 (by decide +kernel), fun h => ?_⟩
  have := (reported_iff _ _).2 h
  revert this
  decide +kernel

/-! ## The replacement -/

theorem lowered_caps (s : List Char) (h : ∀ c ∈ s, Up c) : lowered true s = s.map toLow := by
  induction s with
  | nil => rfl
  | cons c s ih =>
    have hn : nextUp s = true := by
      cases s with
      | nil => rfl
      | cons d s => exact (isUp_iff d).2 (h d (by simp))
    rw [lowered, hn, (isUp_iff c).2 (h c (by simp)), ih (fun x hx => h x (by simp [hx]))]
    rfl

theorem initial_caps (s : List Char) (h : ∀ c ∈ s, Up c) : initial s = lowered false s := by
  cases s with
  | nil => rfl
  | cons c s =>
    rw [initial, lowered, (isUp_iff c).2 (h c (by simp)), lowered_caps s (fun x hx => h x (by simp [hx]))]
    rfl

theorem check_eq (g : Bool) (s r : List Char) (h : checkIdent g s = some r) : r = lowered false s := by
  unfold checkIdent at h
  by_cases h1 : (decide (2 < bytes s) && s.all isUp) = true
  · rw [if_pos h1] at h
    injection h with h
    rw [← h, initial_caps s ((caps_iff s).1 h1).2]
  · rw [if_neg h1] at h
    by_cases h2 : (g && startsUp (trimmed s) && containsAcronym (trimmed s)) = true
    · rw [if_pos h2] at h
      injection h with h
      exact h.symm
    · rw [if_neg h2] at h
      cases h

theorem lowered_folded (s : List Char) : ∀ p, (lowered p s).map folded = s.map folded := by
  induction s with
  | nil => intro p; rfl
  | cons c s ih =>
    intro p
    rw [lowered, List.map_cons, List.map_cons, ih]
    by_cases h : (p && nextUp s) = true
    · rw [if_pos h, folded_toLow]
    · rw [if_neg h]

/-- The replacement differs from the name in the case of letters only. -/
theorem same_letters (g : Bool) (s r : List Char) (h : checkIdent g s = some r) : r.map folded = s.map folded := by
  rw [check_eq g s r h, lowered_folded]

theorem lowered_bit (p : Bool) (c : Char) (s : List Char) :
    isUp (if p && nextUp s then toLow c else c) = (isUp c && !(p && nextUp s)) := by
  cases hb : p && nextUp s with
  | true =>
    rw [if_pos rfl, (isUp_false _).2 (toLow_not c)]
    simp
  | false =>
    rw [if_neg (by simp)]
    simp

theorem lowered_acr (s : List Char) : ∀ p, acr ((lowered p s).map isUp) = false := by
  induction s with
  | nil => intro p; rfl
  | cons c s ih =>
    intro p
    match s, ih with
    | [], _ => rfl
    | [d], _ =>
      simp only [lowered, List.map_cons, List.map_nil, acr]
      rw [lowered_bit, lowered_bit]
      cases isUp c <;> simp [nextUp]
    | d :: e :: r, ih =>
      have := ih (isUp c)
      simp only [lowered, List.map_cons, acr] at this ⊢
      rw [this, lowered_bit, lowered_bit, lowered_bit]
      simp only [nextUp]
      cases isUp c <;> cases isUp d <;> cases isUp e <;> simp

/-- There is no acronym in the replacement. -/
theorem no_acronym (g : Bool) (s r : List Char) (h : checkIdent g s = some r) : ¬ Acronym r := by
  rw [check_eq g s r h, ← acr_iff, lowered_acr]
  simp

theorem caps_acronym (s : List Char) (h : AllCaps s) : Acronym s := by
  obtain ⟨h1, h2⟩ := h
  match s, h1 with
  | x :: y :: z :: b, _ => exact Or.inl ⟨[], x, y, z, b, rfl, h2 x (by simp), h2 y (by simp), h2 z (by simp)⟩

theorem flagged_acronym (g : Bool) (s : List Char) (h : Flagged g s) : Acronym s := by
  rcases h with h | ⟨_, n, c, r, e, _, h⟩
  · exact caps_acronym s h
  · rw [e]
    exact acronym_append _ _ h

/-- The replacement is not reported again, whatever the options. -/
theorem settled (g g' : Bool) (s r : List Char) (h : checkIdent g s = some r) : checkIdent g' r = none := by
  cases e : checkIdent g' r with
  | none => rfl
  | some t =>
    have hf := (reported_iff g' r).1 (by rw [e]; rfl)
    exact absurd (flagged_acronym g' r hf) (no_acronym g s r h)

/-- The replacement is another name. -/
theorem other_name (g : Bool) (s r : List Char) (h : checkIdent g s = some r) : r ≠ s := by
  intro e
  have hf := (reported_iff g s).1 (by rw [h]; rfl)
  have := no_acronym g s r h
  rw [e] at this
  exact this (flagged_acronym g s hf)

theorem nextUp_iff (b : List Char) : nextUp b = true ↔ b = [] ∨ ∃ n b', b = n :: b' ∧ Up n := by
  cases b with
  | nil => exact ⟨fun _ => Or.inl rfl, fun _ => rfl⟩
  | cons n b =>
    rw [nextUp, isUp_iff]
    constructor
    · exact fun h => Or.inr ⟨n, b, rfl, h⟩
    · rintro (h | ⟨n', b', e, h⟩)
      · cases h
      · cases e; exact h

theorem lowered_at (a : List Char) : ∀ (p : Bool) (c : Char) (b a' : List Char) (c' : Char) (b' : List Char),
    lowered p (a ++ c :: b) = a' ++ c' :: b' → a'.length = a.length →
    (c' ≠ c ↔ Up c ∧ ((a = [] ∧ p = true) ∨ ∃ a0 q, a = a0 ++ [q] ∧ Up q) ∧ (b = [] ∨ ∃ n b', b = n :: b' ∧ Up n)) := by
  induction a with
  | nil =>
    intro p c b a' c' b' h hl
    have ha : a' = [] := List.length_eq_zero_iff.1 hl
    rw [ha, List.nil_append, List.nil_append, lowered] at h
    injection h with h _
    rw [← h, ← nextUp_iff]
    have hn : (∃ a0 q, ([] : List Char) = a0 ++ [q] ∧ Up q) ↔ False :=
      ⟨fun ⟨a0, q, e, _⟩ => by simp at e, False.elim⟩
    rw [hn]
    by_cases hb : (p && nextUp b) = true
    · rw [if_pos hb]
      rw [Bool.and_eq_true] at hb
      constructor
      · intro k
        refine ⟨?_, Or.inl ⟨rfl, hb.1⟩, hb.2⟩
        by_cases hu : Up c
        · exact hu
        · exact absurd (toLow_id c hu) k
      · exact fun k => toLow_ne c k.1
    · rw [if_neg hb]
      constructor
      · exact fun k => absurd rfl k
      · rintro ⟨_, ⟨_, k1⟩ | k1, k2⟩
        · exact absurd (by rw [k1, k2]; rfl) hb
        · exact k1.elim
  | cons x a ih =>
    intro p c b a' c' b' h hl
    cases a' with
    | nil => cases hl
    | cons x' a' =>
      rw [List.cons_append, List.cons_append, lowered] at h
      injection h with _ h
      have hl' : a'.length = a.length := by simpa using hl
      rw [ih (isUp x) c b a' c' b' h hl', isUp_iff]
      have hp : ((a = [] ∧ Up x) ∨ ∃ a0 q, a = a0 ++ [q] ∧ Up q) ↔
          ((x :: a = [] ∧ p = true) ∨ ∃ a0 q, x :: a = a0 ++ [q] ∧ Up q) := by
        constructor
        · rintro (⟨e, k⟩ | ⟨a0, q, e, k⟩)
          · exact Or.inr ⟨[], x, by rw [e]; rfl, k⟩
          · exact Or.inr ⟨x :: a0, q, by rw [e]; rfl, k⟩
        · rintro (⟨e, _⟩ | ⟨a0, q, e, k⟩)
          · cases e
          · cases a0 with
            | nil => cases e; exact Or.inl ⟨rfl, k⟩
            | cons y a0 => cases e; exact Or.inr ⟨a0, q, rfl, k⟩
      rw [hp]

/-- Exactly the letters inside an acronym change. -/
theorem changed_iff (g : Bool) (a b a' b' : List Char) (c c' : Char) (h : checkIdent g (a ++ c :: b) = some (a' ++ c' :: b'))
    (hl : a'.length = a.length) : c' ≠ c ↔ Inside a c b := by
  have := lowered_at a false c b a' c' b' (check_eq g _ _ h).symm hl
  rw [this, Inside]
  simp

example : checkIdent true "HTTPResponse".toList = some "HttpResponse".toList ∧ checkIdent false "WASD".toList = some "Wasd".toList ∧
    Inside "HT".toList 'T' "PResponse".toList := by
  refine ⟨by decide +kernel, by decide +kernel, by decide, ⟨"H".toList, 'T', rfl, by decide⟩, Or.inr ⟨'P', _, rfl, by decide⟩⟩

/-- An acronym before a digit or an underscore keeps its last letter large. -/
theorem before_digit : checkIdent true "HTTP2Server".toList = some "HttP2Server".toList ∧
    checkIdent true "FOO_Bar".toList = some "FoO_Bar".toList := by decide +kernel

/-! ## Items -/

theorem mem_report (g : Bool) (n s r : List Char) : (s, r) ∈ report g n ↔ s = n ∧ checkIdent g n = some r := by
  unfold report
  cases h : checkIdent g n with
  | none => simp
  | some t => simp [eq_comm]

/-- The reports of an item: those of its names, unless it comes from a macro or others may use it. -/
theorem item_iff (g : Cfg) (i : Item) (s : List Char) : (∃ r, (s, r) ∈ checkItem g i) ↔
    i.inMacro = false ∧ ¬ (g.avoidBreaking = true ∧ i.exported = true) ∧ s ∈ i.kind.names ∧ Flagged g.aggressive s := by
  rw [← reported_iff, Option.isSome_iff_exists]
  unfold checkItem
  by_cases h : (i.inMacro || (g.avoidBreaking && i.exported)) = true
  · rw [if_pos h]
    refine ⟨fun ⟨r, k⟩ => (by cases k), ?_⟩
    rintro ⟨h1, h2, _⟩
    rw [h1, Bool.false_or, Bool.and_eq_true] at h
    exact absurd h h2
  · rw [if_neg h]
    have h' : i.inMacro = false ∧ ¬ (g.avoidBreaking = true ∧ i.exported = true) := by
      simp only [Bool.or_eq_true, Bool.and_eq_true, not_or] at h
      exact ⟨by simpa using h.1, h.2⟩
    have e : ∀ P : Prop, (i.inMacro = false ∧ ¬ (g.avoidBreaking = true ∧ i.exported = true) ∧ P) ↔ P :=
      fun P => ⟨fun k => k.2.2, fun k => ⟨h'.1, h'.2, k⟩⟩
    rw [e]
    cases i.kind with
    | type n =>
      simp only [mem_report, Kind.names, List.mem_singleton]
      constructor
      · rintro ⟨r, e, k⟩
        exact ⟨e, r, by rw [e]; exact k⟩
      · rintro ⟨e, r, k⟩
        exact ⟨r, e, by rw [← e]; exact k⟩
    | enum n vs =>
      simp only [List.mem_append, List.mem_flatMap, mem_report, Kind.names, List.mem_cons]
      constructor
      · rintro ⟨r, ⟨e, k⟩ | ⟨v, hv, e, k⟩⟩
        · exact ⟨Or.inl e, r, by rw [e]; exact k⟩
        · exact ⟨Or.inr (by rw [e]; exact hv), r, by rw [e]; exact k⟩
      · rintro ⟨e | hv, r, k⟩
        · exact ⟨r, Or.inl ⟨e, by rw [← e]; exact k⟩⟩
        · exact ⟨r, Or.inr ⟨s, hv, rfl, k⟩⟩
    | other => simp [Kind.names]

/-- What is suggested is the replacement of the name. -/
theorem item_repl (g : Cfg) (i : Item) (s r : List Char) (h : (s, r) ∈ checkItem g i) : checkIdent g.aggressive s = some r := by
  unfold checkItem at h
  by_cases hc : (i.inMacro || (g.avoidBreaking && i.exported)) = true
  · rw [if_pos hc] at h; cases h
  · rw [if_neg hc] at h
    cases hk : i.kind with
    | type n =>
      rw [hk] at h
      have := (mem_report _ _ _ _).1 h
      rw [this.1]; exact this.2
    | enum n vs =>
      rw [hk] at h
      rcases List.mem_append.1 h with h | h
      · have := (mem_report _ _ _ _).1 h
        rw [this.1]; exact this.2
      · obtain ⟨v, _, h⟩ := List.mem_flatMap.1 h
        have := (mem_report _ _ _ _).1 h
        rw [this.1]; exact this.2
    | other => rw [hk] at h; cases h

example : checkItem ⟨true, false⟩ ⟨false, false, .enum "Flags".toList ["NS".toList, "CWR".toList]⟩ = [("CWR".toList, "Cwr".toList)] := by
  decide +kernel

end Verif.Acronyms
